import Verif.MemDel
import Verif.FlatSpec
/-!
# Adding a message to a bundle in place of those with its address; renaming a message
-/

namespace Libo.Mem
open Libo

/-- The address of a message. -/
def LMsg.str : LMsg → Option Bytes | .mk _ a _ => a.map (·.2.1)

/-- Taking a message out of a bundle and freeing it. -/
theorem removeOne_lay {m : Memory} (wf : WF m) {b a : Nat} {tail : Ptr} {addr : Option (Nat × Bytes × Bytes)} {args : List LAtom}
    {as bs : List LMsg} (l : LayW m 46 (.bndl b tail (as ++ .mk a addr args :: bs)))
    (nd : (LW.bndl b tail (as ++ .mk a addr args :: bs)).foot.Nodup) :
    ∃ m1 m2 m3 tail', removeMsg b a m = some ((), m1) ∧ msgFree (3 * m1.brk + 3) a m1 = some ((), m2) ∧
      setBndl b (fun c => { c with count := c.count - 1 }) m2 = some ((), m3) ∧
      LayW m3 46 (.bndl b tail' (as ++ bs)) ∧ (LW.bndl b tail' (as ++ bs)).foot.Nodup ∧
      Own (LW.bndl b tail (as ++ .mk a addr args :: bs)).foot m (LW.bndl b tail' (as ++ bs)).foot m3 ∧ m3.brk = m.brk := by
  obtain ⟨m1, r1, r2, r3, r4, r5, r6, r7⟩ := removeMsg_lay l nd
  have o1 := own_same wf r2 (fun x hx => wf.lt (layW_alloc _ l x hx)) r7
  simp only [LW.foot, footMs_append, footMs] at nd
  have nd' : (b :: ([] ++ (footMs as ++ a :: ((footAddr addr ++ footAs args) ++ footMs bs)))).Nodup := by simpa using nd
  obtain ⟨⟨d1, d2, d3, d4, d5⟩, e0, e1, ⟨e2, e3⟩, e4, i1, i2, i3⟩ := dist_mid nd'
  have ndx : (footMs [.mk a addr args]).Nodup := by
    simp only [footMs, List.append_nil, List.nodup_cons]; exact ⟨e2, i2⟩
  have hf := msgFree_lay o1.wf r6 ndx
  have hb : b ∉ footMs [LMsg.mk a addr args] := by
    simp only [footMs, List.append_nil, List.mem_cons, not_or]; exact ⟨d1, d4⟩
  have hr : ∀ x ∈ footMs (as ++ bs), x ≠ b ∧ x ∉ footMs [LMsg.mk a addr args] := fun x hx => by
    simp only [footMs_append, List.mem_append] at hx
    simp only [footMs, List.append_nil, List.mem_cons, not_or]
    rcases hx with h | h
    · exact ⟨ne_of h d3, (e1 x h).1, (e1 x h).2.1⟩
    · exact ⟨ne_of h d5, ne_of h e3, fun h' => e4 x h' h⟩
  have hc : (m1.erase (footMs [.mk a addr args])).cell b = _ := (erase_ne m1 hb).trans r3
  have o2 : Own (footMs [.mk a addr args]) m1 [] (m1.erase (footMs [.mk a addr args])) := own_erase o1.wf
  have hbb : b < m1.brk := o1.wf.lt (by rw [r3]; rfl)
  refine ⟨m1, _, _, (if some a = tail then ltM none as else tail), r1, hf, setBndl_run _ hc, ?_, ?_, ?_, by rw [set_brk]; exact r2⟩
  · simp only [LayW, true_and]
    refine ⟨?_, r4, layMsgs_frame _ _ _ (fun x hx => ?_) r5⟩
    · rw [set_self]
      simp
      omega
    · rw [set_ne _ _ (hr x hx).1, erase_ne m1 (hr x hx).2]
  · simp only [LW.foot, footMs_append, List.nodup_cons, List.mem_append, not_or, List.nodup_append]
    exact ⟨⟨d3, d5⟩, i1, i3, fun x hx y hy h => (e1 x hx).2.2 (h ▸ hy)⟩
  · have o3 : Own [b] (m1.erase (footMs [.mk a addr args])) [b] _ :=
      own_same (F := [b]) o2.wf (set_brk _ b (some (.bndl ⟨((as ++ LMsg.mk a addr args :: bs).length : Int) - 1, hdM none (as ++ bs),
        if some a = tail then ltM none as else tail⟩))) (fun x hx => by simp at hx; subst hx; exact hbb)
        (fun x hx => set_ne _ _ (by simpa using hx))
    have o2' := o2.frame (b :: footMs (as ++ bs))
    have o3' := o3.frame (footMs (as ++ bs))
    refine (o1.trans (o2'.congr (fun x => ?_) (fun x => Iff.rfl))).trans (o3'.congr (fun x => ?_) fun x => ?_)
    · simp only [LW.foot, footMs_append, footMs, List.append_nil, List.mem_append, List.mem_cons]
      grind
    · simp
    · simp [LW.foot]

/-- The loop that frees the messages with a given address. -/
theorem removeLoop_lay (b : Nat) (s : Bytes) : ∀ (rest done : List LMsg) (f : Nat) {m : Memory} {tail : Ptr}, WF m →
    LayW m 46 (.bndl b tail (done ++ rest)) → (LW.bndl b tail (done ++ rest)).foot.Nodup → rest.length < f →
    ∃ m' tail', removeLoop true b s f (hdM none rest) m = some ((), m') ∧
      LayW m' 46 (.bndl b tail' (done ++ rest.filter (fun x => x.str != some s))) ∧
      (LW.bndl b tail' (done ++ rest.filter (fun x => x.str != some s))).foot.Nodup ∧
      Own (LW.bndl b tail (done ++ rest)).foot m (LW.bndl b tail' (done ++ rest.filter (fun x => x.str != some s))).foot m' ∧
      m'.brk = m.brk
  | [], done, f, m, tail, wf, l, nd, hf => by
    refine ⟨m, tail, ?_, by simpa using l, by simpa using nd, by simpa using Own.refl wf _, rfl⟩
    cases f <;> rfl
  | .mk p addr args :: rest, done, f, m, tail, wf, l, nd, hf => by
    simp only [List.length_cons] at hf
    obtain ⟨f, rfl⟩ : ∃ g, f = g + 1 := ⟨f - 1, by omega⟩
    have l' := l
    simp only [LayW, true_and] at l'
    have l'' := l'.2.2
    rw [layMsgs_append] at l''
    simp only [LayMsgs] at l''
    obtain ⟨-, lc, la, -, -⟩ := l''
    rw [hdM_cons, removeLoop, seq_run (msgAt_run lc)]
    have app : ∀ r, done ++ LMsg.mk p addr args :: r = (done ++ [LMsg.mk p addr args]) ++ r := by simp
    match addr, la with
    | none, _ =>
      simp only [Option.map_none, if_true]
      have hk : (LMsg.mk p none args).str != some s := by simp [LMsg.str]
      rw [List.filter_cons, if_pos hk]
      rw [app rest] at l nd ⊢
      rw [app (rest.filter _)]
      exact removeLoop_lay b s rest _ f wf l nd (by omega)
    | some (q, t, k), la =>
      simp only [Option.map_some]
      rw [seq_run (strAt_run la.1 la.2)]
      by_cases hs : s = t
      · subst hs
        have hk : ¬ ((LMsg.mk p (some (q, s, k)) args).str != some s) = true := by simp [LMsg.str]
        rw [if_pos rfl, List.filter_cons, if_neg hk]
        obtain ⟨m1, m2, m3, tail', r1, r2, r3, r4, r5, r6, r7⟩ := removeOne_lay wf l nd
        obtain ⟨m4, tail'', s1, s2, s3, s4, s5⟩ := removeLoop_lay b s rest done f r6.wf r4 r5 (by omega)
        refine ⟨m4, tail'', ?_, s2, s3, r6.trans s4, s5.trans r7⟩
        rw [seq_run r1, seq_run (fuel_run _), seq_run r2, seq_run r3, s1]
      · have hk : ((LMsg.mk p (some (q, t, k)) args).str != some s) = true := by
          simp [LMsg.str]; exact fun h => hs h.symm
        rw [if_neg hs, List.filter_cons, if_pos hk]
        rw [app rest] at l nd ⊢
        rw [app (rest.filter _)]
        exact removeLoop_lay b s rest _ f wf l nd (by omega)

theorem vals_filter (s : Bytes) : ∀ (ms : List LMsg) (vs : List VMsg), msgsVal (toMs ms) = some vs →
    msgsVal (toMs (ms.filter (fun x => x.str != some s))) = some (vs.filter (fun x => x.addr != some s))
  | [], vs, h => by simp only [toMs, msgsVal, Option.some.injEq] at h; subst h; rfl
  | .mk p addr args :: ms, vs, h => by
    simp only [toMs, msgsVal, msgVal, Option.bind_eq_some_iff, Option.map_eq_some_iff] at h
    obtain ⟨v, ⟨as, h1, rfl⟩, vs', h2, rfl⟩ := h
    have ih := vals_filter s ms vs' h2
    by_cases hk : ((LMsg.mk p addr args).str != some s) = true
    · rw [List.filter_cons, if_pos hk, List.filter_cons, if_pos (by simpa [VMsg.addr, LMsg.str] using hk)]
      simp [toMs, msgsVal, msgVal, h1, ih]
    · rw [List.filter_cons, if_neg hk, List.filter_cons, if_neg (by simpa [VMsg.addr, LMsg.str] using hk), ih]

theorem msgsVal_append (as bs : List UMsg) (vs ws : List VMsg) (h : msgsVal as = some vs) (k : msgsVal bs = some ws) :
    msgsVal (as ++ bs) = some (vs ++ ws) := by
  induction as generalizing vs with
  | nil => simp only [msgsVal, Option.some.injEq] at h; subst h; exact k
  | cons a as ih =>
    simp only [msgsVal, Option.bind_eq_some_iff, Option.map_eq_some_iff] at h
    obtain ⟨v, h1, vs', h2, rfl⟩ := h
    simp [msgsVal, h1, ih vs' h2]

theorem footMs_length : ∀ ms : List LMsg, ms.length ≤ (footMs ms).length
  | [] => Nat.zero_le _
  | .mk p t al :: as => by have := footMs_length as; simp [footMs]; omega

/-- Adding a message in place of those to its address. -/
theorem addNoDup_lay {m : Memory} (wf : WF m) {b p : Nat} {tail : Ptr} {ds : List LMsg} {dv : List VMsg}
    {addr : Nat × Bytes × Bytes} {args : List LAtom} {pv q : Ptr} {vs : List Val}
    (lb : LayW m 46 (.bndl b tail ds)) (l : LayMsgs m pv q [.mk p (some addr) args])
    (nd : ((LW.bndl b tail ds).foot ++ footMs [.mk p (some addr) args]).Nodup)
    (hd : msgsVal (toMs ds) = some dv) (hv : argsVal (toAs args) = some vs) :
    ∃ m' tail' ds', addMsgWithoutDups b p m = some ((), m') ∧ LayW m' 46 (.bndl b tail' ds') ∧ (LW.bndl b tail' ds').foot.Nodup ∧
      Own ((LW.bndl b tail ds).foot ++ footMs [.mk p (some addr) args]) m (LW.bndl b tail' ds').foot m' ∧
      msgsVal (toMs ds') = some (supersede dv (.mk (some addr.2.1) vs)) := by
  obtain ⟨a, s, k⟩ := addr
  have nd0 := List.nodup_append.mp nd
  have hlen := foot_len wf nd0.1 (layW_alloc _ lb)
  have l' := l
  simp only [LayMsgs, and_true] at l'
  have lb' := lb
  simp only [LayW, true_and] at lb'
  obtain ⟨m1, tail1, r1, r2, r3, r4, r5⟩ := removeLoop_lay b s ds [] (3 * m.brk + 3) wf (by simpa using lb) (by simpa using nd0.1) (by
    have := footMs_length ds
    simp only [LW.foot, List.length_cons] at hlen
    omega)
  simp only [List.nil_append] at r2 r3 r4
  have hlt : ∀ x ∈ footMs [LMsg.mk p (some (a, s, k)) args], x < m.brk := fun x hx => wf.lt (layMsgs_alloc _ _ _ l x hx)
  have hdj : ∀ x ∈ footMs [LMsg.mk p (some (a, s, k)) args], x ∉ (LW.bndl b tail ds).foot := fun x hx h => nd0.2.2 x h x hx rfl
  have l1 : LayMsgs m1 pv q [.mk p (some (a, s, k)) args] := r4.step.layMsgs wf l hdj
  have dj1 := r4.disj hlt hdj
  have nd1 : ((LW.bndl b tail1 (ds.filter (fun x => x.str != some s))).foot ++ footMs [.mk p (some (a, s, k)) args]).Nodup := by
    rw [List.nodup_append]
    exact ⟨r3, nd0.2.1, fun x hx y hy h => dj1 y hy (h ▸ hx)⟩
  obtain ⟨m2, tail2, a1, a2, a3, a4⟩ := addMsg_lay r2 l1 (by simpa [LW.foot] using nd1)
  have e2 : ∀ x, x ∈ (LW.bndl b tail1 (ds.filter (fun x => x.str != some s))).foot ++ footMs [.mk p (some (a, s, k)) args] ↔
      x ∈ (LW.bndl b tail2 (ds.filter (fun x => x.str != some s) ++ [.mk p (some (a, s, k)) args])).foot := fun x => by
    simp only [LW.foot, footMs_append, List.cons_append]
  have o2 : Own ((LW.bndl b tail1 (ds.filter (fun x => x.str != some s))).foot ++ footMs [.mk p (some (a, s, k)) args]) m1
      ((LW.bndl b tail1 (ds.filter (fun x => x.str != some s))).foot ++ footMs [.mk p (some (a, s, k)) args]) m2 :=
    own_same r4.wf a2 (fun x hx => by
      rcases List.mem_append.mp hx with h | h
      · exact r4.wf.lt (layW_alloc _ r2 x h)
      · exact r4.wf.lt (layMsgs_alloc _ _ _ l1 x h)) (fun x hx => a4 x (fun h => hx (by
        simp only [List.mem_append, LW.foot]; exact Or.inl h)) (fun h => hx (by simp [footMs, h])))
  refine ⟨m2, tail2, _, ?_, a3, ?_, ((r4.frame (footMs [.mk p (some (a, s, k)) args])).trans (o2.congr (fun _ => Iff.rfl) e2)), ?_⟩
  · rw [addMsgWithoutDups, seq_run (msgAt_run l'.1)]
    simp only [Option.map_some]
    rw [seq_run (strAt_run l'.2.1.1 l'.2.1.2), seq_run (bndlAt_run lb'.1), seq_run (fuel_run _), seq_run r1, a1]
  · simpa [LW.foot, footMs_append] using nd1
  · rw [toMs_append, supersede]
    refine msgsVal_append _ _ _ _ (vals_filter s ds dv hd) ?_
    simp [toMs, msgsVal, msgVal, hv]

/-- Renaming a message. -/
theorem setAddress_lay {m : Memory} (wf : WF m) {p : Nat} {a : Nat} {s0 k : Bytes} {args : List LAtom} {pv q : Ptr} (s : Bytes)
    (l : LayMsgs m pv q [.mk p (some (a, s0, k)) args]) (nd : (footMs [.mk p (some (a, s0, k)) args]).Nodup)
    (hs : s.head? = some 47) (h0 : (0 : UInt8) ∉ s) :
    ∃ m' a' k', setAddress p (some s) m = some ((), m') ∧ LayMsgs m' pv q [.mk p (some (a', s, k')) args] ∧
      (footMs [.mk p (some (a', s, k')) args]).Nodup ∧
      Own (footMs [.mk p (some (a, s0, k)) args]) m (footMs [.mk p (some (a', s, k')) args]) m' := by
  have hlt : ∀ x ∈ footMs [LMsg.mk p (some (a, s0, k)) args], x < m.brk := fun x hx => wf.lt (layMsgs_alloc _ _ _ l x hx)
  simp only [LayMsgs, LayAddr, and_true, Option.map_some] at l
  obtain ⟨l1, ⟨l2, l2'⟩, l3⟩ := l
  simp only [footMs, footAddr, List.append_nil, List.cons_append, List.nil_append, List.nodup_cons, List.mem_cons, not_or] at nd hlt
  have hrun : ∀ x, setAddress p (some s) m = x ↔ (if s0.length < s.length then (do free a; giveAddr p (some s)) else
      (do let b ← bufAt a; setCell a (.buf (s ++ 0 :: b.drop (s.length + 1))))) m = x := by
    intro x
    rw [setAddress]
    rw [if_neg (by simp [hs]), seq_run (msgAt_run l1)]
    simp only
    rw [seq_run (strAt_run l2 l2')]
  by_cases hlen : s0.length < s.length
  · have o1 : Own [a] m [] (m.set a none) := by rw [set_none]; exact own_erase wf
    have hp1 : (m.set a none).cell p = _ := (set_ne _ _ nd.1.1).trans l1
    have hp2 : ((m.set a none).grow (.buf (s ++ [0]))).cell p =
        some (.msg ⟨some a, args.length, hdA none args, ltA none args, hdM q [], pv⟩) := by
      rw [grow_cell, if_neg (by rw [set_brk]; have := hlt p (by simp); omega)]; exact hp1
    have hb : m.brk ≠ p := by have := hlt p (by simp); omega
    have hnb : ∀ x ∈ footAs args, x ≠ m.brk ∧ x ≠ a ∧ x ≠ p := fun x hx => by
      have := hlt x (by simp [hx])
      exact ⟨by omega, ne_of hx nd.2.1, ne_of hx nd.1.2⟩
    refine ⟨((m.set a none).grow (.buf (s ++ [0]))).set p
      (some (.msg ⟨some m.brk, args.length, hdA none args, ltA none args, hdM q [], pv⟩)), m.brk, [], (hrun _).mpr ?_, ?_, ?_, ?_⟩
    · rw [if_pos hlen, seq_run (free_run l2), giveAddr, seq_run (new_run _ _), setMsg_run _ hp2]
      rfl
    · simp only [LayMsgs, LayAddr, and_true, Option.map_some]
      refine ⟨set_self _ _ _, ⟨?_, h0⟩, layArgs_frame _ _ _ (fun x hx => ?_) l3⟩
      · rw [set_ne _ _ hb, grow_cell, if_pos (set_brk m a none).symm]
      · rw [set_ne _ _ (hnb x hx).2.2, grow_cell, if_neg (by rw [set_brk]; exact (hnb x hx).1), set_ne _ _ (hnb x hx).2.1]
    · simp only [footMs, footAddr, List.append_nil, List.cons_append, List.nil_append, List.nodup_cons, List.mem_cons, not_or]
      exact ⟨⟨Ne.symm hb, nd.1.2⟩, fun h => (hnb _ h).1 rfl, nd.2.2⟩
    · have o2 : Own [] (m.set a none) [m.brk] ((m.set a none).grow (.buf (s ++ [0]))) := by
        refine own_new (step_grow o1.wf _ _) (by simp) (fun x hx => ?_) (fun x hx => ?_) (by simp [grow_brk, set_brk]; omega)
        · simp at hx; subst hx; exact Nat.le_refl _
        · simp at hx; subst hx
          rw [grow_cell, if_pos (set_brk m a none).symm]; rfl
      have o3 : Own [p] ((m.set a none).grow (.buf (s ++ [0]))) [p] _ := own_same (F := [p]) o2.wf
        (set_brk _ p (some (.msg ⟨some m.brk, args.length, hdA none args, ltA none args, hdM q [], pv⟩)))
        (fun x hx => by simp at hx; subst hx; rw [grow_brk, set_brk]; have := hlt x (by simp); omega)
        (fun x hx => set_ne _ _ (by simpa using hx))
      refine (((o1.trans o2).frame (p :: footAs args)).trans ((o3.frame (m.brk :: footAs args)).congr (fun x => ?_)
        (fun x => Iff.rfl))).congr (fun x => ?_) (fun x => ?_)
      all_goals simp only [footMs, footAddr, List.append_nil, List.cons_append, List.nil_append, List.mem_cons]
      · grind
      · grind
  · refine ⟨m.set a (some (.buf (s ++ 0 :: (s0 ++ 0 :: k).drop (s.length + 1)))), a, (s0 ++ 0 :: k).drop (s.length + 1),
      (hrun _).mpr ?_, ?_, ?_, ?_⟩
    · rw [if_neg hlen, seq_run (bufAt_run l2)]
      simp [setCell, l2]
    · simp only [LayMsgs, LayAddr, and_true, Option.map_some]
      exact ⟨by rw [set_ne _ _ nd.1.1, l1], ⟨set_self _ _ _, h0⟩, layArgs_frame _ _ _ (fun x hx => set_ne _ _ (ne_of hx nd.2.1)) l3⟩
    · simp only [footMs, footAddr, List.append_nil, List.cons_append, List.nil_append, List.nodup_cons, List.mem_cons, not_or]
      exact nd
    · refine own_same wf (set_brk _ _ _) (fun x hx => hlt x (by simpa [footMs, footAddr] using hx)) (fun x hx => set_ne _ _ (fun e => hx (by
        simp [footMs, footAddr, e])))

end Libo.Mem
