import Verif.MemExplode
import Verif.ExplodeSpec
import Verif.MemFlatLemmas
import Verif.Props.Match
/-!
# What exploding leaves in memory
-/

namespace Libo.Mem
open Libo Libo.Expr

theorem cutLoop_eq (c : UInt8) (a : Bytes) : ∀ (n i : Nat), a.length - i ≤ n → i < a.length →
    cutLoop c a n i = i + 1 + ((a.drop (i + 1)).takeWhile (· ≠ c)).length
  | 0, i, h, hi => by omega
  | n + 1, i, h, hi => by
    rw [cutLoop, if_pos hi]
    rcases Nat.lt_or_ge (i + 1) a.length with h1 | h1
    · rw [List.drop_eq_getElem_cons h1, List.takeWhile_cons, List.getElem?_eq_getElem h1]
      by_cases hc : a[i + 1] = c
      · rw [if_pos (by rw [hc])]; simp [hc]
      · rw [if_neg (by simpa using hc), cutLoop_eq c a n (i + 1) (by omega) h1]
        simp [hc]; omega
    · rw [List.getElem?_eq_none h1, if_neg (by simp), List.drop_eq_nil_of_le h1]
      cases n with
      | zero => simp [cutLoop]
      | succ n => rw [cutLoop, if_neg (by omega)]; simp

theorem cut_eq : ∀ {a : Bytes}, a.head? = some 47 → cut 47 a = (firstSeg a).length
  | [], h => by simp at h
  | [x], h => by
    simp at h; subst h; rfl
  | x :: y :: s, h => by
    simp only [List.head?_cons, Option.some.injEq] at h
    subst h
    rw [cut, if_pos (by simp), cutLoop_eq 47 _ _ 1 (by simp) (by simp)]
    simp [firstSeg]; omega

theorem take_cut {a : Bytes} (h : a.head? = some 47) : a.take (cut 47 a) = firstSeg a := by
  rw [cut_eq h]
  conv => lhs; arg 2; rw [← firstSeg_restSeg a]
  rw [List.take_left]

theorem drop_cut {a : Bytes} (h : a.head? = some 47) : a.drop (cut 47 a) = restSeg a := by
  rw [cut_eq h]
  conv => lhs; arg 2; rw [← firstSeg_restSeg a]
  rw [List.drop_left]

theorem rest_cut {a : Bytes} (h : a.head? = some 47) (hr : restSeg a ≠ []) : restAddr a (cut 47 a) = restSeg a := by
  have e : a[cut 47 a]? = some 47 := by
    rw [← List.head?_drop, drop_cut h]; exact restSeg_head hr
  rw [restAddr, if_pos e, drop_cut h]

/-! ### Finding messages -/

/-- No stars in any address. -/
def NoStar (vs : List VMsg) : Prop := ∀ x ∈ vs, ∀ s, x.addr = some s → (42 : UInt8) ∉ s

theorem fullMatch_run {m : Memory} {q : Nat} {s t k : Bytes} (hs : Props.Plain s) (hs47 : s.head? = some 47)
    (ht : m.cell q = some (.buf (t ++ 0 :: k))) (ht0 : (0 : UInt8) ∉ t) (ht47 : t.head? = some 47) (hst : (42 : UInt8) ∉ t) :
    fullMatch s q m = some (decide (s = t), m) := by
  obtain ⟨r, hr, -⟩ := Props.C14_total s t (fun h => (hs 0 h).1 rfl)
  have hi := Props.C12_plain_equality s t hs hs47 ht0 ht47 hst
  rw [fullMatch, seq_run (strAt_run ht ht0), hr, seq_run (ofOpt_run rfl _), pure_run]
  have : (r.code = 3) = (s = t) := by
    rw [← hi, hr]; simp
  simp only [this]

theorem addressExists_run {m : Memory} {s : Bytes} (hs : Props.Plain s) (hs47 : s.head? = some 47) : ∀ (ms : List LMsg) {vs : List VMsg}
    {pv : Ptr} {f : Nat}, LayMsgs m pv none ms → msgsVal (toMs ms) = some vs → GoodMsgs vs → NoStar vs → ms.length ≤ f →
    addressExists s f (hdM none ms) m = some (decide (∃ x ∈ vs, x.addr = some s), m)
  | [], vs, pv, f, l, hv, hg, hn, hf => by
    simp only [toMs, msgsVal, Option.some.injEq] at hv
    subst hv
    cases f <;> simp [hdM, addressExists, pure_run]
  | .mk p addr args :: ms, vs, pv, f, l, hv, hg, hn, hf => by
    simp only [toMs, msgsVal, msgVal, Option.bind_eq_some_iff, Option.map_eq_some_iff] at hv
    obtain ⟨x, ⟨av, hav, rfl⟩, vs', hvs, rfl⟩ := hv
    simp only [List.length_cons] at hf
    obtain ⟨f, rfl⟩ : ∃ g, f = g + 1 := ⟨f - 1, by omega⟩
    simp only [LayMsgs] at l
    obtain ⟨l1, l2, l3, l4⟩ := l
    match addr, hg, hn, l1, l2 with
    | none, hg, _, _, _ => simp [GoodMsgs, GoodMsg] at hg
    | some (a0, t, k), hg, hn, l1, l2 =>
      simp only [Option.map_some, GoodMsgs, GoodMsg] at hg
      simp only [LayAddr] at l2
      have hn1 := hn _ (List.mem_cons_self ..) t rfl
      have ih := addressExists_run hs hs47 ms (f := f) l4 hvs hg.2 (fun x hx => hn x (List.mem_cons_of_mem _ hx)) (by omega)
      rw [hdM_cons, addressExists, seq_run (msgAt_run l1)]
      simp only [Option.map_some]
      rw [seq_run (fullMatch_run hs hs47 l2.1 l2.2 hg.1.1 hn1)]
      by_cases e : s = t
      · subst e
        simp only [decide_true, if_true, pure_run]
        simp [VMsg.addr]
      · rw [if_neg (by simpa using e), ih]
        have : (∃ x ∈ vs', x.addr = some s) = ∃ x ∈ VMsg.mk (some t) av :: vs', x.addr = some s := by
          simp [VMsg.addr, Ne.symm e]
        simp only [this]

/-- Each of these messages is in memory, on its own. -/
def LayEach (m : Memory) (l : List LMsg) : Prop := ∀ x ∈ l, LayMsgs m none none [x]

theorem layEach_alloc {m : Memory} : ∀ {l : List LMsg}, LayEach m l → ∀ x ∈ footMs l, (m.cell x).isSome
  | [], _, x, hx => by simp [footMs] at hx
  | .mk p a args :: l, h, x, hx => by
    have e : footMs (.mk p a args :: l) = footMs [.mk p a args] ++ footMs l := footMs_append [.mk p a args] l
    rw [e] at hx
    rcases List.mem_append.mp hx with hx | hx
    · exact layMsgs_alloc _ _ _ (h _ (List.mem_cons_self ..)) x hx
    · exact layEach_alloc (fun y hy => h y (List.mem_cons_of_mem _ hy)) x hx

theorem mem_footMs {x : Nat} : ∀ {l : List LMsg} {y : LMsg}, y ∈ l → x ∈ footMs [y] → x ∈ footMs l
  | z :: l, y, hy, hx => by
    have e : footMs (z :: l) = footMs [z] ++ footMs l := footMs_append [z] l
    rw [e]
    rcases List.mem_cons.mp hy with rfl | hy
    · exact List.mem_append.mpr (Or.inl hx)
    · exact List.mem_append.mpr (Or.inr (mem_footMs hy hx))

theorem LayEach.step {m m' : Memory} {S : List Nat} {l : List LMsg} (h : LayEach m l) (st : Step S m m') (wf : WF m)
    (hd : ∀ x ∈ footMs l, x ∉ S) : LayEach m' l := fun y hy => st.layMsgs wf (h y hy) fun x hx => hd x (mem_footMs hy hx)

/-- The messages found are copied. -/
theorem lookup_lay {s : Bytes} (hs : Props.Plain s) (hs47 : s.head? = some 47) : ∀ (ms : List LMsg) {m : Memory} (_ : WF m) {vs : List VMsg}
    {pv : Ptr} {f : Nat}, LayMsgs m pv none ms → (footMs ms).Nodup → msgsVal (toMs ms) = some vs → GoodMsgs vs → NoStar vs →
    sizeVMsgs vs < 2147483648 → ms.length ≤ f →
    ∃ l m', lookupLoop s f (hdM none ms) m = some (l.map LMsg.p, m') ∧ LayEach m' l ∧ (footMs l).Nodup ∧ Own [] m (footMs l) m' ∧
      msgsVal (toMs l) = some (vs.filter fun x => x.addr == some s)
  | [], m, wf, vs, pv, f, l, nd, hv, hg, hn, hsz, hf => by
    simp only [toMs, msgsVal, Option.some.injEq] at hv
    subst hv
    refine ⟨[], m, ?_, fun y hy => by simp at hy, by simp [footMs], Own.refl wf _, rfl⟩
    cases f <;> simp [hdM, lookupLoop, pure_run]
  | .mk p addr args :: ms, m, wf, vs, pv, f, l, nd, hv, hg, hn, hsz, hf => by
    simp only [toMs, msgsVal, msgVal, Option.bind_eq_some_iff, Option.map_eq_some_iff] at hv
    obtain ⟨x, ⟨av, hav, rfl⟩, vs', hvs, rfl⟩ := hv
    simp only [List.length_cons] at hf
    obtain ⟨f, rfl⟩ : ∃ g, f = g + 1 := ⟨f - 1, by omega⟩
    have hl0 : LayMsgs m pv (hdM none ms) [.mk p addr args] ∧ LayMsgs m (some p) none ms :=
      (layMsgs_append m pv none [.mk p addr args] ms).mp l
    have hft : footMs (.mk p addr args :: ms) = footMs [.mk p addr args] ++ footMs ms := footMs_append [.mk p addr args] ms
    rw [hft] at nd
    have nd0 := List.nodup_append.mp nd
    simp only [LayMsgs] at l
    obtain ⟨l1, l2, l3, l4⟩ := l
    match addr, hg, hn, l1, l2, hsz, hl0, nd0 with
    | none, hg, _, _, _, _, _, _ => simp [GoodMsgs, GoodMsg] at hg
    | some (a0, t, k), hg, hn, l1, l2, hsz, hl0, nd0 =>
      simp only [Option.map_some, GoodMsgs, GoodMsg] at hg
      simp only [LayAddr] at l2
      simp only [Option.map_some, sizeVMsgs, sizeVMsg] at hsz
      have hn1 := hn _ (List.mem_cons_self ..) t rfl
      have hn' : NoStar vs' := fun x hx => hn x (List.mem_cons_of_mem _ hx)
      rw [hdM_cons, lookupLoop, seq_run (msgAt_run l1)]
      simp only [Option.map_some, deref]
      rw [seq_run (ofOpt_run rfl _), seq_run (fullMatch_run hs hs47 l2.1 l2.2 hg.1.1 hn1)]
      by_cases e : s = t
      · subst e
        rw [if_pos (by simp)]
        obtain ⟨c, addr', args', m1, r1, lc, ndc, hge, st, hca, hcv, hcl⟩ := deepCopy_lay wf hl0.1 nd0.1 hav
          (copyable_of hg.1.2.2 (by omega))
        have o1 : Own [] m (footMs [.mk c addr' args']) m1 := own_new st ndc hge (layMsgs_alloc _ _ _ lc) hcl
        obtain ⟨L, m2, r2, q1, q2, q3, q4⟩ := lookup_lay hs hs47 ms st.wf (f := f) (st.layMsgs wf hl0.2 (by simp)) nd0.2.1 hvs hg.2 hn'
          (by omega) (by omega)
        have hft' : footMs (.mk c addr' args' :: L) = footMs [.mk c addr' args'] ++ footMs L := footMs_append [.mk c addr' args'] L
        have hdis : ∀ x ∈ footMs [LMsg.mk c addr' args'], x ∉ footMs L :=
          q3.disj (fun x hx => st.wf.lt (layMsgs_alloc _ _ _ lc x hx)) (by simp)
        refine ⟨.mk c addr' args' :: L, m2, ?_, ?_, ?_, ?_, ?_⟩
        · rw [seq_run r1, seq_run r2]; rfl
        · intro y hy
          rcases List.mem_cons.mp hy with rfl | hy
          · exact q3.step.layMsgs st.wf lc (by simp)
          · exact q1 y hy
        · rw [hft', List.nodup_append]
          exact ⟨ndc, q2, fun x hx y hy h => hdis x hx (h ▸ hy)⟩
        · rw [hft']
          exact o1.trans ((q3.frame (footMs [.mk c addr' args'])).congr (fun x => by simp) (fun x => by
            simp only [List.mem_append]; exact Or.comm))
        · rw [List.filter_cons, if_pos (by simp [VMsg.addr])]
          simp only [toMs, msgsVal, msgVal, hcv, hca, q4]
          rfl
      · rw [if_neg (by simpa using e)]
        obtain ⟨L, m2, r2, q1, q2, q3, q4⟩ := lookup_lay hs hs47 ms wf (f := f) l4 nd0.2.1 hvs hg.2 hn' (by omega) (by omega)
        refine ⟨L, m2, r2, q1, q2, q3, ?_⟩
        rw [List.filter_cons, if_neg (by simpa [VMsg.addr] using fun h => e h.symm)]
        exact q4

/-! ### Clearing and freeing messages -/

theorem clearArgs_lay {m : Memory} (wf : WF m) {p : Nat} {addr : Option (Nat × Bytes × Bytes)} {args : List LAtom} {pv q : Ptr}
    (l : LayMsgs m pv q [.mk p addr args]) (nd : (footMs [.mk p addr args]).Nodup) :
    ∃ m', clearArgs p m = some ((), m') ∧ LayMsgs m' pv q [.mk p addr []] ∧
      Own (footMs [.mk p addr args]) m (footMs [.mk p addr []]) m' := by
  have hlen := foot_len wf nd (layMsgs_alloc _ _ _ l)
  have hlt : ∀ x ∈ footMs [LMsg.mk p addr args], x < m.brk := fun x hx => wf.lt (layMsgs_alloc _ _ _ l x hx)
  simp only [LayMsgs, and_true] at l
  obtain ⟨l1, l2, l3⟩ := l
  simp only [footMs, footAs, List.append_nil] at nd hlen hlt ⊢
  have nd1 := List.nodup_cons.mp nd
  have nd2 := List.nodup_append.mp nd1.2
  simp only [List.length_cons, List.length_append] at hlen
  have hpA : p ∉ footAs args := fun h => nd1.1 (by simp [h])
  have hpD : p ∉ footAddr addr := fun h => nd1.1 (by simp [h])
  have h1 := setMsg_run (fun c => { c with argc := 0 }) l1
  simp only at h1
  have c1 := set_self m p (some (Cell.msg ⟨addr.map (·.1), 0, hdA none args, ltA none args, hdM q [], pv⟩))
  have la : LayArgs (m.set p (some (Cell.msg ⟨addr.map (·.1), 0, hdA none args, ltA none args, hdM q [], pv⟩))) none none args :=
    layArgs_frame _ _ _ (fun x hx => set_ne _ _ (ne_of hx hpA)) l3
  have h2 := atomsFree_lay none args (3 * m.brk + 3) la nd2.2.1 (by omega)
  have c2 : ((m.set p (some (Cell.msg ⟨addr.map (·.1), 0, hdA none args, ltA none args, hdM q [], pv⟩))).erase (footAs args)).cell p =
      some (Cell.msg ⟨addr.map (·.1), 0, hdA none args, ltA none args, hdM q [], pv⟩) := by rw [erase_ne _ hpA, c1]
  have h3 := setMsg_run (fun c => { c with head := none, tail := none }) c2
  simp only at h3
  have hrun := fun (x : Nat) (hx : x ≠ p) (hA : x ∉ footAs args) =>
    (set_ne ((m.set p (some (Cell.msg ⟨addr.map (·.1), 0, hdA none args, ltA none args, hdM q [], pv⟩))).erase (footAs args))
      (some (Cell.msg ⟨addr.map (·.1), 0, none, none, hdM q [], pv⟩)) hx).trans ((erase_ne _ hA).trans (set_ne m _ hx))
  refine ⟨((m.set p (some (Cell.msg ⟨addr.map (·.1), 0, hdA none args, ltA none args, hdM q [], pv⟩))).erase (footAs args)).set p
      (some (Cell.msg ⟨addr.map (·.1), 0, none, none, hdM q [], pv⟩)), ?_, ?_, ?_⟩
  rotate_left
  · simp only [LayMsgs, LayArgs, and_true]
    exact ⟨set_self _ _ _, layAddr_frame (fun x hx => hrun x (ne_of hx hpD) (fun h => nd2.2.2 x hx x h rfl)) l2⟩
  · refine ⟨Nat.le_refl _, ?_, ?_, ?_, ?_⟩
    · intro b hb
      have hb' : m.brk ≤ b := hb
      by_cases hA : b ∈ footAs args
      · have := hlt b (by simp [hA]); omega
      · rw [hrun b (fun h => by have := hlt p (by simp); omega) hA, wf b hb']
    · intro x _ hx
      simp only [List.mem_cons, List.mem_append, not_or] at hx
      exact hrun x hx.1 hx.2.2
    · intro x hx
      simp only [List.mem_cons] at hx ⊢
      rcases hx with h | h <;> simp [h]
    · intro x hx hF
      simp only [List.mem_cons, not_or] at hx
      rw [set_ne _ _ hx.1]
      by_cases hA : x ∈ footAs args
      · rw [erase_cell, if_pos hA]
      · rw [erase_ne _ hA, set_ne _ _ hx.1]
        rcases hF with h | h
        · simp only [List.mem_cons, List.mem_append] at h
          exact absurd h (by simp only [not_or]; exact ⟨hx.1, hx.2, hA⟩)
        · exact wf x h
  · rw [clearArgs, seq_run h1, seq_run (msgAt_run c1), seq_run (fuel_run _)]
    rw [set_brk]
    rw [seq_run h2, h3]

/-- What is done with an element of the message array. -/
theorem elemFree_lay {m : Memory} (wf : WF m) {p : Nat} {addr : Option (Nat × Bytes × Bytes)} {args : List LAtom} {pv q : Ptr}
    (l : LayMsgs m pv q [.mk p addr args]) (nd : (footMs [.mk p addr args]).Nodup) (k : M Unit) :
    ∃ m', (do clearArgs p; let c ← msgAt p; whenSome c.addr free; free p; k : M Unit) m = k m' ∧
      Own (footMs [.mk p addr args]) m [] m' := by
  obtain ⟨m1, r1, l1, o1⟩ := clearArgs_lay wf l nd
  have nd1 : p ∉ footAddr addr := by
    simp only [footMs, List.nodup_cons, List.mem_append] at nd
    exact fun h => nd.1 (Or.inl h)
  simp only [LayMsgs, and_true] at l1
  refine ⟨m1.erase (p :: footAddr addr), ?_, o1.trans ?_⟩
  · rw [seq_run r1, seq_run (msgAt_run l1.1), seq_run (addrFree l1.2.1), seq_run (free_erase (by rw [l1.1]; rfl) nd1)]
  · have := own_erase (F := p :: footAddr addr) o1.wf
    simpa [footMs, footAs] using this

theorem msgElemsFree_lay : ∀ (L : List LMsg) {m : Memory} (_ : WF m), LayEach m L → (footMs L).Nodup →
    ∃ m', msgElemsFree (L.map LMsg.p) m = some ((), m') ∧ Own (footMs L) m [] m'
  | [], m, wf, _, _ => ⟨m, rfl, by simpa [footMs] using Own.refl wf []⟩
  | .mk p addr args :: L, m, wf, l, nd => by
    have hft : footMs (.mk p addr args :: L) = footMs [.mk p addr args] ++ footMs L := footMs_append [.mk p addr args] L
    rw [hft] at nd ⊢
    have nd0 := List.nodup_append.mp nd
    obtain ⟨m1, r1, o1⟩ := elemFree_lay wf (l _ (List.mem_cons_self ..)) nd0.1 (msgElemsFree (L.map LMsg.p))
    have lL : LayEach m L := fun y hy => l y (List.mem_cons_of_mem _ hy)
    obtain ⟨m2, r2, o2⟩ := msgElemsFree_lay L o1.wf (lL.step o1.step wf (fun x hx h => nd0.2.2 x h x hx rfl)) nd0.2.1
    refine ⟨m2, ?_, (o1.frame (footMs L)).trans (by simpa using o2)⟩
    rw [List.map_cons, LMsg.p, msgElemsFree]
    exact r1.trans r2

/-- The bundle that a message has as its only argument, or an empty one. -/
def onlyOf : List Val → List VMsg
  | [.bndl ns] => ns
  | _ => []

theorem bndlAlloc_lay {m : Memory} (wf : WF m) : ∃ m', bndlAlloc m = some (m.brk, m') ∧ LayW m' 46 (.bndl m.brk none []) ∧
    Own [] m (LW.bndl m.brk none []).foot m' := by
  refine ⟨m.grow (.bndl ⟨0, none, none⟩), new_run _ _, ?_, ?_⟩
  · simp only [LayW, LayMsgs, true_and, and_true]
    exact ⟨grow_self _ _, Or.inl rfl⟩
  · exact own_new (step_grow wf _ []) (by simp [LW.foot, footMs]) (by simp [LW.foot, footMs]) (by simp [LW.foot, footMs, grow_self])
      (by rw [grow_brk]; simp [LW.foot, footMs]; omega)

theorem openNew_lay {m : Memory} (wf : WF m) {p : Nat} {addr : Option (Nat × Bytes × Bytes)} {args : List LAtom} {pv q : Ptr}
    (l : LayMsgs m pv q [.mk p addr args]) (nd : (footMs [.mk p addr args]).Nodup) :
    ∃ b tail bs m', (do clearArgs p; bndlAlloc : M Nat) m = some (b, m') ∧ LayMsgs m' pv q [.mk p addr []] ∧
      LayW m' 46 (.bndl b tail bs) ∧ (footMs [.mk p addr []] ++ (LW.bndl b tail bs).foot).Nodup ∧
      Own (footMs [.mk p addr args]) m (footMs [.mk p addr []] ++ (LW.bndl b tail bs).foot) m' ∧ msgsVal (toMs bs) = some [] := by
  obtain ⟨m1, r1, l1, o1⟩ := clearArgs_lay wf l nd
  obtain ⟨m2, r2, l2, o2⟩ := bndlAlloc_lay o1.wf
  have hlt : ∀ x ∈ footMs [LMsg.mk p addr []], x < m1.brk := fun x hx => o1.wf.lt (layMsgs_alloc _ _ _ l1 x hx)
  refine ⟨m1.brk, none, [], m2, by rw [seq_run r1, r2], o2.step.layMsgs o1.wf l1 (by simp), l2, ?_, ?_, rfl⟩
  · rw [List.nodup_append]
    refine ⟨?_, by simp [LW.foot, footMs], fun x hx y hy e => ?_⟩
    · simp only [footMs, footAs, List.append_nil, List.nodup_cons, List.mem_append, List.nodup_append] at nd ⊢
      exact ⟨fun h => nd.1 (Or.inl h), nd.2.1⟩
    · subst e
      exact o2.disj hlt (by simp) x hx hy
  · refine o1.trans ((o2.frame (footMs [.mk p addr []])).congr (fun x => by simp) (fun x => ?_))
    simp only [List.mem_append]; exact Or.comm

theorem openOnly_lay {m : Memory} (wf : WF m) {p : Nat} {addr : Option (Nat × Bytes × Bytes)} {args : List LAtom} {pv q : Ptr}
    {vs : List Val} (l : LayMsgs m pv q [.mk p addr args]) (nd : (footMs [.mk p addr args]).Nodup)
    (hv : argsVal (toAs args) = some vs) (hg : GoodVals vs) (hs : sizeVals vs < 2147483648) :
    ∃ b tail bs m', openOnly p m = some (b, m') ∧ LayMsgs m' pv q [.mk p addr []] ∧ LayW m' 46 (.bndl b tail bs) ∧
      (footMs [.mk p addr []] ++ (LW.bndl b tail bs).foot).Nodup ∧
      Own (footMs [.mk p addr args]) m (footMs [.mk p addr []] ++ (LW.bndl b tail bs).foot) m' ∧
      msgsVal (toMs bs) = some (onlyOf vs) := by
  have hnew := openNew_lay wf l nd
  have l' := l
  simp only [LayMsgs, and_true] at l'
  obtain ⟨l1, l2, l3⟩ := l'
  rw [openOnly, seq_run (msgAt_run l1)]
  have hlen : args.length = vs.length := by rw [← argsVal_length _ _ hv, toAs_length]
  match args, l, nd, hv, hnew, l1, l3, hlen with
  | [], l, nd, hv, hnew, l1, l3, hlen =>
    have : vs = [] := List.length_eq_zero_iff.mp hlen.symm
    subst this
    rw [if_pos (by simp)]
    exact hnew
  | _ :: _ :: _, l, nd, hv, hnew, l1, l3, hlen =>
    rw [if_pos (by simp; omega)]
    match vs, hlen with
    | x :: y :: z, hlen =>
      have : onlyOf (x :: y :: z) = [] := by simp [onlyOf]
      rw [this]
      exact hnew
  | [.mk a t al w], l, nd, hv, hnew, l1, l3, hlen =>
    rw [if_neg (by simp)]
    simp only [LayArgs, and_true] at l3
    have hga : getArg p 0 m = some (some a, m) := by
      rw [getArg, seq_run (msgAt_run l1)]; rfl
    rw [seq_run hga]
    simp only [deref]
    rw [seq_run (ofOpt_run rfl _), seq_run (atomAt_run l3.1)]
    simp only [toAs, argsVal, Option.bind_eq_some_iff, Option.map_eq_some_iff] at hv
    obtain ⟨v, hv1, _, hvs, rfl⟩ := hv
    cases hvs
    rcases val_bndl hv1 with ⟨ht, hb⟩ | ⟨rfl, b, tl, lms, vms, rfl, hbv, rfl⟩
    · rw [if_pos (by exact ht)]
      have : onlyOf [v] = [] := by cases v <;> first | rfl | cases hb
      rw [this]
      exact hnew
    · rw [if_neg (by simp)]
      simp only [GoodVals, GoodVal, and_true] at hg
      simp only [sizeVals, sizeVal] at hs
      have hgp : getPtr a 46 m = some (some b, m) := by
        rw [getPtr, seq_run (atomAt_run l3.1)]; rfl
      have ndb : (LW.bndl b tl lms).foot.Nodup := by
        simp only [footMs, footAs, List.append_nil] at nd
        exact (List.nodup_cons.mp (List.nodup_append.mp (List.nodup_cons.mp nd).2).2.1).2
      obtain ⟨c, tail', ms', m1, r1, q1, q2, q3, q4, q5, q6⟩ := bndlCopy_lay wf l3.2 ndb hbv hg (by omega)
      have o1 : Own [] m (LW.bndl c tail' ms').foot m1 := own_new q4 q2 q3 (layW_alloc _ q1) q6
      obtain ⟨m2, r2, l4, o2⟩ := clearArgs_lay o1.wf (o1.step.layMsgs wf l (by simp)) nd
      have hltp : ∀ x ∈ footMs [LMsg.mk p addr [.mk a 46 al (.bndl b tl lms)]], x < m.brk :=
        fun x hx => wf.lt (layMsgs_alloc _ _ _ l x hx)
      have hdj : ∀ x ∈ (LW.bndl c tail' ms').foot, x ∉ footMs [LMsg.mk p addr [.mk a 46 al (.bndl b tl lms)]] := fun x hx h =>
        o1.disj hltp (by simp) x h hx
      have hltc : ∀ x ∈ (LW.bndl c tail' ms').foot, x < m1.brk := fun x hx => o1.wf.lt (layW_alloc _ q1 x hx)
      refine ⟨c, tail', ms', m2, ?_, l4, o2.step.layW o1.wf q1 hdj, ?_, ?_, by rw [q5]; rfl⟩
      · rw [seq_run hgp, seq_run (ofOpt_run rfl _), seq_run r1, seq_run r2, pure_run]
      · rw [List.nodup_append]
        refine ⟨?_, q2, fun x hx y hy e => ?_⟩
        · simp only [footMs, footAs, List.append_nil, List.nodup_cons, List.mem_append, List.nodup_append] at nd ⊢
          exact ⟨fun h => nd.1 (Or.inl h), nd.2.1⟩
        · subst e
          exact o2.disj hltc hdj x hy hx
      · refine ((o1.frame (footMs [.mk p addr [.mk a 46 al (.bndl b tl lms)]])).congr (fun x => by simp) (fun x => ?_)).trans
          (o2.frame (LW.bndl c tail' ms').foot)
        simp only [List.mem_append]; exact Or.comm

theorem appendBndl_lay {m : Memory} (wf : WF m) {x b : Nat} {ad : Option (Nat × Bytes × Bytes)} {args : List LAtom} {pv q : Ptr}
    {tail : Ptr} {bs : List LMsg} (l : LayMsgs m pv q [.mk x ad args]) (lb : LayW m 46 (.bndl b tail bs))
    (nd : (footMs [.mk x ad args] ++ (LW.bndl b tail bs).foot).Nodup) :
    ∃ a0 m', appendBndl x b m = some ((), m') ∧ LayMsgs m' pv q [.mk x ad (args ++ [.mk a0 46 false (.bndl b tail bs)])] ∧
      (footMs [.mk x ad (args ++ [.mk a0 46 false (.bndl b tail bs)])]).Nodup ∧
      Own (footMs [.mk x ad args] ++ (LW.bndl b tail bs).foot) m
        (footMs [.mk x ad (args ++ [.mk a0 46 false (.bndl b tail bs)])]) m' := by
  have hlt : ∀ y ∈ footMs [LMsg.mk x ad args] ++ (LW.bndl b tail bs).foot, y < m.brk := fun y hy => by
    rcases List.mem_append.mp hy with h | h
    · exact wf.lt (layMsgs_alloc _ _ _ l y h)
    · exact wf.lt (layW_alloc _ lb y h)
  have hne : ∀ y ∈ footMs [LMsg.mk x ad args] ++ (LW.bndl b tail bs).foot, y ≠ m.brk := fun y hy e => by
    have := hlt y hy; omega
  have o1 : Own [] m [m.brk] (m.grow (.atom ⟨0, false, .bits 0, none, none⟩)) :=
    own_new (step_grow wf _ []) (by simp) (by simp) (by simp [grow_self]) (by rw [grow_brk]; simp; omega)
  have o2 : Own [m.brk] (m.grow (.atom ⟨0, false, .bits 0, none, none⟩)) [m.brk]
      ((m.grow (.atom ⟨0, false, .bits 0, none, none⟩)).set m.brk (some (.atom ⟨46, false, .ptr b, none, none⟩))) :=
    own_same o1.wf (set_brk _ _ _) (fun y hy => by simp at hy; subst hy; rw [grow_brk]; omega)
      (fun y hy => set_ne _ _ (by simpa using hy))
  have o12 := o1.trans o2
  have c2 := set_self (m.grow (.atom ⟨0, false, .bits 0, none, none⟩)) m.brk (some (Cell.atom ⟨46, false, .ptr b, none, none⟩))
  have l2 := o12.step.layMsgs wf l (by simp)
  have lb2 := o12.step.layW wf lb (by simp)
  have nd2 : (footMs [.mk x ad args] ++ m.brk :: (LW.bndl b tail bs).foot).Nodup := by
    have := List.nodup_append.mp nd
    rw [List.nodup_append, List.nodup_cons]
    refine ⟨this.1, ⟨fun h => hne _ (by simp [h]) rfl, this.2.1⟩, fun y hy z hz => ?_⟩
    rcases List.mem_cons.mp hz with rfl | hz
    · exact hne y (by simp [hy])
    · exact this.2.2 y hy z hz
  obtain ⟨m3, r3, b3, l3, f3⟩ := appendAtom_lay (w := .bndl b tail bs) l2 c2 rfl lb2 nd2
  have hm : ∀ y, y ∈ footMs [.mk x ad (args ++ [.mk m.brk 46 false (.bndl b tail bs)])] ↔
      y ∈ (footMs [.mk x ad args] ++ m.brk :: (LW.bndl b tail bs).foot) := fun y => by
    simp only [footMs, footAs, footAs_append, List.append_nil, List.mem_append, List.mem_cons]
    grind
  have o3 : Own (footMs [.mk x ad args] ++ m.brk :: (LW.bndl b tail bs).foot) _ (footMs [.mk x ad args] ++ m.brk :: (LW.bndl b tail bs).foot) m3 :=
    own_same o12.wf b3 (fun y hy => by
      rw [set_brk, grow_brk]
      simp only [List.mem_append, List.mem_cons] at hy
      rcases hy with h | rfl | h
      · have := hlt y (by simp [h]); omega
      · omega
      · have := hlt y (by simp [h]); omega) (fun y hy => f3 y (fun h => hy (by
        simp only [footMs, List.append_nil, List.mem_append, List.mem_cons] at h ⊢
        rcases h with h | h <;> simp [h])) (fun h => hy (by simp [h])))
  refine ⟨m.brk, m3, ?_, l3, ?_, ?_⟩
  · rw [appendBndl, atomAlloc, seq_run (new_run _ _)]
    have : setBndlU m.brk b (m.grow (.atom ⟨0, false, .bits 0, none, none⟩)) = _ := setAtom_run _ (grow_self _ _)
    rw [seq_run this]
    exact r3
  · simp only [footMs, footAs, footAs_append, List.append_nil, List.nodup_append, List.nodup_cons, List.mem_append, List.mem_cons] at nd2 ⊢
    grind
  · refine ((o12.frame (footMs [.mk x ad args] ++ (LW.bndl b tail bs).foot)).congr (fun y => by simp) (fun y => ?_)).trans
      (o3.congr (fun _ => Iff.rfl) (fun y => (hm y).symm))
    simp only [List.mem_append, List.mem_cons, List.not_mem_nil, or_false]
    grind

theorem goodMsgs_mem : ∀ {vs : List VMsg} {x : VMsg}, GoodMsgs vs → x ∈ vs → GoodMsg x
  | y :: vs, x, hg, hx => by
    simp only [GoodMsgs] at hg
    rcases List.mem_cons.mp hx with rfl | hx
    · exact hg.1
    · exact goodMsgs_mem hg.2 hx

theorem sizeVMsgs_mem : ∀ {vs : List VMsg} {x : VMsg}, x ∈ vs → sizeVMsg x ≤ sizeVMsgs vs
  | y :: vs, x, hx => by
    simp only [sizeVMsgs]
    rcases List.mem_cons.mp hx with rfl | hx
    · omega
    · have := sizeVMsgs_mem hx; omega

theorem afresh_lay {m : Memory} (wf : WF m) {s : Bytes} (hs : s.head? = some 47) (h0 : (0 : UInt8) ∉ s) :
    ∃ x b a k tail bs m', afresh s m = some ((x, b), m') ∧ LayMsgs m' none none [.mk x (some (a, s, k)) []] ∧
      LayW m' 46 (.bndl b tail bs) ∧ (footMs [.mk x (some (a, s, k)) []] ++ (LW.bndl b tail bs).foot).Nodup ∧
      Own [] m (footMs [.mk x (some (a, s, k)) []] ++ (LW.bndl b tail bs).foot) m' ∧ msgsVal (toMs bs) = some [] := by
  obtain ⟨m1, r1, lb, o1⟩ := bndlAlloc_lay wf
  have wf1 := o1.wf
  have o2 : Own [] m1 [m1.brk] (m1.grow (.msg ⟨none, 0, none, none, none, none⟩)) :=
    own_new (step_grow wf1 _ []) (by simp) (by simp) (by simp [grow_self]) (by rw [grow_brk]; simp; omega)
  have c2 := grow_self m1 (.msg ⟨none, 0, none, none, none, none⟩)
  have o3 : Own [] (m1.grow (.msg ⟨none, 0, none, none, none, none⟩)) [m1.brk + 1]
      ((m1.grow (.msg ⟨none, 0, none, none, none, none⟩)).grow (.buf (s ++ [0]))) :=
    own_new (step_grow o2.wf _ []) (by simp) (by simp [grow_brk]) (by
      intro x hx; simp at hx; subst hx
      have := grow_self (m1.grow (.msg ⟨none, 0, none, none, none, none⟩)) (.buf (s ++ [0]))
      rw [grow_brk] at this; rw [this]; rfl) (by simp only [grow_brk, List.length_cons, List.length_nil]; omega)
  have c3 : ((m1.grow (.msg ⟨none, 0, none, none, none, none⟩)).grow (.buf (s ++ [0]))).cell m1.brk =
      some (.msg ⟨none, 0, none, none, none, none⟩) := by
    rw [grow_cell, if_neg (by rw [grow_brk]; omega), c2]
  have o4 : Own [m1.brk] ((m1.grow (.msg ⟨none, 0, none, none, none, none⟩)).grow (.buf (s ++ [0]))) [m1.brk]
      (((m1.grow (.msg ⟨none, 0, none, none, none, none⟩)).grow (.buf (s ++ [0]))).set m1.brk
        (some (.msg ⟨some (m1.brk + 1), 0, none, none, none, none⟩))) :=
    own_same o3.wf (set_brk _ _ _) (fun y hy => by simp at hy; subst hy; rw [grow_brk, grow_brk]; omega)
      (fun y hy => set_ne _ _ (by simpa using hy))
  have o24 : Own [] m1 [m1.brk, m1.brk + 1] _ := (o2.trans ((o3.frame [m1.brk]).congr (fun x => by simp)
    (fun x => Iff.rfl))).trans ((o4.frame [m1.brk + 1]).congr (fun x => by simp; exact Or.comm) (fun x => by simp))
  have hbl : m.brk < m1.brk := o1.wf.lt (layW_alloc _ lb _ (by simp [LW.foot]))
  refine ⟨m1.brk, m.brk, m1.brk + 1, [], none, [], _, ?_, ?_, o24.step.layW wf1 lb (by simp), ?_, ?_, rfl⟩
  · rw [afresh, seq_run r1, msgAlloc, seq_run (new_run _ _)]
    have : setAddress m1.brk (some s) (m1.grow (.msg ⟨none, 0, none, none, none, none⟩)) =
        some ((), ((m1.grow (.msg ⟨none, 0, none, none, none, none⟩)).grow (.buf (s ++ [0]))).set m1.brk
          (some (.msg ⟨some (m1.brk + 1), 0, none, none, none, none⟩))) := by
      rw [setAddress, if_neg (by simp [hs]), seq_run (msgAt_run c2)]
      simp only
      rw [giveAddr, seq_run (new_run _ _), setMsg_run _ c3]
      rfl
    rw [seq_run this, pure_run]
  · simp only [LayMsgs, LayArgs, LayAddr, and_true]
    refine ⟨set_self _ _ _, ?_, h0⟩
    rw [set_ne _ _ (by omega)]
    have := grow_self (m1.grow (.msg ⟨none, 0, none, none, none, none⟩)) (.buf (s ++ [0]))
    rw [grow_brk] at this
    exact this
  · simp only [footMs, footAddr, footAs, LW.foot, List.append_nil, List.cons_append, List.nil_append, List.nodup_cons, List.mem_cons,
      List.not_mem_nil, or_false, not_or]
    refine ⟨⟨by omega, by omega⟩, by omega, by simp⟩
  · refine o1.trans ((o24.frame (LW.bndl m.brk none []).foot).congr (fun x => by simp) (fun x => ?_))
    simp [footMs, footAddr, footAs, LW.foot]

theorem starFree_noStar : ∀ {vs : List VMsg}, StarFreeMs vs → NoStar vs
  | [], _, x, hx, _, _ => by simp at hx
  | .mk a as :: vs, h, x, hx, s, hs => by
    simp only [StarFreeMs] at h
    rcases List.mem_cons.mp hx with rfl | hx
    · exact h.1 s hs
    · exact starFree_noStar h.2.2 x hx s hs

theorem starFree_mem : ∀ {vs : List VMsg} {a : Option Bytes} {as : List Val}, StarFreeMs vs → .mk a as ∈ vs → StarFreeVs as
  | .mk a' as' :: vs, a, as, h, hx => by
    simp only [StarFreeMs] at h
    rcases List.mem_cons.mp hx with e | hx
    · cases e; exact h.2.1
    · exact starFree_mem h.2.2 hx

theorem subOf_find {dv : List VMsg} {a : Bytes} {ad : Option Bytes} {vs : List Val}
    (h : dv.find? (fun x => x.addr == some a) = some (.mk ad vs)) : subOf dv a = onlyOf vs := by
  rw [subOf, h]
  match vs with
  | [] => rfl
  | [v] => cases v <;> rfl
  | _ :: _ :: _ => simp [onlyOf]

theorem subOf_none {dv : List VMsg} {a : Bytes} (h : ¬ ∃ x ∈ dv, x.addr = some a) : subOf dv a = [] := by
  have : dv.find? (fun x => x.addr == some a) = none := by
    rw [List.find?_eq_none]
    intro x hx hb
    exact h ⟨x, hx, by simpa using hb⟩
  rw [subOf, this]

theorem reopen_lay {m : Memory} (wf : WF m) {s : Bytes} (hs : Props.Plain s) (hs47 : s.head? = some 47) {d : Nat} {tail : Ptr}
    {ds : List LMsg} {dv : List VMsg} (lb : LayW m 46 (.bndl d tail ds)) (nd : (LW.bndl d tail ds).foot.Nodup)
    (hd : msgsVal (toMs ds) = some dv) (hg : GoodMsgs dv) (hst : StarFreeMs dv) (hsz : sizeVMsgs dv < 2147483648)
    (hex : ∃ x ∈ dv, x.addr = some s) :
    ∃ x b a k tail bs m', reopen d s m = some ((x, b), m') ∧ LayMsgs m' none none [.mk x (some (a, s, k)) []] ∧
      LayW m' 46 (.bndl b tail bs) ∧ (footMs [.mk x (some (a, s, k)) []] ++ (LW.bndl b tail bs).foot).Nodup ∧
      Own [] m (footMs [.mk x (some (a, s, k)) []] ++ (LW.bndl b tail bs).foot) m' ∧ msgsVal (toMs bs) = some (subOf dv s) := by
  have hlen := foot_len wf nd (layW_alloc _ lb)
  have lb' := lb
  simp only [LayW, true_and] at lb'
  have nd' := nd
  simp only [LW.foot] at nd' hlen
  obtain ⟨L, m1, r1, q1, q2, q3, q4⟩ := lookup_lay hs hs47 ds wf (f := 3 * m.brk + 3) lb'.2.2 (List.nodup_cons.mp nd').2 hd hg
    (starFree_noStar hst) hsz (by
      have := footMs_length ds
      simp only [List.length_cons] at hlen
      omega)
  match L, r1, q1, q2, q3, q4 with
  | [], r1, q1, q2, q3, q4 =>
    exfalso
    simp only [toMs, msgsVal, Option.some.injEq] at q4
    obtain ⟨x, hx, he⟩ := hex
    have : x ∈ dv.filter fun x => x.addr == some s := List.mem_filter.mpr ⟨hx, by simp [he]⟩
    rw [← q4] at this
    simp at this
  | .mk y ad args :: L, r1, q1, q2, q3, q4 =>
    have hfind : ∃ av, argsVal (toAs args) = some av ∧ dv.find? (fun x => x.addr == some s) = some (.mk (ad.map (·.2.1)) av) := by
      simp only [toMs, msgsVal, msgVal, Option.bind_eq_some_iff, Option.map_eq_some_iff] at q4
      obtain ⟨_, ⟨av, hav, rfl⟩, vs', hvs, e⟩ := q4
      refine ⟨av, hav, ?_⟩
      rw [← List.head?_filter, ← e]; rfl
    obtain ⟨av, hav, hfd⟩ := hfind
    have hmem : VMsg.mk (ad.map (·.2.1)) av ∈ dv := List.mem_of_find?_eq_some hfd
    have hads : ad.map (·.2.1) = some s := by simpa [VMsg.addr] using List.find?_some hfd
    have hgm := goodMsgs_mem hg hmem
    have hszm := sizeVMsgs_mem hmem
    rw [hads] at hgm hszm
    simp only [GoodMsg] at hgm
    simp only [sizeVMsg] at hszm
    have wf1 := q3.wf
    -- the array
    have og : Own [] m1 [m1.brk] (m1.grow (.arr ((LMsg.mk y ad args :: L).map LMsg.p))) :=
      own_new (step_grow wf1 _ []) (by simp) (by simp) (by simp [grow_self]) (by rw [grow_brk]; simp; omega)
    have cr := grow_self m1 (.arr ((LMsg.mk y ad args :: L).map LMsg.p))
    have q1' : LayEach (m1.grow (.arr ((LMsg.mk y ad args :: L).map LMsg.p))) (.mk y ad args :: L) := q1.step og.step wf1 (by simp)
    have hftL : footMs (.mk y ad args :: L) = footMs [.mk y ad args] ++ footMs L := footMs_append [.mk y ad args] L
    have hltL : ∀ x ∈ footMs (.mk y ad args :: L), x < m1.brk := fun x hx => wf1.lt (layEach_alloc q1 x hx)
    -- the copy
    obtain ⟨c, ad', args', m3, r3, lc, ndc, hge, st, hca, hcv, hcl⟩ := deepCopy_lay og.wf (q1' _ (List.mem_cons_self ..))
      (by rw [hftL] at q2; exact (List.nodup_append.mp q2).1) hav (copyable_of hgm.2.2 (by omega))
    have oc : Own [] _ (footMs [.mk c ad' args']) m3 := own_new st ndc hge (layMsgs_alloc _ _ _ lc) hcl
    have hdc : ∀ x ∈ footMs [LMsg.mk c ad' args'], m1.brk < x := fun x hx => by
      have := hge x hx; rw [grow_brk] at this; omega
    -- freeing the array
    obtain ⟨m4, r4, o4⟩ := msgElemsFree_lay (.mk y ad args :: L) oc.wf (q1'.step oc.step og.wf (by simp)) q2
    have cr3 : m3.cell m1.brk = _ := (oc.cell og.wf (by rw [cr]; rfl) (by simp)).trans cr
    have cr4 : m4.cell m1.brk = _ := (o4.cell oc.wf (by rw [cr3]; rfl) (fun h => by have := hltL _ h; omega)).trans cr3
    have o5 : Own [m1.brk] m4 [] (m4.set m1.brk none) := by rw [set_none]; exact own_erase o4.wf
    have lc4 : LayMsgs m4 none none [.mk c ad' args'] := o4.step.layMsgs oc.wf lc (fun x hx h => by
      have := hltL x h; have := hdc x hx; omega)
    have lc5 : LayMsgs (m4.set m1.brk none) none none [.mk c ad' args'] := o5.step.layMsgs o4.wf lc4 (fun x hx h => by
      have := hdc x hx; simp at h; omega)
    -- its bundle
    obtain ⟨b, tail', bs, m6, r6, l6, lb6, nd6, o6, v6⟩ := openOnly_lay o5.wf lc5 ndc hcv hgm.2.2 (by omega)
    rw [hads] at hca
    match ad', hca, r3, lc, ndc, hge, hcl, oc, hdc, lc4, lc5, l6, nd6, o6 with
    | some (a', s', k'), hca, r3, lc, ndc, hge, hcl, oc, hdc, lc4, lc5, l6, nd6, o6 =>
      simp only [Option.map_some, Option.some.injEq] at hca
      subst hca
      refine ⟨c, b, a', k', tail', bs, m6, ?_, l6, lb6, nd6, ?_, by rw [v6, subOf_find hfd]⟩
      · rw [reopen, seq_run (bndlAt_run lb'.1), seq_run (fuel_run _), seq_run r1, seq_run (new_run _ _)]
        rw [seq_run (ofOpt_run (o := (List.map LMsg.p (LMsg.mk y ad args :: L)).head?) (x := y) rfl _), seq_run r3]
        have hfree : msgArrFree m1.brk m3 = some ((), m4.set m1.brk none) := by
          rw [msgArrFree, seq_run (arrAt_run cr3), seq_run r4, free_run cr4]
        rw [seq_run hfree, seq_run r6, pure_run]
      · have s1 : Own [] m (m1.brk :: footMs (.mk y ad args :: L)) (m1.grow (.arr ((LMsg.mk y ad args :: L).map LMsg.p))) :=
          q3.trans ((og.frame (footMs (.mk y ad args :: L))).congr (fun x => by simp) (fun x => by simp))
        have s2 : Own [] m (footMs [.mk c (some (a', s', k')) args'] ++ (m1.brk :: footMs (.mk y ad args :: L))) m3 :=
          s1.trans ((oc.frame (m1.brk :: footMs (.mk y ad args :: L))).congr (fun x => by simp) (fun x => Iff.rfl))
        have s3 : Own [] m (m1.brk :: footMs [.mk c (some (a', s', k')) args']) m4 :=
          s2.trans ((o4.frame (m1.brk :: footMs [.mk c (some (a', s', k')) args'])).congr (fun x => by
            simp only [List.mem_append, List.mem_cons]; grind) (fun x => by simp))
        have s4 : Own [] m (footMs [.mk c (some (a', s', k')) args']) (m4.set m1.brk none) :=
          s3.trans ((o5.frame (footMs [.mk c (some (a', s', k')) args'])).congr (fun x => by simp) (fun x => by simp))
        exact s4.trans o6

/-- The message and the bundle for the first part of an address. -/
theorem opening_lay {m : Memory} (wf : WF m) {s : Bytes} (hs : Props.Plain s) (hs47 : s.head? = some 47) {d : Nat} {tail : Ptr}
    {ds : List LMsg} {dv : List VMsg} (lb : LayW m 46 (.bndl d tail ds)) (nd : (LW.bndl d tail ds).foot.Nodup)
    (hd : msgsVal (toMs ds) = some dv) (hg : GoodMsgs dv) (hst : StarFreeMs dv) (hsz : sizeVMsgs dv < 2147483648) :
    ∃ x b a k tail bs m', (if decide (∃ x ∈ dv, x.addr = some s) = true then reopen d s else afresh s) m = some ((x, b), m') ∧
      LayMsgs m' none none [.mk x (some (a, s, k)) []] ∧
      LayW m' 46 (.bndl b tail bs) ∧ (footMs [.mk x (some (a, s, k)) []] ++ (LW.bndl b tail bs).foot).Nodup ∧
      Own [] m (footMs [.mk x (some (a, s, k)) []] ++ (LW.bndl b tail bs).foot) m' ∧ msgsVal (toMs bs) = some (subOf dv s) := by
  by_cases hex : ∃ x ∈ dv, x.addr = some s
  · rw [if_pos (by simpa using hex)]
    exact reopen_lay wf hs hs47 lb nd hd hg hst hsz hex
  · rw [if_neg (by simpa using hex), subOf_none hex]
    exact afresh_lay wf hs47 (fun h => (hs 0 h).1 rfl)

/-! ### Exploding one message -/

theorem subOf_cases (dv : List VMsg) (a : Bytes) : subOf dv a = [] ∨ ∃ ns, VMsg.mk (some a) [.bndl ns] ∈ dv ∧ subOf dv a = ns := by
  rw [subOf]
  split
  · rename_i ad ns h
    have h1 := List.mem_of_find?_eq_some h
    have h2 : ad = some a := by simpa [VMsg.addr] using List.find?_some h
    subst h2
    exact Or.inr ⟨ns, h1, rfl⟩
  · exact Or.inl rfl

theorem subOf_ok {dv : List VMsg} {a : Bytes} (hg : GoodMsgs dv) (hst : StarFreeMs dv) :
    GoodMsgs (subOf dv a) ∧ StarFreeMs (subOf dv a) ∧ sizeVMsgs (subOf dv a) ≤ sizeVMsgs dv := by
  rcases subOf_cases dv a with h | ⟨ns, h1, h2⟩
  · rw [h]; simp [GoodMsgs, StarFreeMs, sizeVMsgs]
  · rw [h2]
    have g := goodMsgs_mem hg h1
    have s := starFree_mem hst h1
    have z := sizeVMsgs_mem h1
    simp only [GoodMsg, GoodVals, GoodVal, and_true] at g
    simp only [StarFreeVs, StarFree, and_true] at s
    simp only [sizeVMsg, sizeVals, sizeVal] at z
    exact ⟨g.2.2, s, by omega⟩

theorem plain_first {s : Bytes} (h : Props.Plain s) : Props.Plain (firstSeg s) := fun c hc =>
  h c (by rw [← firstSeg_restSeg s]; exact List.mem_append.mpr (Or.inl hc))
theorem plain_rest {s : Bytes} (h : Props.Plain s) : Props.Plain (restSeg s) := fun c hc =>
  h c (by rw [← firstSeg_restSeg s]; exact List.mem_append.mpr (Or.inr hc))
theorem first_head : ∀ {s : Bytes}, s.head? = some 47 → (firstSeg s).head? = some 47
  | [], h => by simp at h
  | [_], h => h
  | _ :: _ :: _, h => h

theorem cuts_eq (maxlevel level : Int) : (level ≥ maxlevel ∧ maxlevel ≥ 0) ↔ cuts maxlevel level = false := by
  rw [cuts]
  split <;> simp <;> omega

theorem addMsg_own {m : Memory} (wf : WF m) {d p : Nat} {tail : Ptr} {ds : List LMsg} {addr : Option (Nat × Bytes × Bytes)} {args : List LAtom}
    {pv q : Ptr} (lb : LayW m 46 (.bndl d tail ds)) (l : LayMsgs m pv q [.mk p addr args])
    (nd : ((LW.bndl d tail ds).foot ++ footMs [.mk p addr args]).Nodup) :
    ∃ m' tail', addMsg d p m = some ((), m') ∧ LayW m' 46 (.bndl d tail' (ds ++ [.mk p addr args])) ∧
      (LW.bndl d tail' (ds ++ [.mk p addr args])).foot.Nodup ∧
      Own ((LW.bndl d tail ds).foot ++ footMs [.mk p addr args]) m (LW.bndl d tail' (ds ++ [.mk p addr args])).foot m' := by
  obtain ⟨m', tail', r1, r2, r3, r4⟩ := addMsg_lay lb l (by simpa [LW.foot] using nd)
  refine ⟨m', tail', r1, r3, by simpa [LW.foot, footMs_append] using nd, ?_⟩
  have o := own_same (F := (LW.bndl d tail ds).foot ++ footMs [.mk p addr args]) wf r2 (fun x hx => by
      rcases List.mem_append.mp hx with h | h
      · exact wf.lt (layW_alloc _ lb x h)
      · exact wf.lt (layMsgs_alloc _ _ _ l x h)) (fun x hx => r4 x (fun h => hx (by
        simp only [List.mem_append, LW.foot]; exact Or.inl h)) (fun h => hx (by simp [footMs, h])))
  exact o.congr (fun _ => Iff.rfl) (fun x => by simp [LW.foot, footMs_append])

theorem explodeImpl_lay (maxlevel : Int) : ∀ (f : Nat) {m : Memory} (_ : WF m) {d p a0 : Nat} {tail : Ptr} {ds : List LMsg}
    {dv : List VMsg} {s k : Bytes} {args : List LAtom} {pv q : Ptr} {av : List Val} {level : Int},
    LayW m 46 (.bndl d tail ds) → LayMsgs m pv q [.mk p (some (a0, s, k)) args] →
    ((LW.bndl d tail ds).foot ++ footMs [.mk p (some (a0, s, k)) args]).Nodup → msgsVal (toMs ds) = some dv →
    argsVal (toAs args) = some av → GoodMsgs dv → StarFreeMs dv → sizeVMsgs dv < 2147483648 → Props.Plain s → s.head? = some 47 →
    s.length < f →
    ∃ m' tail' ds', explodeImpl maxlevel 47 f level d p m = some ((), m') ∧ LayW m' 46 (.bndl d tail' ds') ∧
      (LW.bndl d tail' ds').foot.Nodup ∧
      Own ((LW.bndl d tail ds).foot ++ footMs [.mk p (some (a0, s, k)) args]) m (LW.bndl d tail' ds').foot m' ∧
      msgsVal (toMs ds') = some (place (cuts maxlevel) level dv s av)
  | 0, m, wf, d, p, a0, tail, ds, dv, s, k, args, pv, q, av, level, lb, l, nd, hd, hv, hg, hst, hsz, hp, h47, hf => by omega
  | f + 1, m, wf, d, p, a0, tail, ds, dv, s, k, args, pv, q, av, level, lb, l, nd, hd, hv, hg, hst, hsz, hp, h47, hf => by
    rw [explodeImpl, place]
    have hval : msgsVal (toMs (ds ++ [.mk p (some (a0, s, k)) args])) = some (dv ++ [.mk (some s) av]) := by
      rw [toMs_append]
      refine msgsVal_append _ _ _ _ hd ?_
      simp [toMs, msgsVal, msgVal, hv]
    by_cases hc : cuts maxlevel level = false
    · rw [if_pos ((cuts_eq _ _).mpr hc), if_pos hc]
      obtain ⟨m', tail', r1, r2, r3, r4⟩ := addMsg_own wf lb l nd
      exact ⟨m', tail', _, r1, r2, r3, r4, hval⟩
    · rw [if_neg (fun h => hc ((cuts_eq _ _).mp h)), if_neg hc]
      have nd0 := List.nodup_append.mp nd
      have hlen := foot_len wf nd0.1 (layW_alloc _ lb)
      have lb' := lb
      simp only [LayW, true_and] at lb'
      have l' := l
      simp only [LayMsgs, LayAddr, and_true, Option.map_some] at l'
      rw [seq_run (msgAt_run l'.1)]
      simp only [deref]
      rw [seq_run (ofOpt_run rfl _), seq_run (strAt_run l'.2.1.1 l'.2.1.2), seq_run (bndlAt_run lb'.1), seq_run (fuel_run _)]
      simp only [take_cut h47, drop_cut h47]
      have hex := addressExists_run (plain_first hp) (first_head h47) ds (f := 3 * m.brk + 3) lb'.2.2 hd hg (starFree_noStar hst) (by
        have := footMs_length ds
        simp only [LW.foot, List.length_cons] at hlen
        omega)
      rw [seq_run hex]
      by_cases hr : restSeg s = []
      · rw [if_pos hr, if_pos hr]
        have hs : firstSeg s = s := by
          have := firstSeg_restSeg s
          rwa [hr, List.append_nil] at this
        rw [hs]
        by_cases he : ∃ x ∈ dv, x.addr = some s
        · rw [if_pos (by simpa using he)]
          exact addNoDup_lay wf lb l nd hd hv
        · rw [if_neg (by simpa using he), supersede_new (x := .mk (some s) av) (fun y hy e => he ⟨y, hy, e⟩)]
          obtain ⟨m', tail', r1, r2, r3, r4⟩ := addMsg_own wf lb l nd
          exact ⟨m', tail', _, r1, r2, r3, r4, hval⟩
      · rw [if_neg hr, if_neg hr, rest_cut h47 hr]
        obtain ⟨x, b, ax, kx, tb, bs, m1, r1, lx, lbb, ndx, o1, v1⟩ := opening_lay wf (plain_first hp) (first_head h47) lb nd0.1 hd hg
          hst hsz
        rw [seq_run r1]
        simp only
        have hltD : ∀ y ∈ (LW.bndl d tail ds).foot ++ footMs [.mk p (some (a0, s, k)) args], y < m.brk := fun y hy => by
          rcases List.mem_append.mp hy with h | h
          · exact wf.lt (layW_alloc _ lb y h)
          · exact wf.lt (layMsgs_alloc _ _ _ l y h)
        have dj1 := o1.disj hltD (by simp)
        have lb1 := o1.step.layW wf lb (by simp)
        have l1 := o1.step.layMsgs wf l (by simp)
        have hr0 : (0 : UInt8) ∉ restSeg s := fun h => ((plain_rest hp) 0 h).1 rfl
        obtain ⟨m2, a2, k2, r2, l2, nd2, o2⟩ := setAddress_lay o1.wf (restSeg s) l1 nd0.2.1 (restSeg_head hr) hr0
        rw [seq_run r2]
        have ltx : ∀ y ∈ footMs [.mk x (some (ax, firstSeg s, kx)) []] ++ (LW.bndl b tb bs).foot, y < m1.brk := fun y hy => by
          rcases List.mem_append.mp hy with h | h
          · exact o1.wf.lt (layMsgs_alloc _ _ _ lx y h)
          · exact o1.wf.lt (layW_alloc _ lbb y h)
        have lt1 : ∀ y ∈ (LW.bndl d tail ds).foot ++ (footMs [.mk x (some (ax, firstSeg s, kx)) []] ++ (LW.bndl b tb bs).foot),
            y < m1.brk := fun y hy => by
          rcases List.mem_append.mp hy with h | h
          · exact o1.lt hltD y (by simp [h])
          · exact ltx y h
        have np1 : ∀ y ∈ (LW.bndl d tail ds).foot ++ (footMs [.mk x (some (ax, firstSeg s, kx)) []] ++ (LW.bndl b tb bs).foot),
            y ∉ footMs [.mk p (some (a0, s, k)) args] := fun y hy hp => by
          rcases List.mem_append.mp hy with h | h
          · exact nd0.2.2 y h y hp rfl
          · exact dj1 y (by simp [hp]) h
        have dj2 := o2.disj lt1 np1
        have lb2 := o2.step.layW o1.wf lb1 (fun y hy => np1 y (by simp [hy]))
        have lx2 := o2.step.layMsgs o1.wf lx (fun y hy => np1 y (by simp [hy]))
        have lbb2 := o2.step.layW o1.wf lbb (fun y hy => np1 y (by simp [hy]))
        have ndx0 := List.nodup_append.mp ndx
        have ndB : ((LW.bndl b tb bs).foot ++ footMs [.mk p (some (a2, restSeg s, k2)) args]).Nodup := by
          rw [List.nodup_append]
          exact ⟨ndx0.2.1, nd2, fun y hy z hz e => dj2 y (by simp [hy]) (e ▸ hz)⟩
        obtain ⟨sg, ss, sz⟩ := subOf_ok (a := firstSeg s) hg hst
        obtain ⟨m3, tb', bs', r3, lbb3, nd3, o3, v3⟩ := explodeImpl_lay maxlevel f o2.wf (level := level + 1) lbb2 l2 ndB v1 hv sg ss
          (by omega) (plain_rest hp) (restSeg_head hr) (by have := restSeg_lt hr; omega)
        rw [seq_run r3]
        have lt2 : ∀ y ∈ (LW.bndl d tail ds).foot ++ footMs [.mk x (some (ax, firstSeg s, kx)) []], y < m2.brk := fun y hy =>
          o2.lt lt1 y (by rcases List.mem_append.mp hy with h | h <;> simp [h])
        have np2 : ∀ y ∈ (LW.bndl d tail ds).foot ++ footMs [.mk x (some (ax, firstSeg s, kx)) []],
            y ∉ (LW.bndl b tb bs).foot ++ footMs [.mk p (some (a2, restSeg s, k2)) args] := fun y hy h => by
          rcases List.mem_append.mp h with h | h
          · rcases List.mem_append.mp hy with h1 | h1
            · exact dj1 y (by simp [h1]) (by simp [h])
            · exact ndx0.2.2 y h1 y h rfl
          · exact dj2 y (by rcases List.mem_append.mp hy with h1 | h1 <;> simp [h1]) h
        have dj3 := o3.disj lt2 np2
        have lb3 := o3.step.layW o2.wf lb2 (fun y hy => np2 y (by simp [hy]))
        have lx3 := o3.step.layMsgs o2.wf lx2 (fun y hy => np2 y (by simp [hy]))
        have ndX : (footMs [.mk x (some (ax, firstSeg s, kx)) []] ++ (LW.bndl b tb' bs').foot).Nodup := by
          rw [List.nodup_append]
          exact ⟨ndx0.1, nd3, fun y hy z hz e => dj3 y (by simp [hy]) (e ▸ hz)⟩
        obtain ⟨aa, m4, r4, lx4, nd4, o4⟩ := appendBndl_lay o3.wf lx3 lbb3 ndX
        simp only [List.nil_append] at lx4 nd4 o4
        rw [seq_run r4]
        have np3 : ∀ y ∈ (LW.bndl d tail ds).foot, y ∉ footMs [.mk x (some (ax, firstSeg s, kx)) []] ++ (LW.bndl b tb' bs').foot :=
          fun y hy h => by
            rcases List.mem_append.mp h with h | h
            · exact dj1 y (by simp [hy]) (by simp [h])
            · exact dj3 y (by simp [hy]) h
        have dj4 := o4.disj (R := (LW.bndl d tail ds).foot) (o3.lt (fun y hy => lt2 y (by simp [hy]))) np3
        have lb4 := o4.step.layW o3.wf lb3 np3
        obtain ⟨m5, tail5, ds5, r5, lb5, nd5, o5, v5⟩ := addNoDup_lay (vs := [.bndl (place (cuts maxlevel) (level + 1) (subOf dv (firstSeg s))
          (restSeg s) av)]) o4.wf lb4 lx4 (by
            rw [List.nodup_append]
            exact ⟨nd0.1, nd4, fun y hy z hz e => dj4 y hy (e ▸ hz)⟩) hd (by
            simp only [toAs, argsVal, LW.toW, UAtom.val, v3]; rfl)
        refine ⟨m5, tail5, ds5, r5, lb5, nd5, ?_, v5⟩
        have s1 := (o1.frame ((LW.bndl d tail ds).foot ++ footMs [.mk p (some (a0, s, k)) args]))
        have s2 := o2.frame ((LW.bndl d tail ds).foot ++ (footMs [.mk x (some (ax, firstSeg s, kx)) []] ++ (LW.bndl b tb bs).foot))
        have s3 := o3.frame ((LW.bndl d tail ds).foot ++ footMs [.mk x (some (ax, firstSeg s, kx)) []])
        have s4 := o4.frame (LW.bndl d tail ds).foot
        have t1 := (s1.congr (F1 := (LW.bndl d tail ds).foot ++ footMs [.mk p (some (a0, s, k)) args]) (fun y => by simp) (fun y => by
          simp only [List.mem_append]; grind)).trans s2
        have t2 := t1.trans (s3.congr (fun y => by simp only [List.mem_append]; grind) (fun y => Iff.rfl))
        have t3 := t2.trans (s4.congr (fun y => by simp only [List.mem_append]; grind) (fun y => Iff.rfl))
        exact t3.trans (o5.congr (fun y => by simp only [List.mem_append]; grind) (fun y => Iff.rfl))

end Libo.Mem
