import Verif.MemSets
import Verif.Props.Explode
/-!
# Property C83: union and intersection of bundles in memory, and looking for an address there
-/

namespace Libo.Props
open Libo Libo.Mem Libo.Expr

/-! ### Specification -/

/-- The first message of each address. -/
def firstOfEach : List VMsg → List VMsg
  | [] => []
  | x :: xs => x :: (firstOfEach xs).filter fun y => y.addr != x.addr

/-- There is a message to the address of `x`. -/
def hasAddr (vs : List VMsg) (x : VMsg) : Bool := vs.any fun y => y.addr == x.addr

/-- All messages have addresses without pattern characters, and values that the wire format can hold (copying serialises). -/
def PlainMsgs (vs : List VMsg) : Prop :=
  (∀ x ∈ vs, ∃ a, x.addr = some a ∧ a.head? = some 47 ∧ Plain a ∧ GoodVals x.args) ∧ sizeVMsgs vs < 2147483648

/-! ### Lemmas -/

/-- Append unless the address is there. -/
def joinNew (dv : List VMsg) (x : VMsg) : List VMsg := if hasAddr dv x then dv else dv ++ [x]

theorem filter_hasAddr_append (dv : List VMsg) (x : VMsg) (l : List VMsg) :
    l.filter (fun y => !hasAddr (dv ++ [x]) y) = (l.filter fun y => y.addr != x.addr).filter fun y => !hasAddr dv y := by
  rw [List.filter_filter]
  congr 1
  funext y
  have : (x.addr == y.addr) = (y.addr == x.addr) := by
    by_cases e : x.addr = y.addr
    · rw [e]
    · rw [beq_false_of_ne e, beq_false_of_ne (Ne.symm e)]
  simp only [hasAddr, List.any_append, List.any_cons, List.any_nil, Bool.or_false, Bool.not_or, this, bne]

theorem fold_joinNew : ∀ (vs dv : List VMsg), vs.foldl joinNew dv = dv ++ (firstOfEach vs).filter fun x => !hasAddr dv x
  | [], dv => by simp [firstOfEach]
  | x :: vs, dv => by
    rw [List.foldl_cons, fold_joinNew vs, firstOfEach, List.filter_cons]
    by_cases h : hasAddr dv x
    · rw [joinNew, if_pos h, if_neg (by simp [h]), List.filter_filter]
      congr 2
      funext y
      by_cases e : y.addr = x.addr
      · have : hasAddr dv y = true := by unfold hasAddr at h ⊢; rw [e]; exact h
        simp [e, this]
      · simp [e]
    · rw [joinNew, if_neg h, if_pos (by simpa using h), filter_hasAddr_append]
      simp

theorem firstOfEach_filter (p : VMsg → Bool) (hp : ∀ x y : VMsg, x.addr = y.addr → p x = p y) :
    ∀ vs : List VMsg, firstOfEach (vs.filter p) = (firstOfEach vs).filter p
  | [] => rfl
  | x :: vs => by
    rw [List.filter_cons, firstOfEach, List.filter_cons]
    by_cases h : p x
    · rw [if_pos h, if_pos h, firstOfEach, firstOfEach_filter p hp vs, List.filter_filter, List.filter_filter]
      simp [Bool.and_comm]
    · rw [if_neg h, if_neg h, firstOfEach_filter p hp vs, List.filter_filter]
      congr 1
      funext y
      by_cases e : y.addr = x.addr
      · simp [hp y x e, h]
      · simp [e]

theorem plain_noStar {vs : List VMsg} (h : ∀ x ∈ vs, ∃ a, x.addr = some a ∧ a.head? = some 47 ∧ Plain a ∧ GoodVals x.args) : NoStar vs := by
  intro x hx s hs
  obtain ⟨a, e, -, hp, -⟩ := h x hx
  rw [e] at hs
  cases hs
  exact fun h => (hp 42 h).2.2.1 rfl

theorem plain_good : ∀ {vs : List VMsg}, (∀ x ∈ vs, ∃ a, x.addr = some a ∧ a.head? = some 47 ∧ Plain a ∧ GoodVals x.args) → GoodMsgs vs
  | [], _ => by simp [GoodMsgs]
  | .mk ad as :: vs, h => by
    simp only [GoodMsgs]
    refine ⟨?_, plain_good fun x hx => h x (List.mem_cons_of_mem _ hx)⟩
    obtain ⟨a, e, h1, h2, h3⟩ := h _ (List.mem_cons_self ..)
    simp only [VMsg.addr] at e
    subst e
    simp only [GoodMsg]
    exact ⟨h1, fun h => (h2 0 h).1 rfl, h3⟩

theorem hasAddr_iff {vs : List VMsg} {s : Bytes} {av : List Val} : hasAddr vs (.mk (some s) av) = decide (∃ x ∈ vs, x.addr = some s) := by
  rw [Bool.eq_iff_iff, decide_eq_true_iff]
  simp [hasAddr, VMsg.addr]

theorem existsIn_run {m : Memory} (wf : WF m) {b : Nat} {tail : Ptr} {ds : List LMsg} {dv : List VMsg} {s : Bytes} {av : List Val}
    (lb : LayW m 46 (.bndl b tail ds)) (nd : (LW.bndl b tail ds).foot.Nodup) (hd : msgsVal (toMs ds) = some dv)
    (hs : Plain s) (h47 : s.head? = some 47) (hg : GoodMsgs dv) (hn : NoStar dv) :
    existsIn b s m = some (hasAddr dv (.mk (some s) av), m) := by
  have hlen := foot_len wf nd (layW_alloc _ lb)
  have hl2 := footMs_length ds
  simp only [LW.foot, List.length_cons] at hlen
  simp only [LayW, true_and] at lb
  rw [existsIn, seq_run (bndlAt_run lb.1), seq_run (fuel_run _), addressExists_run hs h47 ds lb.2.2 hd hg hn (by omega), hasAddr_iff]

theorem addIfNew_lay {m : Memory} (wf : WF m) {o p a : Nat} {tail : Ptr} {ds : List LMsg} {dv : List VMsg} {s k : Bytes} {args : List LAtom}
    {av : List Val} {pv q : Ptr} (lb : LayW m 46 (.bndl o tail ds)) (l : LayMsgs m pv q [.mk p (some (a, s, k)) args])
    (nd : ((LW.bndl o tail ds).foot ++ footMs [.mk p (some (a, s, k)) args]).Nodup)
    (hd : msgsVal (toMs ds) = some dv) (hav : argsVal (toAs args) = some av) (hs : Plain s) (h47 : s.head? = some 47)
    (hg : GoodMsgs dv) (hn : NoStar dv) (hgv : GoodVals av) (hz : sizeVals av < 2147483648) :
    ∃ m' tail' ds', addIfNew o s p m = some ((), m') ∧ LayW m' 46 (.bndl o tail' ds') ∧ (LW.bndl o tail' ds').foot.Nodup ∧
      Own (LW.bndl o tail ds).foot m (LW.bndl o tail' ds').foot m' ∧ msgsVal (toMs ds') = some (joinNew dv (.mk (some s) av)) := by
  have nd0 := List.nodup_append.mp nd
  rw [addIfNew, seq_run (existsIn_run wf (av := av) lb nd0.1 hd hs h47 hg hn)]
  by_cases h : hasAddr dv (.mk (some s) av)
  · rw [if_pos h, joinNew, if_pos h]
    exact ⟨m, tail, ds, rfl, lb, nd0.1, Own.refl wf _, hd⟩
  · rw [if_neg h, joinNew, if_neg h]
    obtain ⟨c, ad', args', m1, r1, lc, ndc, hge, st, hca, hcv, hcl⟩ := deepCopy_lay wf l nd0.2.1 hav (copyable_of hgv hz)
    have oc : Own [] m (footMs [.mk c ad' args']) m1 := own_new st ndc hge (layMsgs_alloc _ _ _ lc) hcl
    have hlt : ∀ y ∈ (LW.bndl o tail ds).foot, y < m.brk := fun y hy => wf.lt (layW_alloc _ lb y hy)
    have djc := oc.disj hlt (by simp)
    have lb1 := oc.step.layW wf lb (by simp)
    have nd1 : ((LW.bndl o tail ds).foot ++ footMs [.mk c ad' args']).Nodup := by
      rw [List.nodup_append]
      exact ⟨nd0.1, ndc, fun y hy z hz e => djc y hy (e ▸ hz)⟩
    obtain ⟨m2, tail2, a1, a2, a3, a4⟩ := addMsg_lay lb1 lc (by simpa [LW.foot] using nd1)
    have e2 : ∀ x, x ∈ (LW.bndl o tail ds).foot ++ footMs [.mk c ad' args'] ↔ x ∈ (LW.bndl o tail2 (ds ++ [.mk c ad' args'])).foot := fun x => by
      simp only [LW.foot, footMs_append, List.cons_append]
    have o2 : Own ((LW.bndl o tail ds).foot ++ footMs [.mk c ad' args']) m1 ((LW.bndl o tail ds).foot ++ footMs [.mk c ad' args']) m2 :=
      own_same oc.wf a2 (fun x hx => by
        rcases List.mem_append.mp hx with h | h
        · exact oc.wf.lt (layW_alloc _ lb1 x h)
        · exact oc.wf.lt (layMsgs_alloc _ _ _ lc x h)) (fun x hx => a4 x (fun h => hx (by
          simp only [List.mem_append, LW.foot]; exact Or.inl h)) (fun h => hx (by simp [footMs, h])))
    refine ⟨m2, tail2, _, by rw [seq_run r1, a1], a3, ?_, ?_, ?_⟩
    · simpa [LW.foot, footMs_append] using nd1
    · exact ((oc.frame (LW.bndl o tail ds).foot).congr (fun x => by simp) (fun x => by simp only [List.mem_append]; exact Or.comm)).trans
        (o2.congr (fun _ => Iff.rfl) e2)
    · rw [toMs_append]
      refine msgsVal_append _ _ _ _ hd ?_
      rw [Option.map_some] at hca
      simp [toMs, msgsVal, msgVal, hcv, hca]

theorem joinNew_ok {dv : List VMsg} {s : Bytes} {av : List Val} (hg : GoodMsgs dv) (hn : NoStar dv) (hs : Plain s) (h47 : s.head? = some 47)
    (hgv : GoodVals av) : GoodMsgs (joinNew dv (.mk (some s) av)) ∧ NoStar (joinNew dv (.mk (some s) av)) := by
  unfold joinNew
  split
  · exact ⟨hg, hn⟩
  · refine ⟨goodMsgs_append hg ?_, ?_⟩
    · simp only [GoodMsgs, GoodMsg, and_true]
      exact ⟨h47, fun h => (hs 0 h).1 rfl, hgv⟩
    · intro x hx t ht
      rcases List.mem_append.mp hx with hx | hx
      · exact hn x hx t ht
      · simp only [List.mem_cons, List.not_mem_nil, or_false] at hx
        subst hx
        cases ht
        exact fun h => (hs 42 h).2.2.1 rfl

theorem fold_ok : ∀ {vs dv : List VMsg}, GoodMsgs dv → NoStar dv →
    (∀ x ∈ vs, ∃ a, x.addr = some a ∧ a.head? = some 47 ∧ Plain a ∧ GoodVals x.args) →
    GoodMsgs (vs.foldl joinNew dv) ∧ NoStar (vs.foldl joinNew dv)
  | [], dv, hg, hn, _ => ⟨hg, hn⟩
  | .mk ad av :: vs, dv, hg, hn, h => by
    obtain ⟨a, e, h1, h2, h3⟩ := h _ (List.mem_cons_self ..)
    simp only [VMsg.addr] at e
    subst e
    obtain ⟨g1, g2⟩ := joinNew_ok hg hn h2 h1 h3
    rw [List.foldl_cons]
    exact fold_ok (vs := vs) g1 g2 fun x hx => h x (List.mem_cons_of_mem _ hx)


theorem unionLoop_lay (o : Nat) : ∀ (ms : List LMsg) {m : Memory} (_ : WF m) {vs : List VMsg} {tail : Ptr} {ds : List LMsg} {dv : List VMsg}
    {pv : Ptr} {f : Nat}, LayW m 46 (.bndl o tail ds) → LayMsgs m pv none ms → ((LW.bndl o tail ds).foot ++ footMs ms).Nodup →
    msgsVal (toMs ds) = some dv → msgsVal (toMs ms) = some vs → PlainMsgs vs → GoodMsgs dv → NoStar dv → ms.length ≤ f →
    ∃ m' tail' ds', unionLoop o f (hdM none ms) m = some ((), m') ∧ LayW m' 46 (.bndl o tail' ds') ∧ (LW.bndl o tail' ds').foot.Nodup ∧
      Own (LW.bndl o tail ds).foot m (LW.bndl o tail' ds').foot m' ∧ msgsVal (toMs ds') = some (vs.foldl joinNew dv)
  | [], m, wf, vs, tail, ds, dv, pv, f, lb, l, nd, hd, hv, hp, hg, hn, hf => by
    simp only [toMs, msgsVal, Option.some.injEq] at hv
    subst hv
    refine ⟨m, tail, ds, ?_, lb, (List.nodup_append.mp nd).1, Own.refl wf _, hd⟩
    cases f <;> rfl
  | .mk p addr args :: ms, m, wf, vs, tail, ds, dv, pv, f, lb, l, nd, hd, hv, hp, hg, hn, hf => by
    simp only [toMs, msgsVal, msgVal, Option.bind_eq_some_iff, Option.map_eq_some_iff] at hv
    obtain ⟨x, ⟨av, hav, rfl⟩, vs', hvs, rfl⟩ := hv
    simp only [List.length_cons] at hf
    obtain ⟨f, rfl⟩ : ∃ g, f = g + 1 := ⟨f - 1, by omega⟩
    obtain ⟨hp, hz⟩ := hp
    obtain ⟨a, e, h1, h2, h3⟩ := hp _ (List.mem_cons_self ..)
    simp only [VMsg.addr] at e
    obtain ⟨⟨b, a', k⟩, rfl, rfl⟩ := Option.map_eq_some_iff.mp e
    simp only [Option.map_some, sizeVMsgs, sizeVMsg] at hz
    have hl0 : LayMsgs m pv (hdM none ms) [.mk p (some (b, a', k)) args] ∧ LayMsgs m (some p) none ms :=
      (layMsgs_append m pv none [.mk p (some (b, a', k)) args] ms).mp l
    have hft : footMs (.mk p (some (b, a', k)) args :: ms) = footMs [.mk p (some (b, a', k)) args] ++ footMs ms :=
      footMs_append [.mk p (some (b, a', k)) args] ms
    rw [hft] at nd
    have nd0 := List.nodup_append.mp nd
    have nd1 := List.nodup_append.mp nd0.2.1
    obtain ⟨m1, tail1, ds1, r1, lb1, ndb, o1, v1⟩ := addIfNew_lay wf lb hl0.1 (by
      rw [List.nodup_append]
      exact ⟨nd0.1, nd1.1, fun y hy z hz e => nd0.2.2 y hy z (by simp [hz]) e⟩) hd hav h2 h1 hg hn h3 (by omega)
    have dj : ∀ y ∈ footMs [LMsg.mk p (some (b, a', k)) args] ++ footMs ms, y ∉ (LW.bndl o tail ds).foot := fun y hy h => nd0.2.2 y h y hy rfl
    have hlt : ∀ y ∈ footMs [LMsg.mk p (some (b, a', k)) args] ++ footMs ms, y < m.brk := fun y hy => by
      rcases List.mem_append.mp hy with h | h
      · exact wf.lt (layMsgs_alloc _ _ _ hl0.1 y h)
      · exact wf.lt (layMsgs_alloc _ _ _ hl0.2 y h)
    have dj1 := o1.disj hlt dj
    obtain ⟨g1, g2⟩ := joinNew_ok hg hn h2 h1 h3
    have lp := o1.step.layMsgs wf hl0.1 fun y hy => dj y (by simp [hy])
    obtain ⟨m2, tail2, ds2, r2, lb2, nd2, o2, v2⟩ := unionLoop_lay o ms o1.wf (f := f) lb1
      (o1.step.layMsgs wf hl0.2 fun y hy => dj y (by simp [hy])) (by
        rw [List.nodup_append]
        exact ⟨ndb, nd1.2.1, fun y hy z hz e => dj1 z (by simp [hz]) (e ▸ hy)⟩) v1 hvs
      ⟨fun x hx => hp x (List.mem_cons_of_mem _ hx), by omega⟩ g1 g2 (by omega)
    simp only [LayMsgs, and_true, LayAddr] at lp
    have l' := hl0.1
    simp only [LayMsgs, and_true, LayAddr] at l'
    refine ⟨m2, tail2, ds2, ?_, lb2, nd2, o1.trans o2, v2⟩
    rw [hdM_cons, unionLoop, seq_run (msgAt_run l'.1)]
    simp only [Option.map_some, deref]
    rw [seq_run (ofOpt_run rfl _), seq_run (strAt_run l'.2.1.1 l'.2.1.2), seq_run r1, seq_run (msgAt_run lp.1)]
    exact r2

theorem interLoop_lay (o b2 : Nat) {tail2 : Ptr} {es : List LMsg} {ev : List VMsg} (he : msgsVal (toMs es) = some ev) (heg : GoodMsgs ev)
    (hen : NoStar ev) (hend : (LW.bndl b2 tail2 es).foot.Nodup) : ∀ (ms : List LMsg) {m : Memory} (_ : WF m) {vs : List VMsg} {tail : Ptr}
    {ds : List LMsg} {dv : List VMsg} {pv : Ptr} {f : Nat}, LayW m 46 (.bndl b2 tail2 es) →
    (∀ x ∈ (LW.bndl b2 tail2 es).foot, x ∉ (LW.bndl o tail ds).foot) → LayW m 46 (.bndl o tail ds) → LayMsgs m pv none ms →
    ((LW.bndl o tail ds).foot ++ footMs ms).Nodup →
    msgsVal (toMs ds) = some dv → msgsVal (toMs ms) = some vs → PlainMsgs vs → GoodMsgs dv → NoStar dv → ms.length ≤ f →
    ∃ m' tail' ds', interLoop o b2 f (hdM none ms) m = some ((), m') ∧ LayW m' 46 (.bndl o tail' ds') ∧ (LW.bndl o tail' ds').foot.Nodup ∧
      Own (LW.bndl o tail ds).foot m (LW.bndl o tail' ds').foot m' ∧
      msgsVal (toMs ds') = some ((vs.filter (hasAddr ev)).foldl joinNew dv)
  | [], m, wf, vs, tail, ds, dv, pv, f, l2, dj2, lb, l, nd, hd, hv, hp, hg, hn, hf => by
    simp only [toMs, msgsVal, Option.some.injEq] at hv
    subst hv
    refine ⟨m, tail, ds, ?_, lb, (List.nodup_append.mp nd).1, Own.refl wf _, hd⟩
    cases f <;> rfl
  | .mk p addr args :: ms, m, wf, vs, tail, ds, dv, pv, f, l2, dj2, lb, l, nd, hd, hv, hp, hg, hn, hf => by
    simp only [toMs, msgsVal, msgVal, Option.bind_eq_some_iff, Option.map_eq_some_iff] at hv
    obtain ⟨x, ⟨av, hav, rfl⟩, vs', hvs, rfl⟩ := hv
    simp only [List.length_cons] at hf
    obtain ⟨f, rfl⟩ : ∃ g, f = g + 1 := ⟨f - 1, by omega⟩
    obtain ⟨hp, hz⟩ := hp
    obtain ⟨a, e, h1, h2, h3⟩ := hp _ (List.mem_cons_self ..)
    simp only [VMsg.addr] at e
    obtain ⟨⟨b, a', k⟩, rfl, rfl⟩ := Option.map_eq_some_iff.mp e
    simp only [Option.map_some, sizeVMsgs, sizeVMsg] at hz
    have hl0 : LayMsgs m pv (hdM none ms) [.mk p (some (b, a', k)) args] ∧ LayMsgs m (some p) none ms :=
      (layMsgs_append m pv none [.mk p (some (b, a', k)) args] ms).mp l
    have hft : footMs (.mk p (some (b, a', k)) args :: ms) = footMs [.mk p (some (b, a', k)) args] ++ footMs ms :=
      footMs_append [.mk p (some (b, a', k)) args] ms
    rw [hft] at nd
    have nd0 := List.nodup_append.mp nd
    have nd1 := List.nodup_append.mp nd0.2.1
    have dj : ∀ y ∈ footMs [LMsg.mk p (some (b, a', k)) args] ++ footMs ms, y ∉ (LW.bndl o tail ds).foot := fun y hy h => nd0.2.2 y h y hy rfl
    have hlt : ∀ y ∈ footMs [LMsg.mk p (some (b, a', k)) args] ++ footMs ms, y < m.brk := fun y hy => by
      rcases List.mem_append.mp hy with h | h
      · exact wf.lt (layMsgs_alloc _ _ _ hl0.1 y h)
      · exact wf.lt (layMsgs_alloc _ _ _ hl0.2 y h)
    have hstep : ∃ m1 tail1 ds1, (if hasAddr ev (.mk (some a') av) then addIfNew o a' p else pure ()) m = some ((), m1) ∧
        LayW m1 46 (.bndl o tail1 ds1) ∧ (LW.bndl o tail1 ds1).foot.Nodup ∧ Own (LW.bndl o tail ds).foot m (LW.bndl o tail1 ds1).foot m1 ∧
        msgsVal (toMs ds1) = some (if hasAddr ev (.mk (some a') av) then joinNew dv (.mk (some a') av) else dv) := by
      split
      · exact addIfNew_lay wf lb hl0.1 (by
          rw [List.nodup_append]
          exact ⟨nd0.1, nd1.1, fun y hy z hz e => nd0.2.2 y hy z (by simp [hz]) e⟩) hd hav h2 h1 hg hn h3 (by omega)
      · exact ⟨m, tail, ds, rfl, lb, nd0.1, Own.refl wf _, hd⟩
    obtain ⟨m1, tail1, ds1, r1, lb1, ndb, o1, v1⟩ := hstep
    have dj1 := o1.disj hlt dj
    have hg2 : GoodMsgs (if hasAddr ev (.mk (some a') av) then joinNew dv (.mk (some a') av) else dv) ∧
        NoStar (if hasAddr ev (.mk (some a') av) then joinNew dv (.mk (some a') av) else dv) := by
      split
      · exact joinNew_ok hg hn h2 h1 h3
      · exact ⟨hg, hn⟩
    have lp := o1.step.layMsgs wf hl0.1 fun y hy => dj y (by simp [hy])
    obtain ⟨m2, tail', ds2, r2, lb2, nd2, o2, v2⟩ := interLoop_lay o b2 he heg hen hend ms o1.wf (f := f) (o1.step.layW wf l2 dj2)
      (o1.disj (fun y hy => wf.lt (layW_alloc _ l2 y hy)) dj2) lb1
      (o1.step.layMsgs wf hl0.2 fun y hy => dj y (by simp [hy])) (by
        rw [List.nodup_append]
        exact ⟨ndb, nd1.2.1, fun y hy z hz e => dj1 z (by simp [hz]) (e ▸ hy)⟩) v1 hvs
      ⟨fun x hx => hp x (List.mem_cons_of_mem _ hx), by omega⟩ hg2.1 hg2.2 (by omega)
    simp only [LayMsgs, and_true, LayAddr] at lp
    have l' := hl0.1
    simp only [LayMsgs, and_true, LayAddr] at l'
    refine ⟨m2, tail', ds2, ?_, lb2, nd2, o1.trans o2, ?_⟩
    · rw [hdM_cons, interLoop, seq_run (msgAt_run l'.1)]
      simp only [Option.map_some, deref]
      rw [seq_run (ofOpt_run rfl _), seq_run (strAt_run l'.2.1.1 l'.2.1.2), seq_run (existsIn_run wf (av := av) l2 hend he h2 h1 heg hen),
        seq_run r1, seq_run (msgAt_run lp.1)]
      exact r2
    · rw [v2, List.filter_cons]
      simp only [Option.map_some]
      split <;> rfl

theorem unionFrom_own {m : Memory} (wf : WF m) {p o : Nat} {vs dv : List VMsg} {S D : List Nat} (h : BndlAt m p vs S) (hd : BndlAt m o dv D)
    (hSD : ∀ x ∈ S, x ∉ D) (hp : PlainMsgs vs) (hg : GoodMsgs dv) (hn : NoStar dv) :
    ∃ T m', unionFrom o (some p) m = some ((), m') ∧ BndlAt m' o (vs.foldl joinNew dv) T ∧ Own D m T m' := by
  obtain ⟨tail, ms, h1, rfl, h3, h4⟩ := h
  obtain ⟨dtail, ds, d1, rfl, d3, d4⟩ := hd
  have l := h1
  simp only [LayW] at l
  have hlen := foot_len wf h3 (layW_alloc _ h1)
  have hl2 := footMs_length ms
  simp only [LW.foot, List.length_cons] at hlen
  obtain ⟨m', tail', ds', r1, r2, r3, r4, r5⟩ := unionLoop_lay o ms wf (f := 3 * m.brk + 3) d1 l.2.2.2
    (by
      rw [List.nodup_append]
      simp only [LW.foot, List.nodup_cons] at h3
      exact ⟨d3, h3.2, fun x hx y hy e => hSD y (List.mem_cons_of_mem _ hy) (e ▸ hx)⟩) d4 h4 hp hg hn (by omega)
  refine ⟨_, m', ?_, ⟨tail', ds', r2, rfl, r3, r5⟩, r4⟩
  rw [unionFrom, seq_run (bndlAt_run l.2.1), seq_run (fuel_run _), r1]

theorem msgsVal_len : ∀ (ms : List LMsg) (vs : List VMsg), msgsVal (toMs ms) = some vs → ms.length = vs.length
  | [], vs, h => by
    simp only [toMs, msgsVal, Option.some.injEq] at h
    subst h; rfl
  | .mk p a as :: ms, vs, h => by
    simp only [toMs, msgsVal, Option.bind_eq_some_iff, Option.map_eq_some_iff] at h
    obtain ⟨x, hx, xs, h2, rfl⟩ := h
    rw [List.length_cons, List.length_cons, msgsVal_len ms xs h2]

theorem msgCount_run {m : Memory} {p : Nat} {vs : List VMsg} {S : List Nat} (h : BndlAt m p vs S) :
    msgCountU (some p) m = some ((vs.length : Int), m) := by
  obtain ⟨tail, ms, h1, -, -, h4⟩ := h
  simp only [LayW, true_and] at h1
  have := msgsVal_len _ _ h4
  rw [msgCountU, seq_run (bndlAt_run h1.1), pure_run, this]

/-! ### The property -/

theorem union_own {m : Memory} (wf : WF m) {p1 p2 o : Nat} {vs1 vs2 dv : List VMsg} {S1 S2 D : List Nat}
    (h1 : BndlAt m p1 vs1 S1) (h2 : BndlAt m p2 vs2 S2) (hd : BndlAt m o dv D) (d1 : ∀ x ∈ S1, x ∉ D) (d2 : ∀ x ∈ S2, x ∉ D)
    (hp1 : PlainMsgs vs1) (hp2 : PlainMsgs vs2) (hg : GoodMsgs dv) (hn : NoStar dv) :
    ∃ T m', unionU (some p1) (some p2) (some o) m = some (o, m') ∧
      BndlAt m' o (dv ++ (firstOfEach (vs1 ++ vs2)).filter fun x => !hasAddr dv x) T ∧ Own D m T m' := by
  rw [unionU, seq_run (m' := m) (a := o) rfl, seq_run (msgCount_run h1), seq_run (msgCount_run h2)]
  rw [← fold_joinNew, List.foldl_append]
  by_cases h0 : (vs1.length : Int) = 0 ∧ (vs2.length : Int) = 0
  · have e1 : vs1 = [] := List.length_eq_zero_iff.mp (by omega)
    have e2 : vs2 = [] := List.length_eq_zero_iff.mp (by omega)
    subst e1 e2
    rw [if_pos h0]
    exact ⟨D, m, rfl, hd, Own.refl wf _⟩
  · rw [if_neg h0]
    obtain ⟨T, m1, r1, b1, o1⟩ := unionFrom_own wf h1 hd d1 hp1 hg hn
    obtain ⟨g1, g2⟩ := fold_ok hg hn hp1.1
    obtain ⟨T2, m2, r2, b2, o2⟩ := unionFrom_own o1.wf (h2.frame fun x hx => o1.same x (h2.lt wf x hx) (d2 x hx)) b1
      (o1.disj (h2.lt wf) d2) hp2 g1 g2
    exact ⟨T2, m2, by rw [seq_run r1, seq_run r2]; rfl, b2, o1.trans o2⟩

/-- **C83 (union; partial).**  The union of two bundles, with addresses without pattern characters, in a third: the messages that were there
stay, and behind them come the first message of each address of the first and then of the second bundle, unless the address was there.  The two
bundles are unchanged (they may be the same), and so is everything else in memory; no block is lost. -/
theorem C83_union_partial {m : Memory} (wf : WF m) {p1 p2 o : Nat} {vs1 vs2 dv : List VMsg} {S1 S2 D : List Nat}
    (h1 : BndlAt m p1 vs1 S1) (h2 : BndlAt m p2 vs2 S2) (hd : BndlAt m o dv D) (d1 : ∀ x ∈ S1, x ∉ D) (d2 : ∀ x ∈ S2, x ∉ D)
    (hp1 : PlainMsgs vs1) (hp2 : PlainMsgs vs2) (hpd : PlainMsgs dv) :
    ∃ T m', unionU (some p1) (some p2) (some o) m = some (o, m') ∧
      BndlAt m' o (dv ++ (firstOfEach (vs1 ++ vs2)).filter fun x => !hasAddr dv x) T ∧ BndlAt m' p1 vs1 S1 ∧ BndlAt m' p2 vs2 S2 ∧
      OnlyReplaces m m' D T := by
  obtain ⟨T, m', r1, r2, r3⟩ := union_own wf h1 h2 hd d1 d2 hp1 hp2 (plain_good hpd.1) (plain_noStar hpd.1)
  exact ⟨T, m', r1, r2, h1.frame fun x hx => r3.same x (h1.lt wf x hx) (d1 x hx), h2.frame fun x hx => r3.same x (h2.lt wf x hx) (d2 x hx),
    onlyReplaces_of_own wf r3⟩

/-- **C83 (union in a new bundle; partial).** -/
theorem C83_union_new_partial {m : Memory} (wf : WF m) {p1 p2 : Nat} {vs1 vs2 : List VMsg} {S1 S2 : List Nat}
    (h1 : BndlAt m p1 vs1 S1) (h2 : BndlAt m p2 vs2 S2) (hp1 : PlainMsgs vs1) (hp2 : PlainMsgs vs2) :
    ∃ o T m', unionU (some p1) (some p2) none m = some (o, m') ∧ BndlAt m' o (firstOfEach (vs1 ++ vs2)) T ∧ BndlAt m' p1 vs1 S1 ∧
      BndlAt m' p2 vs2 S2 ∧ OnlyReplaces m m' [] T := by
  obtain ⟨m1, a1, a2, a3⟩ := bndlAlloc_at wf
  have h1' : BndlAt m1 p1 vs1 S1 := h1.frame fun x hx => a3.same x (h1.lt wf x hx) (by simp)
  have h2' : BndlAt m1 p2 vs2 S2 := h2.frame fun x hx => a3.same x (h2.lt wf x hx) (by simp)
  have d1 : ∀ x ∈ S1, x ∉ [m.brk] := fun x hx e => by
    have := h1.lt wf x hx
    simp at e; omega
  have d2 : ∀ x ∈ S2, x ∉ [m.brk] := fun x hx e => by
    have := h2.lt wf x hx
    simp at e; omega
  obtain ⟨T, m', r1, r2, r3⟩ := union_own a3.wf h1' h2' a2 d1 d2 hp1 hp2 (by simp [GoodMsgs]) (by intro x hx; simp at hx)
  have e : (firstOfEach (vs1 ++ vs2)).filter (fun x => !hasAddr [] x) = firstOfEach (vs1 ++ vs2) := by simp [hasAddr]
  rw [List.nil_append, e] at r2
  have r3' := a3.trans r3
  refine ⟨m.brk, T, m', ?_, r2, h1.frame fun x hx => r3'.same x (h1.lt wf x hx) (by simp), h2.frame fun x hx => r3'.same x (h2.lt wf x hx) (by simp),
    onlyReplaces_of_own wf r3'⟩
  rw [unionU] at r1 ⊢
  rw [seq_run (show destOr none bndlAlloc m = _ from a1)]
  rw [seq_run (m' := m1) (a := m.brk) rfl] at r1
  exact r1

theorem inter_own {m : Memory} (wf : WF m) {p1 p2 o : Nat} {vs1 vs2 dv : List VMsg} {S1 S2 D : List Nat}
    (h1 : BndlAt m p1 vs1 S1) (h2 : BndlAt m p2 vs2 S2) (hd : BndlAt m o dv D) (d1 : ∀ x ∈ S1, x ∉ D) (d2 : ∀ x ∈ S2, x ∉ D)
    (hp1 : PlainMsgs vs1) (hp2 : PlainMsgs vs2) (hg : GoodMsgs dv) (hn : NoStar dv) :
    ∃ T m', interU (some p1) (some p2) (some o) m = some (o, m') ∧
      BndlAt m' o (dv ++ ((firstOfEach vs1).filter (hasAddr vs2)).filter fun x => !hasAddr dv x) T ∧ Own D m T m' := by
  rw [interU, seq_run (m' := m) (a := o) rfl, seq_run (msgCount_run h1), seq_run (msgCount_run h2)]
  rw [← firstOfEach_filter _ (fun x y e => by simp only [hasAddr, e]), ← fold_joinNew]
  by_cases h0 : (vs1.length : Int) = 0 ∨ (vs2.length : Int) = 0
  · rw [if_pos h0]
    refine ⟨D, m, rfl, ?_, Own.refl wf _⟩
    rcases h0 with h0 | h0
    · have : vs1 = [] := List.length_eq_zero_iff.mp (by omega)
      subst this
      exact hd
    · have : vs2 = [] := List.length_eq_zero_iff.mp (by omega)
      subst this
      have : vs1.filter (hasAddr []) = [] := by simp [hasAddr]
      rw [this]
      exact hd
  · rw [if_neg h0]
    obtain ⟨tail, ms, k1, rfl, k3, k4⟩ := h1
    obtain ⟨tail2, es, e1, rfl, e3, e4⟩ := h2
    obtain ⟨dtail, ds, f1, rfl, f3, f4⟩ := hd
    have l := k1
    simp only [LayW] at l
    have hlen := foot_len wf k3 (layW_alloc _ k1)
    have hl2 := footMs_length ms
    simp only [LW.foot, List.length_cons] at hlen
    obtain ⟨m', tail', ds', r1, r2, r3, r4, r5⟩ := interLoop_lay o p2 e4 (plain_good hp2.1) (plain_noStar hp2.1) e3 ms wf (f := 3 * m.brk + 3)
      e1 d2 f1 l.2.2.2 (by
        rw [List.nodup_append]
        simp only [LW.foot, List.nodup_cons] at k3
        exact ⟨f3, k3.2, fun x hx y hy e => d1 y (List.mem_cons_of_mem _ hy) (e ▸ hx)⟩) f4 k4 hp1 hg hn (by omega)
    refine ⟨_, m', ?_, ⟨tail', ds', r2, rfl, r3, r5⟩, r4⟩
    simp only
    rw [seq_run (bndlAt_run l.2.1), seq_run (fuel_run _), seq_run r1]
    rfl

/-- **C83 (intersection; partial).**  The messages of the first bundle, the first of each address, whose address the second has too, behind those
that were in the third; the rest as for the union. -/
theorem C83_intersection_partial {m : Memory} (wf : WF m) {p1 p2 o : Nat} {vs1 vs2 dv : List VMsg} {S1 S2 D : List Nat}
    (h1 : BndlAt m p1 vs1 S1) (h2 : BndlAt m p2 vs2 S2) (hd : BndlAt m o dv D) (d1 : ∀ x ∈ S1, x ∉ D) (d2 : ∀ x ∈ S2, x ∉ D)
    (hp1 : PlainMsgs vs1) (hp2 : PlainMsgs vs2) (hpd : PlainMsgs dv) :
    ∃ T m', interU (some p1) (some p2) (some o) m = some (o, m') ∧
      BndlAt m' o (dv ++ ((firstOfEach vs1).filter (hasAddr vs2)).filter fun x => !hasAddr dv x) T ∧ BndlAt m' p1 vs1 S1 ∧
      BndlAt m' p2 vs2 S2 ∧ OnlyReplaces m m' D T := by
  obtain ⟨T, m', r1, r2, r3⟩ := inter_own wf h1 h2 hd d1 d2 hp1 hp2 (plain_good hpd.1) (plain_noStar hpd.1)
  exact ⟨T, m', r1, r2, h1.frame fun x hx => r3.same x (h1.lt wf x hx) (d1 x hx), h2.frame fun x hx => r3.same x (h2.lt wf x hx) (d2 x hx),
    onlyReplaces_of_own wf r3⟩

/-- **C83 (intersection in a new bundle; partial).** -/
theorem C83_intersection_new_partial {m : Memory} (wf : WF m) {p1 p2 : Nat} {vs1 vs2 : List VMsg} {S1 S2 : List Nat}
    (h1 : BndlAt m p1 vs1 S1) (h2 : BndlAt m p2 vs2 S2) (hp1 : PlainMsgs vs1) (hp2 : PlainMsgs vs2) :
    ∃ o T m', interU (some p1) (some p2) none m = some (o, m') ∧ BndlAt m' o ((firstOfEach vs1).filter (hasAddr vs2)) T ∧
      BndlAt m' p1 vs1 S1 ∧ BndlAt m' p2 vs2 S2 ∧ OnlyReplaces m m' [] T := by
  obtain ⟨m1, a1, a2, a3⟩ := bndlAlloc_at wf
  have h1' : BndlAt m1 p1 vs1 S1 := h1.frame fun x hx => a3.same x (h1.lt wf x hx) (by simp)
  have h2' : BndlAt m1 p2 vs2 S2 := h2.frame fun x hx => a3.same x (h2.lt wf x hx) (by simp)
  have d1 : ∀ x ∈ S1, x ∉ [m.brk] := fun x hx e => by
    have := h1.lt wf x hx
    simp at e; omega
  have d2 : ∀ x ∈ S2, x ∉ [m.brk] := fun x hx e => by
    have := h2.lt wf x hx
    simp at e; omega
  obtain ⟨T, m', r1, r2, r3⟩ := inter_own a3.wf h1' h2' a2 d1 d2 hp1 hp2 (by simp [GoodMsgs]) (by intro x hx; simp at hx)
  have e : ((firstOfEach vs1).filter (hasAddr vs2)).filter (fun x => !hasAddr [] x) = (firstOfEach vs1).filter (hasAddr vs2) :=
    List.filter_eq_self.mpr fun x _ => by simp [hasAddr]
  rw [List.nil_append, e] at r2
  have r3' := a3.trans r3
  refine ⟨m.brk, T, m', ?_, r2, h1.frame fun x hx => r3'.same x (h1.lt wf x hx) (by simp), h2.frame fun x hx => r3'.same x (h2.lt wf x hx) (by simp),
    onlyReplaces_of_own wf r3'⟩
  rw [interU] at r1 ⊢
  rw [seq_run (show destOr none bndlAlloc m = _ from a1)]
  rw [seq_run (m' := m1) (a := m.brk) rfl] at r1
  exact r1

/-- A message with this address and these arguments is at `p`. -/
def MsgIs (m : Memory) (p : Nat) (v : VMsg) : Prop :=
  ∃ pv q ad args, LayMsgs m pv q [.mk p ad args] ∧ msgsVal (toMs [.mk p ad args]) = some [v]

/-- The first message to `s`. -/
def firstTo (s : Bytes) (vs : List VMsg) : Option VMsg := vs.find? fun x => x.addr == some s

theorem firstLoop_run {m : Memory} {s : Bytes} (hs : Plain s) (hs47 : s.head? = some 47) : ∀ (ms : List LMsg) {vs : List VMsg}
    {pv : Ptr} {f : Nat}, LayMsgs m pv none ms → msgsVal (toMs ms) = some vs → GoodMsgs vs → NoStar vs → ms.length ≤ f →
    ∃ p, firstLoop s f (hdM none ms) m = some (p, m) ∧ (firstTo s vs = none ↔ p = none) ∧ ∀ v, firstTo s vs = some v → ∃ q, p = some q ∧ MsgIs m q v
  | [], vs, pv, f, l, hv, hg, hn, hf => by
    simp only [toMs, msgsVal, Option.some.injEq] at hv
    subst hv
    exact ⟨none, by cases f <;> rfl, by simp [firstTo], by simp [firstTo]⟩
  | .mk p addr args :: ms, vs, pv, f, l, hv, hg, hn, hf => by
    simp only [toMs, msgsVal, msgVal, Option.bind_eq_some_iff, Option.map_eq_some_iff] at hv
    obtain ⟨x, ⟨av, hav, rfl⟩, vs', hvs, rfl⟩ := hv
    simp only [List.length_cons] at hf
    obtain ⟨f, rfl⟩ : ∃ g, f = g + 1 := ⟨f - 1, by omega⟩
    simp only [LayMsgs] at l
    obtain ⟨l1, l2, l3, l4⟩ := l
    match addr, hg, hn, l1, l2 with
    | none, hg, _, _, _ => simp [GoodMsgs, GoodMsg] at hg
    | some (a0, t, k), hg, hn, l1, l2 =>
      simp only [Option.map_some, GoodMsgs, GoodMsg] at hg
      have l2' := l2
      simp only [LayAddr] at l2
      have hn1 := hn _ (List.mem_cons_self ..) t rfl
      obtain ⟨r, ih1, ih2, ih3⟩ := firstLoop_run hs hs47 ms (f := f) l4 hvs hg.2 (fun x hx => hn x (List.mem_cons_of_mem _ hx)) (by omega)
      rw [hdM_cons, firstLoop, seq_run (msgAt_run l1)]
      simp only [Option.map_some]
      rw [seq_run (fullMatch_run hs hs47 l2.1 l2.2 hg.1.1 hn1)]
      by_cases e : s = t
      · subst e
        refine ⟨some p, by simp [pure_run], by simp [firstTo, VMsg.addr], fun v hv => ⟨p, rfl, pv, hdM none ms, some (a0, s, k), args, ?_, ?_⟩⟩
        · simp only [LayMsgs, and_true]
          exact ⟨l1, l2', l3⟩
        · simp only [firstTo, VMsg.addr, List.find?_cons, BEq.rfl, Option.some.injEq] at hv
          subst hv
          simp [toMs, msgsVal, msgVal, hav]
      · have hf : firstTo s (.mk (some t) av :: vs') = firstTo s vs' := by
          simp only [firstTo, List.find?_cons, VMsg.addr]
          rw [beq_false_of_ne (by simpa using Ne.symm e)]
        refine ⟨r, ?_, ?_, ?_⟩
        · rw [if_neg (by simpa using e), ih1]
        · rw [hf]; exact ih2
        · rw [hf]; exact ih3

theorem argsVal_len : ∀ (as : List LAtom) (vs : List Val), argsVal (toAs as) = some vs → as.length = vs.length
  | [], vs, h => by
    cases h; rfl
  | .mk p t al w :: as, vs, h => by
    simp only [toAs, argsVal, Option.bind_eq_some_iff, Option.map_eq_some_iff] at h
    obtain ⟨x, hx, xs, h2, rfl⟩ := h
    rw [List.length_cons, List.length_cons, argsVal_len as xs h2]

theorem boundLoop_run {m : Memory} {s : Bytes} (hs : Plain s) (hs47 : s.head? = some 47) : ∀ (ms : List LMsg) {vs : List VMsg}
    {pv : Ptr} {f : Nat}, LayMsgs m pv none ms → msgsVal (toMs ms) = some vs → GoodMsgs vs → NoStar vs → ms.length ≤ f →
    boundLoop s f (hdM none ms) m = some ((firstTo s vs).any (fun v => !v.args.isEmpty), m)
  | [], vs, pv, f, l, hv, hg, hn, hf => by
    simp only [toMs, msgsVal, Option.some.injEq] at hv
    subst hv
    cases f <;> rfl
  | .mk p addr args :: ms, vs, pv, f, l, hv, hg, hn, hf => by
    simp only [toMs, msgsVal, msgVal, Option.bind_eq_some_iff, Option.map_eq_some_iff] at hv
    obtain ⟨x, ⟨av, hav, rfl⟩, vs', hvs, rfl⟩ := hv
    simp only [List.length_cons] at hf
    obtain ⟨f, rfl⟩ : ∃ g, f = g + 1 := ⟨f - 1, by omega⟩
    simp only [LayMsgs] at l
    obtain ⟨l1, l2, l3, l4⟩ := l
    match addr, hg, hn, l1, l2 with
    | none, hg, _, _, _ => simp [GoodMsgs, GoodMsg] at hg
    | some (a0, t, k), hg, hn, l1, l2 =>
      simp only [Option.map_some, GoodMsgs, GoodMsg] at hg
      simp only [LayAddr] at l2
      have hn1 := hn _ (List.mem_cons_self ..) t rfl
      have ih := boundLoop_run hs hs47 ms (f := f) l4 hvs hg.2 (fun x hx => hn x (List.mem_cons_of_mem _ hx)) (by omega)
      rw [hdM_cons, boundLoop, seq_run (msgAt_run l1)]
      simp only [Option.map_some]
      rw [seq_run (fullMatch_run hs hs47 l2.1 l2.2 hg.1.1 hn1)]
      by_cases e : s = t
      · subst e
        have hl := argsVal_len _ _ hav
        simp only [decide_true, if_true, pure_run, firstTo, List.find?_cons, VMsg.addr, BEq.rfl, Option.any_some, VMsg.args, hl]
        cases av <;> simp
      · rw [if_neg (by simpa using e), ih]
        simp only [firstTo, List.find?_cons, VMsg.addr]
        rw [beq_false_of_ne (by simpa using Ne.symm e)]

/-- **C83 (looking for a message; partial).**  Looking up an address without pattern characters gives a pointer to the first message to it, and
NULL only if there is none. -/
theorem C83_first_partial {m : Memory} (wf : WF m) {b : Nat} {vs : List VMsg} {S : List Nat} (h : BndlAt m b vs S) (hp : PlainMsgs vs)
    {s : Bytes} (hs : Plain s) (h47 : s.head? = some 47) :
    ∃ p, firstFullMatchU b s m = some (p, m) ∧ ((∀ v ∈ vs, v.addr ≠ some s) ↔ p = none) ∧
      ∀ pre v post, vs = pre ++ v :: post → (∀ x ∈ pre, x.addr ≠ some s) → v.addr = some s → ∃ q, p = some q ∧ MsgIs m q v := by
  obtain ⟨tail, ms, h1, rfl, h3, h4⟩ := h
  have hlen := foot_len wf h3 (layW_alloc _ h1)
  have hl2 := footMs_length ms
  simp only [LW.foot, List.length_cons] at hlen
  simp only [LayW, true_and] at h1
  obtain ⟨p, r1, r2, r3⟩ := firstLoop_run hs h47 ms (f := 3 * m.brk + 3) h1.2.2 h4 (plain_good hp.1) (plain_noStar hp.1) (by omega)
  refine ⟨p, by rw [firstFullMatchU, seq_run (bndlAt_run h1.1), seq_run (fuel_run _), r1], ?_, ?_⟩
  · rw [← r2]
    simp [firstTo]
  · rintro pre v post rfl hpre hv
    refine r3 v ?_
    rw [firstTo, List.find?_append, List.find?_eq_none.mpr (by simpa using hpre)]
    simp [hv]

/-- **C83 (bound; partial).**  An address without pattern characters is bound if the first message to it has an argument. -/
theorem C83_bound_partial {m : Memory} (wf : WF m) {b : Nat} {vs : List VMsg} {S : List Nat} (h : BndlAt m b vs S) (hp : PlainMsgs vs)
    {s : Bytes} (hs : Plain s) (h47 : s.head? = some 47) :
    ((∀ v ∈ vs, v.addr ≠ some s) → isBoundU b s m = some (false, m)) ∧
    ∀ pre v post, vs = pre ++ v :: post → (∀ x ∈ pre, x.addr ≠ some s) → v.addr = some s → isBoundU b s m = some (decide (v.args ≠ []), m) := by
  obtain ⟨tail, ms, h1, rfl, h3, h4⟩ := h
  have hlen := foot_len wf h3 (layW_alloc _ h1)
  have hl2 := footMs_length ms
  simp only [LW.foot, List.length_cons] at hlen
  simp only [LayW, true_and] at h1
  rw [isBoundU, seq_run (bndlAt_run h1.1), seq_run (fuel_run _),
    boundLoop_run hs h47 ms (f := 3 * m.brk + 3) h1.2.2 h4 (plain_good hp.1) (plain_noStar hp.1) (by omega)]
  constructor
  · intro h
    rw [firstTo, List.find?_eq_none.mpr (by simpa using h)]
    rfl
  · rintro pre v post rfl hpre hv
    rw [firstTo, List.find?_append, List.find?_eq_none.mpr (by simpa using hpre)]
    simp only [Option.none_or, List.find?_cons, hv, BEq.rfl, Option.any_some, Option.some.injEq, Prod.mk.injEq, and_true]
    cases v.args <;> simp

/-! ### A message whose own address is a pattern -/

/-- A bundle with a message to `/a` at 3, and one with a message to `/*` at 6, both without arguments. -/
def memStar : Memory where
  cell := fun p =>
    if p = 1 then some (.buf [47, 97, 0])
    else if p = 2 then some (.msg ⟨some 1, 0, none, none, none, none⟩)
    else if p = 3 then some (.bndl ⟨1, some 2, some 2⟩)
    else if p = 4 then some (.buf [47, 42, 0])
    else if p = 5 then some (.msg ⟨some 4, 0, none, none, none, none⟩)
    else if p = 6 then some (.bndl ⟨1, some 5, some 5⟩)
    else none
  brk := 7

/-- **C83 (the full claim fails).**  An address with pattern characters is matched with those that are there: the union of a bundle with a
message to `/a` and one with a message to `/*` has one message only, although no message in the first has the address `/*`; and the
intersection of the second with the first has one message, although they have no address in common. -/
theorem C83_full_fails :
    BndlAt memStar 3 [.mk (some [47, 97]) []] [3, 2, 1] ∧ BndlAt memStar 6 [.mk (some [47, 42]) []] [6, 5, 4] ∧
    (firstOfEach [.mk (some [47, 97]) [], .mk (some [47, 42]) []]).length = 2 ∧
    ((unionU (some 3) (some 6) none >>= fun o => msgCountU (some o)) memStar).map (·.1) = some 1 ∧
    ((interU (some 6) (some 3) none >>= fun o => msgCountU (some o)) memStar).map (·.1) = some 1 := by
  refine ⟨⟨some 2, [.mk 2 (some (1, [47, 97], [])) []], ?_, rfl, by decide, rfl⟩,
    ⟨some 5, [.mk 5 (some (4, [47, 42], [])) []], ?_, rfl, by decide, rfl⟩, ?_, ?_, ?_⟩
  · simp [LayW, LayMsgs, LayAddr, LayArgs, memStar, hdM, hdA, ltA, LMsg.p, TailOK, ltM]
  · simp [LayW, LayMsgs, LayAddr, LayArgs, memStar, hdM, hdA, ltA, LMsg.p, TailOK, ltM]
  · simp [firstOfEach, VMsg.addr]
  · decide +kernel
  · decide +kernel

/-! ### Cases that meet the hypotheses -/

/-- `/a` 1, `/b`, `/a` 2 and `/b` 3, `/c` 4. -/
def setA : List VMsg := [.mk (some [47, 97]) [.num 105 1], .mk (some [47, 98]) [], .mk (some [47, 97]) [.num 105 2]]
def setB : List VMsg := [.mk (some [47, 98]) [.num 105 3], .mk (some [47, 99]) [.num 105 4]]

example : firstOfEach (setA ++ setB) = [.mk (some [47, 97]) [.num 105 1], .mk (some [47, 98]) [], .mk (some [47, 99]) [.num 105 4]] ∧
    (firstOfEach setA).filter (hasAddr setB) = [.mk (some [47, 98]) []] := by
  constructor <;> simp [setA, setB, firstOfEach, hasAddr, VMsg.addr]

/-- They are plain, and there is a memory with the first; a second bundle, or an empty one, is built behind it. -/
example : PlainMsgs setA ∧ PlainMsgs setB ∧ (∃ m p S, WF m ∧ BndlAt m p setA S) ∧ ∃ m p S o, WF m ∧ BndlAt m p setB S ∧ BndlAt m o [] [o] ∧ o ∉ S := by
  have ha : PlainMsgs setA := ⟨by simp [setA, VMsg.addr, VMsg.args, Plain, GoodVals, GoodVal], by decide +kernel⟩
  have hb : PlainMsgs setB := ⟨by simp [setB, VMsg.addr, VMsg.args, Plain, GoodVals, GoodVal], by decide +kernel⟩
  refine ⟨ha, hb, bndlAt_exists [.mk (some [47, 97]) [.mk 105 false (.bits 1)], .mk (some [47, 98]) [], .mk (some [47, 97]) [.mk 105 false (.bits 2)]]
    _ rfl (plain_good ha.1), ?_⟩
  obtain ⟨m, p, S, h1, h2⟩ := bndlAt_exists [.mk (some [47, 98]) [.mk 105 false (.bits 3)], .mk (some [47, 99]) [.mk 105 false (.bits 4)]] setB rfl
    (plain_good hb.1)
  obtain ⟨m', a1, a2, a3⟩ := bndlAlloc_lay h1
  refine ⟨m', p, S, m.brk, a3.wf, ?_, ⟨_, _, a2, rfl, by simp, rfl⟩, fun h => ?_⟩
  · exact h2.frame fun x hx => a3.same x (h2.lt h1 x hx) (by simp)
  · have := h2.lt h1 _ h
    omega

end Libo.Props
