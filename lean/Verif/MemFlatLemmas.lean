import Verif.MemAdd
import Verif.MemFlat
/-!
# What flattening leaves in memory
-/

namespace Libo.Mem
open Libo Libo.Expr

/-- The address a nested message or bundle gets. -/
theorem joinAddr_run {m : Memory} {o : Flat} {pfx : Option Bytes} {c a : Nat} {s k : Bytes} {args : List LAtom} {pv q : Ptr}
    (l : LayMsgs m pv q [.mk c (some (a, s, k)) args]) : joinAddr o pfx c m = some (below o.sep pfx (some s), m) := by
  simp only [LayMsgs, LayAddr, and_true, Option.map_some] at l
  obtain ⟨l1, ⟨l2, l2'⟩, l3⟩ := l
  rw [joinAddr, seq_run (msgAt_run l1)]
  match pfx with
  | none =>
    simp only [optStr, below]
    rw [seq_run (strAt_run l2 l2')]; rfl
  | some t =>
    simp only [deref, below]
    rw [seq_run (ofOpt_run rfl _), seq_run (strAt_run l2 l2')]; rfl

/-- A prefix as it arises: an address. -/
def PfxOK (pfx : Option Bytes) : Prop := ∀ s, pfx = some s → s.head? = some 47 ∧ (0 : UInt8) ∉ s

theorem below_ok {sep s : Bytes} {pfx : Option Bytes} (hp : PfxOK pfx) (h0 : (0 : UInt8) ∉ sep) (hs : s.head? = some 47)
    (hs0 : (0 : UInt8) ∉ s) : ∃ t, below sep pfx (some s) = some t ∧ t.head? = some 47 ∧ (0 : UInt8) ∉ t := by
  match pfx, hp with
  | none, _ => exact ⟨s, rfl, hs, hs0⟩
  | some p, hp =>
    obtain ⟨h1, h2⟩ := hp p rfl
    refine ⟨p ++ sep ++ s, rfl, ?_, by simp [h0, h2, hs0]⟩
    cases p with
    | nil => simp at h1
    | cons x xs => simpa using h1

/-- The copy of a message, without its bundles, goes to the destination or is freed. -/
theorem settle_lay {m : Memory} (wf : WF m) {o : Flat} {d c a : Nat} {s k : Bytes} {tail : Ptr} {ds : List LMsg} {dv : List VMsg}
    {args : List LAtom} {pv q : Ptr} {vs : List Val} {pfx : Option Bytes}
    (lb : LayW m 46 (.bndl d tail ds)) (l : LayMsgs m pv q [.mk c (some (a, s, k)) args])
    (nd : ((LW.bndl d tail ds).foot ++ footMs [.mk c (some (a, s, k)) args]).Nodup)
    (hd : msgsVal (toMs ds) = some dv) (hv : argsVal (toAs args) = some vs)
    (hp : PfxOK pfx) (h0 : (0 : UInt8) ∉ o.sep) (hs : s.head? = some 47) (hs0 : (0 : UInt8) ∉ s) :
    ∃ m' tail' ds', settle o d pfx c m = some ((), m') ∧ LayW m' 46 (.bndl d tail' ds') ∧ (LW.bndl d tail' ds').foot.Nodup ∧
      Own ((LW.bndl d tail ds).foot ++ footMs [.mk c (some (a, s, k)) args]) m (LW.bndl d tail' ds').foot m' ∧
      msgsVal (toMs ds') = some (List.foldl supersede dv
        (if o.remove = true ∧ vs = [] then [] else [.mk (below o.sep pfx (some s)) vs])) := by
  have nd0 := List.nodup_append.mp nd
  have l' := l
  simp only [LayMsgs, and_true, Option.map_some] at l'
  have hlen : args.length = vs.length := by rw [← argsVal_length _ _ hv, toAs_length]
  rw [settle, seq_run (msgAt_run l'.1)]
  by_cases hc : o.remove = true ∧ vs = []
  · rw [if_neg (by
      rintro (h | h)
      · rw [hc.1] at h; cases h
      · rw [hc.2] at hlen; simp [hlen] at h), if_pos hc, seq_run (fuel_run _), msgFree_lay wf l nd0.2.1]
    refine ⟨_, tail, ds, rfl, ?_, nd0.1, ?_, hd⟩
    · exact layW_erase lb (fun x hx h => nd0.2.2 x hx x h rfl)
    · exact (((own_erase wf).frame (LW.bndl d tail ds).foot).congr (fun x => by
        simp only [List.mem_append]; exact Or.comm) (fun x => by simp))
  · rw [if_pos (by
      by_cases h : o.remove = false
      · exact Or.inl h
      · right
        have h1 : o.remove = true := by simpa using h
        have h2 : vs ≠ [] := fun h' => hc ⟨h1, h'⟩
        have : 0 < vs.length := List.length_pos_iff.mpr h2
        show (0 : Int) < _
        simp only
        omega), if_neg hc]
    have ren : ∃ m1 a1 k1 s1, rename o pfx c m = some ((), m1) ∧ below o.sep pfx (some s) = some s1 ∧
        LayMsgs m1 pv q [.mk c (some (a1, s1, k1)) args] ∧
        (footMs [.mk c (some (a1, s1, k1)) args]).Nodup ∧
        Own (footMs [.mk c (some (a, s, k)) args]) m (footMs [.mk c (some (a1, s1, k1)) args]) m1 := by
      match pfx, hp with
      | none, _ => exact ⟨m, a, k, s, rfl, rfl, l, nd0.2.1, Own.refl wf _⟩
      | some p, hp =>
        obtain ⟨t, t1, t2, t3⟩ := below_ok hp h0 hs hs0
        obtain ⟨m1, a1, k1, r1, r2, r3, r4⟩ := setAddress_lay wf t l nd0.2.1 t2 t3
        refine ⟨m1, a1, k1, t, ?_, t1, r2, r3, r4⟩
        simp only [rename]
        rw [seq_run (joinAddr_run l), t1, r1]
    obtain ⟨m1, a1, k1, s1, r1, r2, r3, r4, r5⟩ := ren
    have hlt : ∀ x ∈ (LW.bndl d tail ds).foot, x < m.brk := fun x hx => wf.lt (layW_alloc _ lb x hx)
    have hdj : ∀ x ∈ (LW.bndl d tail ds).foot, x ∉ footMs [LMsg.mk c (some (a, s, k)) args] := fun x hx h => nd0.2.2 x hx x h rfl
    have lb1 : LayW m1 46 (.bndl d tail ds) := r5.step.layW wf lb hdj
    obtain ⟨m2, tail2, ds2, a2, a3, a4, a5, a6⟩ := addNoDup_lay r5.wf lb1 r3 (by
      rw [List.nodup_append]
      exact ⟨nd0.1, r4, fun x hx y hy h => r5.disj hlt hdj x hx (h ▸ hy)⟩) hd hv
    refine ⟨m2, tail2, ds2, ?_, a3, a4, ?_, ?_⟩
    · rw [seq_run r1, a2]
    · exact ((r5.frame (LW.bndl d tail ds).foot).congr (fun x => by simp only [List.mem_append]; exact Or.comm)
        (fun x => by simp only [List.mem_append]; exact Or.comm)).trans a5
    · rw [a6, r2]; rfl

mutual
/-- How many steps flattening takes at most. -/
def costM : List VMsg → Nat
  | [] => 0
  | .mk _ args :: ms => 1 + costA args + costM ms
def costA : List Val → Nat
  | [] => 0
  | v :: vs => 1 + costV v + costA vs
def costV : Val → Nat
  | .bndl ms => 1 + costM ms
  | _ => 0
end

/-- An atom with a bundle tag holds a bundle, and no other atom does. -/
theorem val_bndl {t : UInt8} {al : Bool} {w : LW} {v : Val} (h : (UAtom.mk t al w.toW).val = some v) :
    (t ≠ 46 ∧ v.isBndl = false) ∨
      (t = 46 ∧ ∃ p tail ms vs, w = .bndl p tail ms ∧ msgsVal (toMs ms) = some vs ∧ v = .bndl vs) := by
  rcases val_eq t al w.toW v h with ⟨h1, rfl⟩ | ⟨h1, rfl⟩ | ⟨h1, rfl⟩ | ⟨h1, rfl⟩ | ⟨rfl, rfl⟩ | ⟨rfl, p, s, -, rfl⟩ |
      ⟨rfl, p, blk, l, c, -, hl, hs, rfl⟩ | ⟨rfl, p, ms, vs, hw, hv, rfl⟩ | ⟨rfl, h8⟩
  · left; exact ⟨by rcases h1 with rfl | rfl <;> decide, rfl⟩
  · left; exact ⟨by rcases h1 with rfl | rfl <;> decide, rfl⟩
  · left; exact ⟨by rcases h1 with rfl | rfl | rfl <;> decide, rfl⟩
  · left; exact ⟨by rcases h1 with rfl | rfl | rfl <;> decide, rfl⟩
  · left; exact ⟨by decide, rfl⟩
  · left; exact ⟨by decide, rfl⟩
  · left; exact ⟨by decide, rfl⟩
  · right
    match w, hw with
    | .bndl p' tail ms', hw =>
      simp only [LW.toW, W.bndl.injEq] at hw
      obtain ⟨rfl, rfl⟩ := hw
      exact ⟨rfl, _, _, _, vs, rfl, hv, rfl⟩
    | .plain (.bits b), hw => simp [LW.toW] at hw
    | .plain (.ptr b), hw => simp [LW.toW] at hw
    | .str _ _ _, hw => simp [LW.toW] at hw
    | .blob _ _, hw => simp [LW.toW] at hw
  · left
    refine ⟨?_, rfl⟩
    rintro rfl
    simp at h8


theorem copyable_of : ∀ {vs : List Val}, GoodVals vs → sizeVals vs < 2147483648 → ∀ v ∈ vs, Copyable v
  | [], _, _, v, h => by simp at h
  | x :: xs, hg, hs, v, h => by
    simp only [GoodVals] at hg
    simp only [sizeVals] at hs
    rcases List.mem_cons.mp h with rfl | h
    · cases v with
      | bndl ms => exact ⟨by simpa only [GoodVal] using hg.1, by omega⟩
      | _ => simp only [Copyable]; omega
    · exact copyable_of hg.2 (by omega) v h

/-- In the strict reading of C no bundle may be opened. -/
def Safe (o : Flat) (level : Int) (vs : List VMsg) : Prop :=
  o.keep = true ∨ o.deeper level = false ∨ ∀ x ∈ vs, ∀ v ∈ x.args, v.isBndl = false

theorem leavesIn_plain {open_ : Int → Bool} {sep : Bytes} {rm : Bool} {level : Int} {pfx : Option Bytes} {v : Val} {vs : List Val}
    (h : v.isBndl = false) : leavesIn open_ sep rm level pfx (v :: vs) = leavesIn open_ sep rm level pfx vs := by
  cases v <;> first | (simp [leavesIn]; done) | cases h

theorem Step.layArgs {S : List Nat} {m m' : Memory} (h : Step S m m') (wf : WF m) {prev q : Ptr} {as : List LAtom}
    (l : LayArgs m prev q as) (hd : ∀ x ∈ footAs as, x ∉ S) : LayArgs m' prev q as :=
  layArgs_frame prev q as (fun x hx => h.same x (wf.lt (layArgs_alloc _ _ _ l x hx)) (hd x hx)) l

/-- What the loop over the arguments of one copied message has to do. -/
def ArgsDone (o : Flat) (d f : Nat) (level : Int) (pfx : Option Bytes) (s1 : Bytes) (dv : List VMsg) (av : List Val) : Prop :=
  ∀ {m1 : Memory} {c a1 : Nat} {k1 : Bytes} {args' : List LAtom} {tail : Ptr} {ds : List LMsg}, WF m1 → LayW m1 46 (.bndl d tail ds) →
    LayMsgs m1 none none [.mk c (some (a1, s1, k1)) args'] →
    ((LW.bndl d tail ds).foot ++ footMs [.mk c (some (a1, s1, k1)) args']).Nodup → msgsVal (toMs ds) = some dv →
    argsVal (toAs args') = some av →
    ∃ m2 tail2 ds2 args2, cond (o.deeper level) (flatArgs o d f level pfx c (hdA none args')) (pure ()) m1 = some ((), m2) ∧
      LayW m2 46 (.bndl d tail2 ds2) ∧ LayMsgs m2 none none [.mk c (some (a1, s1, k1)) args2] ∧
      ((LW.bndl d tail2 ds2).foot ++ footMs [.mk c (some (a1, s1, k1)) args2]).Nodup ∧
      Own ((LW.bndl d tail ds).foot ++ footMs [.mk c (some (a1, s1, k1)) args']) m1
        ((LW.bndl d tail2 ds2).foot ++ footMs [.mk c (some (a1, s1, k1)) args2]) m2 ∧
      msgsVal (toMs ds2) = some (List.foldl supersede dv (if o.deeper level then
        leavesIn o.deeper o.sep o.remove (level + 1) (below o.sep pfx (some s1)) av else [])) ∧
      argsVal (toAs args2) = some (if o.deeper level then av.filter (fun v => !v.isBndl) else av)

/-- The first message is flattened; the rest goes on from there. -/
theorem flatMsgs_cons {o : Flat} {d : Nat} (h0 : (0 : UInt8) ∉ o.sep) {m : Memory} (wf : WF m) {tail : Ptr} {ds ms : List LMsg}
    {dv : List VMsg} {pv : Ptr} {level : Int} {pfx : Option Bytes} {f p a0 : Nat} {s k : Bytes} {args : List LAtom} {av : List Val}
    (lb : LayW m 46 (.bndl d tail ds)) (l : LayMsgs m pv none (.mk p (some (a0, s, k)) args :: ms))
    (nd : ((LW.bndl d tail ds).foot ++ footMs (.mk p (some (a0, s, k)) args :: ms)).Nodup) (hd : msgsVal (toMs ds) = some dv)
    (hav : argsVal (toAs args) = some av) (g1 : s.head? = some 47) (g2 : (0 : UInt8) ∉ s) (g3 : GoodVals av)
    (hsz : sizeVals av < 2147483648) (hp : PfxOK pfx) (hA : ArgsDone o d f level pfx s dv av) :
    ∃ m3 tail3 ds3, flatMsgs o d (f + 1) level pfx (some p) m = flatMsgs o d f level pfx (hdM none ms) m3 ∧
      LayW m3 46 (.bndl d tail3 ds3) ∧ LayMsgs m3 (some p) none ms ∧ ((LW.bndl d tail3 ds3).foot ++ footMs ms).Nodup ∧
      Own (LW.bndl d tail ds).foot m (LW.bndl d tail3 ds3).foot m3 ∧
      msgsVal (toMs ds3) = some (List.foldl supersede dv (leaves o.deeper o.sep o.remove level pfx [.mk (some s) av])) := by
  have hl0 : LayMsgs m pv (hdM none ms) [.mk p (some (a0, s, k)) args] ∧ LayMsgs m (some p) none ms :=
    (layMsgs_append m pv none [.mk p (some (a0, s, k)) args] ms).mp l
  have hft : footMs (.mk p (some (a0, s, k)) args :: ms) = footMs [.mk p (some (a0, s, k)) args] ++ footMs ms :=
    footMs_append [.mk p (some (a0, s, k)) args] ms
  rw [hft] at nd
  have nd0 := List.nodup_append.mp nd
  have nd1 := List.nodup_append.mp nd0.2.1
  have hltD : ∀ x ∈ (LW.bndl d tail ds).foot, x < m.brk := fun x hx => wf.lt (layW_alloc _ lb x hx)
  have hltS : ∀ x ∈ footMs ms, x < m.brk := fun x hx => wf.lt (layMsgs_alloc _ _ _ hl0.2 x hx)
  obtain ⟨c, addr', args', m1, r1, lc, ndc, hge, st, hca, hcv, hcl⟩ := deepCopy_lay wf hl0.1 nd1.1 hav (copyable_of g3 hsz)
  match addr', hca, lc, ndc, hge, hcl with
  | none, hca, _, _, _, _ => simp at hca
  | some (a1, s1, k1), hca, lc, ndc, hge, hcl =>
  simp only [Option.map_some, Option.some.injEq] at hca
  subst hca
  have o1 : Own [] m (footMs [.mk c (some (a1, s1, k1)) args']) m1 :=
    own_new st ndc hge (layMsgs_alloc _ _ _ lc) hcl
  have lb1 : LayW m1 46 (.bndl d tail ds) := o1.step.layW wf lb (fun _ _ h => by simp at h)
  have ndq : ((LW.bndl d tail ds).foot ++ footMs [.mk c (some (a1, s1, k1)) args']).Nodup := by
    rw [List.nodup_append]
    exact ⟨nd0.1, ndc, fun x hx y hy h => by have := hltD x hx; have := hge y hy; omega⟩
  obtain ⟨m2, tail2, ds2, args2, q1, q2, q3, q4, q5, q6, q7⟩ := hA o1.wf lb1 lc ndq hd hcv
  obtain ⟨m3, tail3, ds3, t1, t2, t3, t4, t5⟩ := settle_lay q5.wf q2 q3 q4 q6 q7 hp h0 g1 g2
  have o3 : Own (LW.bndl d tail ds).foot m (LW.bndl d tail3 ds3).foot m3 :=
    ((o1.frame (LW.bndl d tail ds).foot).congr (fun x => by simp) (fun x => by simp only [List.mem_append]; exact Or.comm)).trans
      (q5.trans t4)
  have hdS : ∀ x ∈ (LW.bndl d tail ds).foot, x ∉ footMs ms := fun x hx h =>
    nd0.2.2 x hx x (List.mem_append.mpr (Or.inr h)) rfl
  have l3 : LayMsgs m3 (some p) none ms := o3.step.layMsgs wf hl0.2 (fun x hx h => hdS x h hx)
  have hpc : m3.cell p = m.cell p := o3.cell wf (layMsgs_alloc _ _ _ hl0.1 p (by simp [footMs]))
    (fun h => nd0.2.2 p h p (by simp [footMs]) rfl)
  refine ⟨m3, tail3, ds3, ?_, t2, l3, ?_, o3, ?_⟩
  · have lc' := lc
    have lp := hl0.1
    simp only [LayMsgs, and_true] at lc' lp
    rw [flatMsgs, seq_run r1, seq_run (msgAt_run lc'.1), seq_run q1, seq_run t1, seq_run (msgAt_run (hpc.trans lp.1))]
    rfl
  · rw [List.nodup_append]
    exact ⟨t3, nd1.2.1, fun x hx y hy h => o3.disj hltS (fun z hz h' => hdS z h' hz) y hy (h ▸ hx)⟩
  · rw [t5]
    simp only [leaves, List.foldl_append, List.foldl_nil]

set_option maxHeartbeats 1000000
set_option maxRecDepth 10000
mutual
/-- The messages of a bundle are flattened into the destination; the source stays, and so does everything else. -/
theorem flatMsgs_lay (o : Flat) (d : Nat) (h0 : (0 : UInt8) ∉ o.sep) : ∀ (vs : List VMsg) {m : Memory} (_ : WF m) {tail : Ptr} {ds ms : List LMsg} {dv : List VMsg} {pv : Ptr}
    {level : Int} {pfx : Option Bytes} {f : Nat}, LayW m 46 (.bndl d tail ds) → LayMsgs m pv none ms →
    ((LW.bndl d tail ds).foot ++ footMs ms).Nodup → msgsVal (toMs ds) = some dv → msgsVal (toMs ms) = some vs →
    GoodMsgs vs → sizeVMsgs vs < 2147483648 → PfxOK pfx → Safe o level vs → costM vs ≤ f →
    ∃ m' tail' ds', flatMsgs o d f level pfx (hdM none ms) m = some ((), m') ∧ LayW m' 46 (.bndl d tail' ds') ∧
      (LW.bndl d tail' ds').foot.Nodup ∧ Own (LW.bndl d tail ds).foot m (LW.bndl d tail' ds').foot m' ∧
      msgsVal (toMs ds') = some (List.foldl supersede dv (leaves o.deeper o.sep o.remove level pfx vs))
  | [], m, wf, tail, ds, ms, dv, pv, level, pfx, f, lb, l, nd, hd, hv, hg, hsz, hp, hs, hf => by
    match ms, hv with
    | [], _ =>
      refine ⟨m, tail, ds, ?_, lb, (List.nodup_append.mp nd).1, Own.refl wf _, by simpa [leaves] using hd⟩
      cases f <;> rfl
    | .mk p addr args :: ms, hv => simp [toMs, msgsVal, Option.bind_eq_some_iff] at hv
  | .mk va args0 :: vs, m, wf, tail, ds, ms, dv, pv, level, pfx, f, lb, l, nd, hd, hv, hg, hsz, hp, hs, hf => by
    match ms, hv, l, nd with
    | .mk p addr args :: ms, hv, l, nd =>
      simp only [toMs, msgsVal, msgVal, Option.bind_eq_some_iff, Option.map_eq_some_iff, List.cons.injEq] at hv
      obtain ⟨x, ⟨av, hav, rfl⟩, vs', hvs, hx, rfl⟩ := hv
      injection hx with hx1 hx2
      subst hx1 hx2
      simp only [costM] at hf
      obtain ⟨f, rfl⟩ : ∃ g, f = g + 1 := ⟨f - 1, by omega⟩
      match addr, hg, hsz, l, nd with
      | none, hg, _, _, _ => simp [GoodMsgs, GoodMsg] at hg
      | some (a0, s, k), hg, hsz, l, nd =>
        simp only [Option.map_some, GoodMsgs, GoodMsg] at hg
        obtain ⟨⟨g1, g2, g3⟩, g4⟩ := hg
        simp only [Option.map_some, sizeVMsgs, sizeVMsg] at hsz
        have hA : ArgsDone o d f level pfx s dv av := by
          intro m1 c a1 k1 args' tail ds wf1 lb1 lc ndq hd hcv
          by_cases hdp : o.deeper level = true
          · obtain ⟨m2, tail2, ds2, args2, q1, q2, q3, q4, q5, q6, q7⟩ := flatArgs_lay o d h0 av (m := m1) wf1 (done := []) (level := level) (pfx := pfx) (f := f) lb1 lc ndq hd hcv g3 (by omega) g1 g2 hp
              (by
                rcases hs with hs | hs | hs
                · exact Or.inl hs
                · rw [hs] at hdp; cases hdp
                · exact Or.inr (hs _ (List.mem_cons_self ..))) (by omega)
            refine ⟨m2, tail2, ds2, args2, ?_, q2, q3, q4, q5, ?_, ?_⟩
            · rw [hdp]; exact q1
            · rw [if_pos hdp]; exact q6
            · rw [if_pos hdp]; exact q7
          · refine ⟨m1, tail, ds, args', ?_, lb1, lc, ndq, Own.refl wf1 _, ?_, ?_⟩
            · have : o.deeper level = false := by simpa using hdp
              rw [this]; rfl
            · rw [if_neg hdp]; exact hd
            · rw [if_neg hdp]; exact hcv
        obtain ⟨m3, tail3, ds3, t1, t2, l3, nd3, o3, t5⟩ := flatMsgs_cons h0 wf lb l nd hd hav g1 g2 g3 (by omega) hp hA
        obtain ⟨m4, tail4, ds4, u1, u2, u3, u4, u5⟩ := flatMsgs_lay o d h0 vs' o3.wf (level := level) (pfx := pfx) (f := f) t2 l3
          nd3 t5 hvs g4 (by omega) hp
          (by
            rcases hs with hs | hs | hs
            · exact Or.inl hs
            · exact Or.inr (Or.inl hs)
            · exact Or.inr (Or.inr (fun x hx => hs x (List.mem_cons_of_mem _ hx)))) (by omega)
        refine ⟨m4, tail4, ds4, ?_, u2, u3, o3.trans u4, ?_⟩
        · rw [hdM_cons, t1, u1]
        · rw [u5]
          simp only [Option.map_some, leaves, List.foldl_append, List.foldl_nil]
/-- The bundles among the arguments of a copied message are flattened into the destination and freed. -/
theorem flatArgs_lay (o : Flat) (d : Nat) (h0 : (0 : UInt8) ∉ o.sep) : ∀ (vs : List Val) {m : Memory} (_ : WF m) {tail : Ptr} {ds : List LMsg} {dv : List VMsg} {c a : Nat}
    {s k : Bytes} {done rest : List LAtom} {pv q : Ptr} {level : Int} {pfx : Option Bytes} {f : Nat},
    LayW m 46 (.bndl d tail ds) → LayMsgs m pv q [.mk c (some (a, s, k)) (done ++ rest)] →
    ((LW.bndl d tail ds).foot ++ footMs [.mk c (some (a, s, k)) (done ++ rest)]).Nodup → msgsVal (toMs ds) = some dv →
    argsVal (toAs rest) = some vs → GoodVals vs → sizeVals vs < 2147483648 → s.head? = some 47 → (0 : UInt8) ∉ s →
    PfxOK pfx → (o.keep = true ∨ ∀ v ∈ vs, v.isBndl = false) → costA vs ≤ f →
    ∃ m' tail' ds' rest', flatArgs o d f level pfx c (hdA none rest) m = some ((), m') ∧ LayW m' 46 (.bndl d tail' ds') ∧
      LayMsgs m' pv q [.mk c (some (a, s, k)) (done ++ rest')] ∧
      ((LW.bndl d tail' ds').foot ++ footMs [.mk c (some (a, s, k)) (done ++ rest')]).Nodup ∧
      Own ((LW.bndl d tail ds).foot ++ footMs [.mk c (some (a, s, k)) (done ++ rest)]) m
        ((LW.bndl d tail' ds').foot ++ footMs [.mk c (some (a, s, k)) (done ++ rest')]) m' ∧
      msgsVal (toMs ds') = some (List.foldl supersede dv
        (leavesIn o.deeper o.sep o.remove (level + 1) (below o.sep pfx (some s)) vs)) ∧
      argsVal (toAs rest') = some (vs.filter (fun v => !v.isBndl))
  | [], m, wf, tail, ds, dv, c, a, s, k, done, rest, pv, q, level, pfx, f, lb, l, nd, hd, hv, hg, hsz, hs, hs0, hp, hk, hf => by
    match rest, hv with
    | [], hv =>
      refine ⟨m, tail, ds, [], ?_, lb, l, nd, Own.refl wf _, by simpa [leavesIn] using hd, hv⟩
      cases f <;> rfl
    | .mk p t al w :: rest, hv => simp [toAs, argsVal, Option.bind_eq_some_iff] at hv
  | v :: vs, m, wf, tail, ds, dv, c, a, s, k, done, rest, pv, q, level, pfx, f, lb, l, nd, hd, hv, hg, hsz, hs, hs0, hp, hk, hf => by
    match rest, hv, l, nd with
    | .mk p t al w :: rest, hv, l, nd =>
      simp only [toAs, argsVal, Option.bind_eq_some_iff, Option.map_eq_some_iff, List.cons.injEq] at hv
      obtain ⟨v', hv1, vs', hvs, rfl, rfl⟩ := hv
      simp only [costA] at hf
      obtain ⟨f, rfl⟩ : ∃ g, f = g + 1 := ⟨f - 1, by omega⟩
      simp only [GoodVals] at hg
      simp only [sizeVals] at hsz
      have l' := l
      simp only [LayMsgs, layArgs_append, LayArgs, and_true] at l'
      obtain ⟨-, -, -, lp, lw, -⟩ := l'
      rcases val_bndl hv1 with ⟨ht, hb⟩ | ⟨rfl, b, tl, lms, vms, rfl, hbv, rfl⟩
      · have e : done ++ LAtom.mk p t al w :: rest = (done ++ [.mk p t al w]) ++ rest := by simp
        rw [e] at l nd
        obtain ⟨m', tail', ds', rest', q1, q2, q3, q4, q5, q6, q7⟩ := flatArgs_lay o d h0 vs' (m := m) wf (level := level) (pfx := pfx) (f := f) lb l nd hd hvs hg.2 (by omega) hs hs0 hp
          (by
            rcases hk with hk | hk
            · exact Or.inl hk
            · exact Or.inr (fun v hv => hk v (List.mem_cons_of_mem _ hv))) (by omega)
        have e' : done ++ LAtom.mk p t al w :: rest' = (done ++ [.mk p t al w]) ++ rest' := by simp
        refine ⟨m', tail', ds', .mk p t al w :: rest', ?_, q2, ?_, ?_, ?_, ?_, ?_⟩
        · rw [hdA_cons, flatArgs, seq_run (atomAt_run lp)]
          rw [if_neg (by exact ht)]
          exact q1
        · rw [e']; exact q3
        · rw [e']; exact q4
        · rw [e, e']; exact q5
        · rw [leavesIn_plain hb]; exact q6
        · simp only [toAs, argsVal, hv1, q7, List.filter_cons, hb]; rfl
      · have hkeep : o.keep = true := by
          rcases hk with hk | hk
          · exact hk
          · have := hk _ (List.mem_cons_self ..)
            cases this
        obtain ⟨t1, ht, ht1, ht0⟩ := below_ok hp h0 hs hs0
        have nd0 := List.nodup_append.mp nd
        have hltD : ∀ x ∈ (LW.bndl d tail ds).foot, x < m.brk := fun x hx => wf.lt (layW_alloc _ lb x hx)
        have hltC := fun x hx => wf.lt (layMsgs_alloc _ _ _ l x hx)
        obtain ⟨m1, r1, rb, lc, la, rs⟩ := removeAtom_lay l nd0.2.1
        have hmem : ∀ x, x ∈ footMs [.mk c (some (a, s, k)) (done ++ LAtom.mk p 46 al (.bndl b tl lms) :: rest)] ↔
            x ∈ footAs [.mk p 46 al (.bndl b tl lms)] ++ footMs [.mk c (some (a, s, k)) (done ++ rest)] := fun x => by
          simp only [footMs, footAs_append, footAs, List.mem_append, List.mem_cons, List.append_nil]
          grind
        have hnd : (footAs [.mk p 46 al (.bndl b tl lms)] ++ footMs [.mk c (some (a, s, k)) (done ++ rest)]).Nodup := by
          have := nd0.2.1
          simp only [footMs, footAs_append, footAs, List.append_nil, List.nodup_cons, List.nodup_append, List.mem_append, List.mem_cons] at this ⊢
          grind
        have nd1 := List.nodup_append.mp hnd
        have o1 : Own (footMs [.mk c (some (a, s, k)) (done ++ LAtom.mk p 46 al (.bndl b tl lms) :: rest)]) m
            (footAs [.mk p 46 al (.bndl b tl lms)] ++ footMs [.mk c (some (a, s, k)) (done ++ rest)]) m1 :=
          (own_same wf rb hltC (fun x hx => rs x (fun h => hx (by
            simp only [footMs, List.mem_append, List.mem_cons, List.append_nil] at h ⊢
            grind)))).congr (fun _ => Iff.rfl) hmem
        have hDC : ∀ x ∈ (LW.bndl d tail ds).foot, x ∉ footAs [.mk p 46 al (.bndl b tl lms)] ++ footMs [.mk c (some (a, s, k)) (done ++ rest)] :=
          fun x hx h => nd0.2.2 x hx x ((hmem x).mpr h) rfl
        have lb1 : LayW m1 46 (.bndl d tail ds) := o1.step.layW wf lb (fun x hx h => nd0.2.2 x hx x h rfl)
        have la' := la
        simp only [LayArgs, and_true, LayW] at la'
        obtain ⟨la1, -, lb0, lb2, lb3⟩ := la'
        simp only [costV] at hf
        obtain ⟨f', rfl⟩ : ∃ g, f = g + 1 := ⟨f - 1, by omega⟩
        simp only [GoodVal] at hg
        simp only [sizeVal] at hsz
        obtain ⟨m2, tail2, ds2, q1, q2, q3, q4, q5⟩ := flatMsgs_lay o d h0 vms o1.wf (level := level + 1) (pfx := some t1) (f := f') lb1 lb3
          (by
            rw [List.nodup_append]
            have n := nd1.1
            simp only [footAs, LW.foot, List.append_nil, List.nodup_cons] at n
            refine ⟨nd0.1, n.2.2, fun x hx y hy h => hDC x hx ?_⟩
            simp only [footAs, LW.foot, List.mem_append, List.mem_cons]
            subst h
            exact Or.inl (Or.inr (Or.inl (Or.inr hy)))) hd hbv hg.1 (by omega) (fun s' h' => by cases h'; exact ⟨ht1, ht0⟩) (Or.inl hkeep) (by omega)
        have lc2 : LayMsgs m2 pv q [.mk c (some (a, s, k)) (done ++ rest)] := q4.step.layMsgs o1.wf lc
          (fun x hx h => hDC x h (List.mem_append.mpr (Or.inr hx)))
        have la2 : LayArgs m2 (ltA none done) (hdA none rest) [.mk p 46 al (.bndl b tl lms)] := q4.step.layArgs o1.wf la
          (fun x hx h => hDC x h (List.mem_append.mpr (Or.inl hx)))
        have la3 := la2
        simp only [LayArgs, and_true] at la3
        have hfree := atomFree_lay q4.wf la2 nd1.1
        have o2 : Own (footAs [.mk p 46 al (.bndl b tl lms)]) m2 [] (m2.erase (footAs [.mk p 46 al (.bndl b tl lms)])) := own_erase q4.wf
        have hlt1 : ∀ x ∈ footAs [.mk p 46 al (.bndl b tl lms)] ++ footMs [.mk c (some (a, s, k)) (done ++ rest)], x < m1.brk :=
          fun x hx => by rw [rb]; exact hltC x ((hmem x).mpr hx)
        have hD2 := q4.disj hlt1 (fun x hx h => hDC x h hx)
        have lb4 : LayW (m2.erase (footAs [.mk p 46 al (.bndl b tl lms)])) 46 (.bndl d tail2 ds2) :=
          o2.step.layW q4.wf q2 (fun x hx h => hD2 x (List.mem_append.mpr (Or.inl h)) hx)
        have lc4 : LayMsgs (m2.erase (footAs [.mk p 46 al (.bndl b tl lms)])) pv q [.mk c (some (a, s, k)) (done ++ rest)] :=
          o2.step.layMsgs q4.wf lc2 (fun x hx h => nd1.2.2 x h x hx rfl)
        obtain ⟨m', tail', ds', rest', u1, u2, u3, u4, u5, u6, u7⟩ := flatArgs_lay o d h0 vs' o2.wf (level := level) (pfx := pfx) (f := f' + 1) lb4 lc4
          (by
            rw [List.nodup_append]
            exact ⟨q3, nd1.2.1, fun x hx y hy h => hD2 y (List.mem_append.mpr (Or.inr hy)) (h ▸ hx)⟩) q5 hvs hg.2 (by omega) hs hs0 hp (Or.inl hkeep) (by omega)
        refine ⟨m', tail', ds', rest', ?_, u2, u3, u4, ?_, ?_, ?_⟩
        · rw [hdA_cons, flatArgs, seq_run (atomAt_run lp)]
          rw [if_pos (by rfl), seq_run r1]
          have hg1 : getPtr p 46 m1 = some (some b, m1) := by
            rw [getPtr, seq_run (atomAt_run la1)]; rfl
          rw [seq_run hg1, seq_run (joinAddr_run lc), ht]
          have hbn : flatBndl o d (f' + 1) (level + 1) (some t1) (some b) m1 = some ((), m2) := by
            rw [flatBndl, seq_run (bndlAt_run lb0)]; exact q1
          have hfn : freeNext o p m2 = some (hdA none rest, m2.erase (footAs [.mk p 46 al (.bndl b tl lms)])) := by
            rw [freeNext, if_pos hkeep, seq_run (atomAt_run la3.1), seq_run (fuel_run _), seq_run hfree]; rfl
          rw [seq_run hbn, seq_run hfn]
          exact u1
        · have e1 := (o1.frame (LW.bndl d tail ds).foot).congr
            (F1 := (LW.bndl d tail ds).foot ++ footMs [.mk c (some (a, s, k)) (done ++ LAtom.mk p 46 al (.bndl b tl lms) :: rest)])
            (G1 := (LW.bndl d tail ds).foot ++ (footAs [.mk p 46 al (.bndl b tl lms)] ++ footMs [.mk c (some (a, s, k)) (done ++ rest)]))
            (fun x => by simp only [List.mem_append]; exact Or.comm) (fun x => by rw [List.mem_append, List.mem_append (s := LW.foot _)]; exact Or.comm)
          have e2 := q4.frame (footAs [.mk p 46 al (.bndl b tl lms)] ++ footMs [.mk c (some (a, s, k)) (done ++ rest)])
          have e3 := (o2.frame ((LW.bndl d tail2 ds2).foot ++ footMs [.mk c (some (a, s, k)) (done ++ rest)])).congr
            (F1 := (LW.bndl d tail2 ds2).foot ++ (footAs [.mk p 46 al (.bndl b tl lms)] ++ footMs [.mk c (some (a, s, k)) (done ++ rest)]))
            (G1 := (LW.bndl d tail2 ds2).foot ++ footMs [.mk c (some (a, s, k)) (done ++ rest)])
            (fun x => by
              rw [List.mem_append, List.mem_append, List.mem_append, List.mem_append]
              exact or_left_comm) (fun x => by simp)
          exact e1.trans (e2.trans (e3.trans u5))
        · rw [u6, ht]; simp only [leavesIn, List.foldl_append]
        · rw [u7]; simp [Val.isBndl]
end


/-! ### The strict reading: an atom that was freed is not read -/

theorem bind_none {α β : Type} {x : M α} {g : α → M β} {m : Memory} (h : ∀ a m', x m = some (a, m') → g a m' = none) :
    (x >>= g) m = none := by
  cases hx : x m with
  | none => show (x m).bind _ = none; rw [hx]; rfl
  | some r =>
    obtain ⟨a, m'⟩ := r
    rw [seq_run hx]; exact h a m' hx

theorem free_gone {a : Nat} {m m' : Memory} (h : free a m = some ((), m')) : m'.cell a = none := by
  unfold free at h
  simp only [Option.map_eq_some_iff, Prod.mk.injEq, true_and] at h
  obtain ⟨_, _, rfl⟩ := h
  simp [set_cell]

theorem atomAt_gone {a : Nat} {m : Memory} (h : m.cell a = none) : atomAt a m = none := by
  refine bind_none fun c m' hc => ?_
  simp [readCell, h] at hc

theorem atomFree_gone {f a : Nat} {m m' : Memory} (h : atomFree f a m = some ((), m')) : m'.cell a = none := by
  cases f with
  | zero => cases h
  | succ f =>
    rw [atomFree] at h
    cases h1 : atomAt a m with
    | none => replace h : (atomAt a m).bind _ = _ := h; rw [h1] at h; cases h
    | some r =>
      obtain ⟨c, m1⟩ := r
      rw [seq_run h1] at h
      cases h2 : wordFree f c.tag c.w m1 with
      | none => replace h : (wordFree f c.tag c.w m1).bind _ = _ := h; rw [h2] at h; cases h
      | some r =>
        obtain ⟨⟨⟩, m2⟩ := r
        rw [seq_run h2] at h
        exact free_gone h

/-- The loop over the arguments of a message with a bundle reads an atom that was freed. -/
theorem flatArgs_strict {o : Flat} {d : Nat} (hk : o.keep = false) {m : Memory} {c : Nat} {level : Int} {pfx : Option Bytes} :
    ∀ (rest : List LAtom) {vs : List Val} {pv : Ptr} {f : Nat}, LayArgs m pv none rest → argsVal (toAs rest) = some vs →
      (∃ v ∈ vs, v.isBndl = true) → flatArgs o d f level pfx c (hdA none rest) m = none
  | [], vs, pv, f, l, hv, hb => by
    simp only [toAs, argsVal, Option.some.injEq] at hv
    subst hv; simp at hb
  | .mk p t al w :: rest, vs, pv, f, l, hv, hb => by
    simp only [toAs, argsVal, Option.bind_eq_some_iff, Option.map_eq_some_iff] at hv
    obtain ⟨v, hv1, vs', hvs, rfl⟩ := hv
    simp only [LayArgs] at l
    rw [hdA_cons]
    cases f with
    | zero => rfl
    | succ f =>
      rw [flatArgs, seq_run (atomAt_run l.1)]
      rcases val_bndl hv1 with ⟨ht, hb1⟩ | ⟨rfl, b, tl, lms, vms, rfl, hbv, rfl⟩
      · rw [if_neg (by exact ht)]
        refine flatArgs_strict hk rest l.2.2 hvs ?_
        obtain ⟨x, hx, hx'⟩ := hb
        rcases List.mem_cons.mp hx with rfl | hx
        · rw [hb1] at hx'; cases hx'
        · exact ⟨x, hx, hx'⟩
      · rw [if_pos (by rfl)]
        refine bind_none fun _ m1 _ => bind_none fun _ m2 _ => bind_none fun _ m3 _ => bind_none fun _ m4 _ => bind_none fun _ m5 h5 => ?_
        exfalso
        rw [freeNext, if_neg (by rw [hk]; decide), seq_run (fuel_run _)] at h5
        cases h6 : atomFree (3 * m4.brk + 3) p m4 with
        | none =>
          replace h5 : (atomFree (3 * m4.brk + 3) p m4).bind _ = _ := h5
          rw [h6] at h5; cases h5
        | some r =>
          obtain ⟨⟨⟩, m6⟩ := r
          rw [seq_run h6] at h5
          have := atomFree_gone h6
          replace h5 : (atomAt p m6).bind _ = _ := h5
          rw [atomAt_gone this] at h5
          cases h5

theorem argsDone {o : Flat} {d : Nat} (h0 : (0 : UInt8) ∉ o.sep) {f : Nat} {level : Int} {pfx : Option Bytes} {s : Bytes}
    {dv : List VMsg} {av : List Val} (g1 : s.head? = some 47) (g2 : (0 : UInt8) ∉ s) (g3 : GoodVals av)
    (hsz : sizeVals av < 2147483648) (hp : PfxOK pfx) (hs : o.keep = true ∨ ∀ v ∈ av, v.isBndl = false) (hf : costA av ≤ f) :
    ArgsDone o d f level pfx s dv av := by
  intro m1 c a1 k1 args' tail ds wf1 lb1 lc ndq hd hcv
  by_cases hdp : o.deeper level = true
  · obtain ⟨m2, tail2, ds2, args2, q1, q2, q3, q4, q5, q6, q7⟩ := flatArgs_lay o d h0 av (m := m1) wf1 (done := []) (level := level)
      (pfx := pfx) (f := f) lb1 lc ndq hd hcv g3 hsz g1 g2 hp hs hf
    refine ⟨m2, tail2, ds2, args2, ?_, q2, q3, q4, q5, ?_, ?_⟩
    · rw [hdp]; exact q1
    · rw [if_pos hdp]; exact q6
    · rw [if_pos hdp]; exact q7
  · refine ⟨m1, tail, ds, args', ?_, lb1, lc, ndq, Own.refl wf1 _, ?_, ?_⟩
    · have : o.deeper level = false := by simpa using hdp
      rw [this]; rfl
    · rw [if_neg hdp]; exact hd
    · rw [if_neg hdp]; exact hcv

/-- In the strict reading a bundle with a nested bundle cannot be flattened. -/
theorem flatMsgs_strict {o : Flat} {d : Nat} (hk : o.keep = false) (h0 : (0 : UInt8) ∉ o.sep) {level : Int} {pfx : Option Bytes}
    (hdp : o.deeper level = true) (hp : PfxOK pfx) : ∀ (vs : List VMsg) {m : Memory} (_ : WF m) {tail : Ptr} {ds ms : List LMsg}
    {dv : List VMsg} {pv : Ptr} {f : Nat}, LayW m 46 (.bndl d tail ds) → LayMsgs m pv none ms →
    ((LW.bndl d tail ds).foot ++ footMs ms).Nodup → msgsVal (toMs ds) = some dv → msgsVal (toMs ms) = some vs →
    GoodMsgs vs → sizeVMsgs vs < 2147483648 → (∃ x ∈ vs, ∃ v ∈ x.args, v.isBndl = true) → costM vs ≤ f →
    flatMsgs o d f level pfx (hdM none ms) m = none
  | [], m, wf, tail, ds, ms, dv, pv, f, lb, l, nd, hd, hv, hg, hsz, hs, hf => by simp at hs
  | .mk va args0 :: vs, m, wf, tail, ds, ms, dv, pv, f, lb, l, nd, hd, hv, hg, hsz, hs, hf => by
    match ms, hv, l, nd with
    | .mk p addr args :: ms, hv, l, nd =>
      simp only [toMs, msgsVal, msgVal, Option.bind_eq_some_iff, Option.map_eq_some_iff, List.cons.injEq] at hv
      obtain ⟨x, ⟨av, hav, rfl⟩, vs', hvs, hx, rfl⟩ := hv
      injection hx with hx1 hx2
      subst hx1 hx2
      simp only [costM] at hf
      obtain ⟨f, rfl⟩ : ∃ g, f = g + 1 := ⟨f - 1, by omega⟩
      match addr, hg, hsz, l, nd with
      | none, hg, _, _, _ => simp [GoodMsgs, GoodMsg] at hg
      | some (a0, s, k), hg, hsz, l, nd =>
        simp only [Option.map_some, GoodMsgs, GoodMsg] at hg
        obtain ⟨⟨g1, g2, g3⟩, g4⟩ := hg
        simp only [Option.map_some, sizeVMsgs, sizeVMsg] at hsz
        rw [hdM_cons]
        by_cases hb : ∀ v ∈ av, v.isBndl = false
        · obtain ⟨m3, tail3, ds3, t1, t2, l3, nd3, o3, t5⟩ := flatMsgs_cons h0 wf lb l nd hd hav g1 g2 g3 (by omega) hp
            (argsDone (f := f) h0 g1 g2 g3 (by omega) hp (Or.inr hb) (by omega))
          rw [t1]
          refine flatMsgs_strict hk h0 hdp hp vs' o3.wf t2 l3 nd3 t5 hvs g4 (by omega) ?_ (by omega)
          obtain ⟨x, hx, v, hv, hv'⟩ := hs
          rcases List.mem_cons.mp hx with rfl | hx
          · rw [hb v hv] at hv'; cases hv'
          · exact ⟨x, hx, v, hv, hv'⟩
        · have hb' : ∃ v ∈ av, v.isBndl = true := by
            refine Classical.byContradiction fun h => hb fun v hv => ?_
            cases hvb : v.isBndl
            · rfl
            · exact absurd ⟨v, hv, hvb⟩ h
          have hl0 : LayMsgs m pv (hdM none ms) [.mk p (some (a0, s, k)) args] ∧ LayMsgs m (some p) none ms :=
            (layMsgs_append m pv none [.mk p (some (a0, s, k)) args] ms).mp l
          have hft : footMs (.mk p (some (a0, s, k)) args :: ms) = footMs [.mk p (some (a0, s, k)) args] ++ footMs ms :=
            footMs_append [.mk p (some (a0, s, k)) args] ms
          rw [hft] at nd
          have nd1 := List.nodup_append.mp (List.nodup_append.mp nd).2.1
          obtain ⟨c, addr', args', m1, r1, lc, -, -, -, -, hcv, -⟩ := deepCopy_lay wf hl0.1 nd1.1 hav (copyable_of g3 (by omega))
          simp only [LayMsgs, and_true] at lc
          rw [flatMsgs, seq_run r1, seq_run (msgAt_run lc.1)]
          refine bind_none fun _ m2 h2 => ?_
          rw [hdp] at h2
          simp only [cond_true] at h2
          rw [flatArgs_strict hk args' lc.2.2 hcv hb'] at h2
          cases h2

end Libo.Mem
