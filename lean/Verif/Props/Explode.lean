import Verif.MemExplodeLemmas
import Verif.ExplodeLemmas
import Verif.Props.Flatten
/-!
# Properties C23 (exploding and flattening) and C52 (exploding)
-/

namespace Libo.Props
open Libo Libo.Mem Libo.Expr

/-! ### What exploding does to the values -/

theorem goodMsgs_append : ∀ {xs ys : List VMsg}, GoodMsgs xs → GoodMsgs ys → GoodMsgs (xs ++ ys)
  | [], ys, _, h => h
  | x :: xs, ys, h, h' => by
    simp only [GoodMsgs, List.cons_append] at h ⊢
    exact ⟨h.1, goodMsgs_append h.2 h'⟩
theorem starFreeMs_append : ∀ {xs ys : List VMsg}, StarFreeMs xs → StarFreeMs ys → StarFreeMs (xs ++ ys)
  | [], ys, _, h => h
  | .mk a as :: xs, ys, h, h' => by
    simp only [StarFreeMs, List.cons_append] at h ⊢
    exact ⟨h.1, h.2.1, starFreeMs_append h.2.2 h'⟩
theorem sizeVMsgs_append : ∀ (xs ys : List VMsg), sizeVMsgs (xs ++ ys) = sizeVMsgs xs + sizeVMsgs ys
  | [], ys => by simp [sizeVMsgs]
  | x :: xs, ys => by simp only [List.cons_append, sizeVMsgs, sizeVMsgs_append xs ys]; omega
theorem goodMsgs_filter (p : VMsg → Bool) : ∀ {xs : List VMsg}, GoodMsgs xs → GoodMsgs (xs.filter p)
  | [], h => h
  | x :: xs, h => by
    simp only [GoodMsgs] at h
    rw [List.filter_cons]
    split
    · simp only [GoodMsgs]; exact ⟨h.1, goodMsgs_filter p h.2⟩
    · exact goodMsgs_filter p h.2
theorem starFreeMs_filter (p : VMsg → Bool) : ∀ {xs : List VMsg}, StarFreeMs xs → StarFreeMs (xs.filter p)
  | [], h => h
  | .mk a as :: xs, h => by
    simp only [StarFreeMs] at h
    rw [List.filter_cons]
    split
    · simp only [StarFreeMs]; exact ⟨h.1, h.2.1, starFreeMs_filter p h.2.2⟩
    · exact starFreeMs_filter p h.2.2
theorem sizeVMsgs_filter (p : VMsg → Bool) : ∀ (xs : List VMsg), sizeVMsgs (xs.filter p) ≤ sizeVMsgs xs
  | [] => Nat.le_refl _
  | x :: xs => by
    have := sizeVMsgs_filter p xs
    rw [List.filter_cons]
    split <;> simp only [sizeVMsgs] <;> omega
theorem sizeVMsgs_supersede {xs : List VMsg} {x : VMsg} (h : x ∈ xs) :
    sizeVMsgs (xs.filter fun y => y.addr != x.addr) + sizeVMsg x ≤ sizeVMsgs xs := by
  induction xs with
  | nil => simp at h
  | cons y xs ih =>
    have hf := sizeVMsgs_filter (fun y => y.addr != x.addr) xs
    rw [List.filter_cons]
    rcases List.mem_cons.mp h with rfl | h
    · rw [if_neg (by simp)]; simp only [sizeVMsgs]; omega
    · have := ih h
      split <;> simp only [sizeVMsgs] <;> omega

theorem addr_mk (a : Option Bytes) (vs : List Val) : (VMsg.mk a vs).addr = a := rfl

theorem strSize_mono {a b : Nat} (h : a ≤ b) : strSize a ≤ strSize b := by
  simp only [strSize]
  have := Nat.div_le_div_right (c := 4) h
  omega

theorem place_ok {more : Int → Bool} : ∀ (n : Nat) {a : Bytes} {ms : List VMsg} {args : List Val} {level : Int}, a.length ≤ n → GoodMsgs ms →
    StarFreeMs ms → a.head? = some 47 → Plain a → GoodVals args → StarFreeVs args → GoodMsgs (place more level ms a args) ∧
      StarFreeMs (place more level ms a args) ∧
      sizeVMsgs (place more level ms a args) ≤ sizeVMsgs ms + sizeVMsg (.mk (some a) args) + 17 * a.length
  | n, a, ms, args, level, hn, hg, hs, h47, hp, hga, hsa => by
    have h0 : (0 : UInt8) ∉ a := fun h => (hp 0 h).1 rfl
    have h42 : (42 : UInt8) ∉ a := fun h => (hp 42 h).2.2.1 rfl
    have gx : GoodMsgs [.mk (some a) args] := by simp only [GoodMsgs, GoodMsg, and_true]; exact ⟨h47, h0, hga⟩
    have sx : StarFreeMs [.mk (some a) args] := by
      simp only [StarFreeMs, and_true]; exact ⟨fun s e => by cases e; exact h42, hsa⟩
    rw [place]
    split
    · refine ⟨goodMsgs_append hg gx, starFreeMs_append hs sx, ?_⟩
      rw [sizeVMsgs_append]; simp only [sizeVMsgs]; omega
    · split
      · refine ⟨goodMsgs_append (goodMsgs_filter _ hg) gx, starFreeMs_append (starFreeMs_filter _ hs) sx, ?_⟩
        rw [supersede, sizeVMsgs_append]
        have := sizeVMsgs_filter (fun x => x.addr != (VMsg.mk (some a) args).addr) ms
        simp only [sizeVMsgs]; omega
      · rename_i hr
        have hlt := restSeg_lt hr
        have hfr := congrArg List.length (firstSeg_restSeg a)
        rw [List.length_append] at hfr
        match n with
        | 0 => omega
        | n + 1 =>
          obtain ⟨k1, k2, -⟩ := subOf_ok (a := firstSeg a) hg hs
          obtain ⟨i1, i2, i3⟩ := place_ok (more := more) n (level := level + 1) (by omega) k1 k2 (restSeg_head hr) (plain_rest hp) hga hsa
          have pf := plain_first hp
          have f0 : (0 : UInt8) ∉ firstSeg a := fun h => (pf 0 h).1 rfl
          have f42 : (42 : UInt8) ∉ firstSeg a := fun h => (pf 42 h).2.2.1 rfl
          refine ⟨goodMsgs_append (goodMsgs_filter _ hg) ?_, starFreeMs_append (starFreeMs_filter _ hs) ?_, ?_⟩
          · simp only [GoodMsgs, GoodMsg, GoodVals, GoodVal, and_true]; exact ⟨first_head h47, f0, i1⟩
          · simp only [StarFreeMs, StarFreeVs, StarFree, and_true]
            exact ⟨fun s e => by cases e; exact f42, i2⟩
          · rw [supersede, sizeVMsgs_append]
            simp only [sizeVMsgs, sizeVMsg, sizeVals, sizeVal, addr_mk, List.length_cons, List.length_nil] at i3 ⊢
            have hm := strSize_mono (Nat.le_of_lt hlt)
            have h2 : 2 ≤ (firstSeg a).length := by
              match a, hr with
              | [], h | [_], h => simp [restSeg] at h
              | _ :: _ :: _, _ => simp [firstSeg]
            have h3 : strSize (firstSeg a).length ≤ (firstSeg a).length + 4 := by simp only [strSize]; omega
            have h4 : strSize (1 + (0 + 1)) = 4 := rfl
            rcases subOf_cases ms (firstSeg a) with h | ⟨ns, m1, m2⟩
            · have hf := sizeVMsgs_filter (fun x => x.addr != some (firstSeg a)) ms
              rw [h] at i3 ⊢
              simp only [sizeVMsgs] at i3
              omega
            · have hf := sizeVMsgs_supersede m1
              rw [m2] at i3 ⊢
              simp only [sizeVMsg, sizeVals, sizeVal, addr_mk, List.length_cons, List.length_nil] at hf
              omega

/-- Addresses that can be exploded: slash-led and without pattern characters, and no stars in nested bundles. -/
def Explodable (vs : List VMsg) : Prop := ∀ x ∈ vs, ∃ a, x.addr = some a ∧ a.head? = some 47 ∧ Plain a ∧ GoodVals x.args ∧ StarFreeVs x.args

theorem placeAll_ok {more : Int → Bool} : ∀ (vs : List VMsg) {ms : List VMsg}, Explodable vs → GoodMsgs ms → StarFreeMs ms →
    GoodMsgs (placeAll more ms vs) ∧ StarFreeMs (placeAll more ms vs) ∧ sizeVMsgs (placeAll more ms vs) ≤ sizeVMsgs ms + 18 * sizeVMsgs vs
  | [], ms, _, hg, hs => ⟨hg, hs, Nat.le_add_right _ _⟩
  | .mk ad args :: vs, ms, he, hg, hs => by
    obtain ⟨a, e, h1, h2, h3, h4⟩ := he _ (List.mem_cons_self ..)
    simp only [VMsg.addr] at e
    subst e
    obtain ⟨k1, k2, k3⟩ := place_ok (more := more) a.length (level := 0) (Nat.le_refl _) hg hs h1 h2 h3 h4
    obtain ⟨i1, i2, i3⟩ := placeAll_ok (more := more) vs (fun x hx => he x (List.mem_cons_of_mem _ hx)) k1 k2
    refine ⟨i1, i2, ?_⟩
    have : a.length ≤ sizeVMsg (.mk (some a) args) := by
      simp only [sizeVMsg, strSize]; omega
    simp only [placeAll, sizeVMsgs, List.foldl_cons, VMsg.addr, Option.getD_some, VMsg.args] at i3 k3 ⊢
    omega

/-! ### The loop -/

theorem explodeLoop_lay (maxlevel : Int) (f d : Nat) : ∀ (vs : List VMsg) (ms : List LMsg) {m : Memory} (_ : WF m) {tail : Ptr} {ds : List LMsg}
    {dv : List VMsg} {pv : Ptr} {k : Nat}, LayW m 46 (.bndl d tail ds) → LayMsgs m pv none ms →
    ((LW.bndl d tail ds).foot ++ footMs ms).Nodup → msgsVal (toMs ds) = some dv → msgsVal (toMs ms) = some vs → Explodable vs →
    (∀ x ∈ vs, ∀ a, x.addr = some a → a.length < f) → GoodMsgs dv → StarFreeMs dv → sizeVMsgs dv + 18 * sizeVMsgs vs < 2147483648 →
    ms.length ≤ k →
    ∃ m' tail' ds', explodeLoop maxlevel 47 f d k (hdM none ms) m = some ((), m') ∧ LayW m' 46 (.bndl d tail' ds') ∧
      (LW.bndl d tail' ds').foot.Nodup ∧ Own (LW.bndl d tail ds).foot m (LW.bndl d tail' ds').foot m' ∧
      msgsVal (toMs ds') = some (placeAll (cuts maxlevel) dv vs)
  | vs, [], m, wf, tail, ds, dv, pv, k, lb, l, nd, hd, hv, he, hf, hg, hs, hz, hk => by
    simp only [toMs, msgsVal, Option.some.injEq] at hv
    subst hv
    refine ⟨m, tail, ds, ?_, lb, (List.nodup_append.mp nd).1, Own.refl wf _, hd⟩
    cases k <;> rfl
  | vs, .mk p addr args :: ms, m, wf, tail, ds, dv, pv, k, lb, l, nd, hd, hv, he, hf, hg, hs, hz, hk => by
    simp only [toMs, msgsVal, msgVal, Option.bind_eq_some_iff, Option.map_eq_some_iff] at hv
    obtain ⟨x, ⟨av, hav, rfl⟩, vs', hvs, rfl⟩ := hv
    simp only [List.length_cons] at hk
    obtain ⟨k, rfl⟩ : ∃ g, k = g + 1 := ⟨k - 1, by omega⟩
    obtain ⟨a, e, h1, h2, h3, h4⟩ := he _ (List.mem_cons_self ..)
    have hfa := hf _ (List.mem_cons_self ..) a e
    simp only [VMsg.addr] at e
    rw [e] at hz
    have hz1 : a.length ≤ sizeVMsg (.mk (some a) av) := by simp only [sizeVMsg, strSize]; omega
    have hz2 : sizeVals av ≤ sizeVMsg (.mk (some a) av) := by simp only [sizeVMsg]; omega
    simp only [sizeVMsgs] at hz
    have hl0 : LayMsgs m pv (hdM none ms) [.mk p addr args] ∧ LayMsgs m (some p) none ms :=
      (layMsgs_append m pv none [.mk p addr args] ms).mp l
    have hft : footMs (.mk p addr args :: ms) = footMs [.mk p addr args] ++ footMs ms := footMs_append [.mk p addr args] ms
    rw [hft] at nd
    have nd0 := List.nodup_append.mp nd
    have nd1 := List.nodup_append.mp nd0.2.1
    obtain ⟨c, ad', args', m1, r1, lc, ndc, hge, st, hca, hcv, hcl⟩ := deepCopy_lay wf hl0.1 nd1.1 hav (copyable_of h3 (by
      show sizeVals av < _; omega))
    have oc : Own [] m (footMs [.mk c ad' args']) m1 := own_new st ndc hge (layMsgs_alloc _ _ _ lc) hcl
    rw [e] at hca
    match ad', hca, r1, lc, ndc, hge, hcl, oc with
    | some (a', s', k'), hca, r1, lc, ndc, hge, hcl, oc =>
      simp only [Option.map_some, Option.some.injEq] at hca
      subst hca
      have hltS : ∀ y ∈ (LW.bndl d tail ds).foot ++ (footMs [LMsg.mk p addr args] ++ footMs ms), y < m.brk := fun y hy => by
        rcases List.mem_append.mp hy with h | h
        · exact wf.lt (layW_alloc _ lb y h)
        · rcases List.mem_append.mp h with h | h
          · exact wf.lt (layMsgs_alloc _ _ _ hl0.1 y h)
          · exact wf.lt (layMsgs_alloc _ _ _ hl0.2 y h)
      have djc := oc.disj hltS (by simp)
      obtain ⟨m2, tail2, ds2, r2, lb2, nd2, o2, v2⟩ := explodeImpl_lay maxlevel f oc.wf (level := 0) (oc.step.layW wf lb (by simp)) lc (by
        rw [List.nodup_append]
        exact ⟨nd0.1, ndc, fun y hy z hz e => djc y (by simp [hy]) (e ▸ hz)⟩) hd hcv hg hs (by omega) h2 h1 hfa
      have o12 : Own (LW.bndl d tail ds).foot m (LW.bndl d tail2 ds2).foot m2 :=
        ((oc.frame (LW.bndl d tail ds).foot).congr (fun x => by simp) (fun x => by simp only [List.mem_append]; exact Or.comm)).trans o2
      have dj2 : ∀ y ∈ footMs [LMsg.mk p addr args] ++ footMs ms, y ∉ (LW.bndl d tail ds).foot := fun y hy h => nd0.2.2 y h y hy rfl
      have dj3 := o12.disj (fun y hy => hltS y (by simp only [List.mem_append] at hy ⊢; exact Or.inr hy)) dj2
      obtain ⟨g1, g2, g3⟩ := place_ok (more := cuts maxlevel) s'.length (level := 0) (Nat.le_refl _) hg hs h1 h2 h3 h4
      have lp2 := o12.step.layMsgs wf hl0.1 (fun y hy => dj2 y (by simp [hy]))
      obtain ⟨m3, tail3, ds3, r3, lb3, nd3, o3, v3⟩ := explodeLoop_lay maxlevel f d vs' ms o12.wf (k := k) lb2
        (o12.step.layMsgs wf hl0.2 (fun y hy => dj2 y (by simp [hy]))) (by
          rw [List.nodup_append]
          exact ⟨nd2, nd1.2.1, fun y hy z hz e => dj3 z (by simp [hz]) (e ▸ hy)⟩) v2 hvs (fun x hx => he x (List.mem_cons_of_mem _ hx))
        (fun x hx => hf x (List.mem_cons_of_mem _ hx)) g1 g2 (by
          show sizeVMsgs (place (cuts maxlevel) 0 dv s' av) + _ < _
          simp only [VMsg.args] at g3
          omega) (by omega)
      simp only [LayMsgs, and_true] at lp2
      refine ⟨m3, tail3, ds3, ?_, lb3, nd3, o12.trans o3, ?_⟩
      · rw [hdM_cons, explodeLoop, explodeMsg]
        have : (do let p ← deepCopy none p; explodeImpl maxlevel 47 f 0 d p : M Unit) m = some ((), m2) := by rw [seq_run r1, r2]
        rw [seq_run this, seq_run (msgAt_run lp2.1)]
        exact r3
      · rw [v3]
        simp only [placeAll, List.foldl_cons, VMsg.addr, e, Option.getD_some, VMsg.args]

/-! ### Exploding a bundle -/

theorem explode_own (maxlevel : Int) (f : Nat) {m : Memory} (wf : WF m) {p d : Nat} {vs dv : List VMsg} {S D : List Nat}
    (h : BndlAt m p vs S) (hd : BndlAt m d dv D) (hSD : ∀ x ∈ S, x ∉ D) (he : Explodable vs)
    (hf : ∀ x ∈ vs, ∀ a, x.addr = some a → a.length < f) (hg : GoodMsgs dv) (hs : StarFreeMs dv)
    (hz : sizeVMsgs dv + 18 * sizeVMsgs vs < 2147483648) :
    ∃ T m', explode maxlevel 47 f (some d) p m = some (d, m') ∧ BndlAt m' d (placeAll (cuts maxlevel) dv vs) T ∧ BndlAt m' p vs S ∧
      Own D m T m' := by
  have hb := h
  obtain ⟨tail, ms, h1, rfl, h3, h4⟩ := h
  obtain ⟨dtail, ds, d1, rfl, d3, d4⟩ := hd
  have l := h1
  simp only [LayW] at l
  have hlen := foot_len wf h3 (layW_alloc _ h1)
  have hl2 := footMs_length ms
  simp only [LW.foot, List.length_cons] at hlen
  obtain ⟨m', tail', ds', r1, r2, r3, r4, r5⟩ := explodeLoop_lay maxlevel f d vs ms wf (k := 3 * m.brk + 3) d1 l.2.2.2
    (by
      rw [List.nodup_append]
      simp only [LW.foot, List.nodup_cons] at h3
      exact ⟨d3, h3.2, fun x hx y hy e => hSD y (List.mem_cons_of_mem _ hy) (e ▸ hx)⟩) d4 h4 he hf hg hs hz (by omega)
  refine ⟨_, m', ?_, ⟨tail', ds', r2, rfl, r3, r5⟩, hb.frame fun x hx => r4.same x (hb.lt wf x hx) (hSD x hx), r4⟩
  rw [explode, seq_run (m' := m) (a := d) rfl, seq_run (bndlAt_run l.2.1), seq_run (fuel_run _), seq_run r1]
  rfl

/-- **C52 (partial).**  Exploding a bundle into another with the separator `/`: its messages are, one after the other, put where the
parts of their addresses lead (`placeAll`), down to the level limit.  The source is unchanged, and so is everything else in memory; no
block is lost.  The recursion need not be deeper than the longest address.  Missing: with any other separator it may not end
(`C52_full_fails`); patterns in addresses; bundles that do not fit the size fields. -/
theorem C52_partial (maxlevel : Int) (f : Nat) {m : Memory} (wf : WF m) {p d : Nat} {vs dv : List VMsg} {S D : List Nat}
    (h : BndlAt m p vs S) (hd : BndlAt m d dv D) (hSD : ∀ x ∈ S, x ∉ D) (he : Explodable vs)
    (hf : ∀ x ∈ vs, ∀ a, x.addr = some a → a.length < f) (hg : GoodMsgs dv) (hs : StarFreeMs dv)
    (hz : sizeVMsgs dv + 18 * sizeVMsgs vs < 2147483648) :
    ∃ T m', explode maxlevel 47 f (some d) p m = some (d, m') ∧ BndlAt m' d (placeAll (cuts maxlevel) dv vs) T ∧ BndlAt m' p vs S ∧
      OnlyReplaces m m' D T := by
  obtain ⟨T, m', r1, r2, r3, r4⟩ := explode_own maxlevel f wf h hd hSD he hf hg hs hz
  exact ⟨T, m', r1, r2, r3, onlyReplaces_of_own wf r4⟩

theorem explode_new (maxlevel : Int) (f : Nat) {m : Memory} (wf : WF m) {p : Nat} {vs : List VMsg} {S : List Nat}
    (h : BndlAt m p vs S) (he : Explodable vs) (hf : ∀ x ∈ vs, ∀ a, x.addr = some a → a.length < f)
    (hz : 18 * sizeVMsgs vs < 2147483648) :
    ∃ d T m', explode maxlevel 47 f none p m = some (d, m') ∧ BndlAt m' d (placeAll (cuts maxlevel) [] vs) T ∧ BndlAt m' p vs S ∧
      Own [] m T m' := by
  obtain ⟨m1, a1, a2, a3⟩ := bndlAlloc_at wf
  have h' : BndlAt m1 p vs S := h.frame fun x hx => a3.same x (h.lt wf x hx) (by simp)
  have hlt : ∀ x ∈ S, x ∉ [m.brk] := fun x hx e => by
    have := h.lt wf x hx
    simp at e; omega
  obtain ⟨T, m', r1, r2, r3, r4⟩ := explode_own maxlevel f a3.wf h' a2 hlt he hf (by simp [GoodMsgs]) (by simp [StarFreeMs])
    (by simp only [sizeVMsgs]; omega)
  refine ⟨m.brk, T, m', ?_, r2, r3, a3.trans r4⟩
  rw [explode] at r1 ⊢
  rw [seq_run (show destOr none bndlAlloc m = _ from a1)]
  rw [seq_run (m' := m1) (a := m.brk) rfl] at r1
  exact r1

/-- **C52 (into a new bundle; partial).** -/
theorem C52_new_partial (maxlevel : Int) (f : Nat) {m : Memory} (wf : WF m) {p : Nat} {vs : List VMsg} {S : List Nat}
    (h : BndlAt m p vs S) (he : Explodable vs) (hf : ∀ x ∈ vs, ∀ a, x.addr = some a → a.length < f)
    (hz : 18 * sizeVMsgs vs < 2147483648) :
    ∃ d T m', explode maxlevel 47 f none p m = some (d, m') ∧ BndlAt m' d (placeAll (cuts maxlevel) [] vs) T ∧ BndlAt m' p vs S ∧
      OnlyReplaces m m' [] T := by
  obtain ⟨d, T, m', r1, r2, r3, r4⟩ := explode_new maxlevel f wf h he hf hz
  exact ⟨d, T, m', r1, r2, r3, onlyReplaces_of_own wf r4⟩

/-! ### There and back -/

/-- Messages to different addresses, none of which leads below another, with arguments and without bundles. -/
structure Paths (vs : List VMsg) : Prop where
  addr : ∀ x ∈ vs, ∃ a, x.addr = some a ∧ a.head? = some 47 ∧ Plain a
  args : ∀ x ∈ vs, x.args ≠ [] ∧ ∀ v ∈ x.args, v.isBndl = false
  good : GoodMsgs vs
  apart : vs.Pairwise fun x y => ∀ a b, x.addr = some a → y.addr = some b → a ≠ b ∧ (∀ r, a ≠ b ++ 47 :: r) ∧ ∀ r, b ≠ a ++ 47 :: r

theorem starFreeVs_of : ∀ {vs : List Val}, (∀ v ∈ vs, v.isBndl = false) → StarFreeVs vs
  | [], _ => by simp [StarFreeVs]
  | v :: vs, h => by
    simp only [StarFreeVs]
    refine ⟨?_, starFreeVs_of fun x hx => h x (by simp [hx])⟩
    have := h v (by simp)
    cases v <;> simp_all [StarFree, Val.isBndl]

theorem Paths.explodable {vs : List VMsg} (h : Paths vs) : Explodable vs := fun x hx => by
  obtain ⟨a, e, h1, h2⟩ := h.addr x hx
  refine ⟨a, e, h1, h2, ?_, starFreeVs_of (h.args x hx).2⟩
  have := goodMsgs_mem h.good hx
  obtain ⟨ad, as⟩ := x
  cases e
  simp only [GoodMsg] at this
  exact this.2.2

theorem Paths.leaves {op : Int → Bool} (ho : ∀ l, op l = true) {vs : List VMsg} (h : Paths vs) :
    Tree (placeAll (cuts (-1)) [] vs) ∧ (leaves op [] true 0 none (placeAll (cuts (-1)) [] vs)).Perm vs := by
  have := placeAll_leaves ho (more := cuts (-1)) (fun l => by simp [cuts]) vs [] [] .nil (by simp [Libo.leaves]) (fun x hx => by
    obtain ⟨a, e, h1, -⟩ := h.addr x hx
    exact ⟨a, e, h1⟩) h.args (by simp) h.apart
  simpa using this

theorem lastOfEach_distinct : ∀ {ms : List VMsg}, (ms.map VMsg.addr).Nodup → lastOfEach ms = ms
  | [], _ => rfl
  | m :: ms, h => by
    rw [List.map_cons, List.nodup_cons] at h
    rw [lastOfEach, if_neg h.1, lastOfEach_distinct h.2]

theorem Paths.distinct {vs : List VMsg} (h : Paths vs) : (vs.map VMsg.addr).Nodup := by
  rw [List.Nodup, List.pairwise_map]
  refine List.Pairwise.imp_of_mem ?_ h.apart
  intro x y hx hy hxy e
  obtain ⟨a, e1, -⟩ := h.addr x hx
  exact (hxy a a e1 (e ▸ e1)).1 rfl

mutual
theorem leaves_nonempty {op : Int → Bool} {sep : Bytes} : ∀ (ms : List VMsg) (level : Int) (pfx : Option Bytes),
    ∀ x ∈ leaves op sep true level pfx ms, x.args ≠ []
  | [], _, _, x, hx => by simp [leaves] at hx
  | .mk a args :: ms, level, pfx, x, hx => by
    simp only [leaves, List.mem_append] at hx
    rcases hx with (hx | hx) | hx
    · split at hx
      · exact leavesIn_nonempty args _ _ x hx
      · simp at hx
    · revert hx
      generalize (if op level = true then List.filter (fun v => !v.isBndl) args else args) = rest
      intro hx
      by_cases h : True ∧ rest = []
      · rw [if_pos h] at hx
        simp at hx
      · rw [if_neg h] at hx
        rw [List.mem_singleton.mp hx]
        exact fun e => h ⟨trivial, e⟩
    · exact leaves_nonempty ms _ _ x hx
theorem leavesIn_nonempty {op : Int → Bool} {sep : Bytes} : ∀ (vs : List Val) (level : Int) (pfx : Option Bytes),
    ∀ x ∈ leavesIn op sep true level pfx vs, x.args ≠ []
  | [], _, _, x, hx => by simp [leavesIn] at hx
  | .bndl ms :: vs, level, pfx, x, hx => by
    simp only [leavesIn, List.mem_append] at hx
    rcases hx with hx | hx
    · exact leaves_nonempty ms _ _ x hx
    · exact leavesIn_nonempty vs _ _ x hx
  | .num _ _ :: vs, level, pfx, x, hx => leavesIn_nonempty vs _ _ x (by simpa only [leavesIn] using hx)
  | .time _ _ :: vs, level, pfx, x, hx => leavesIn_nonempty vs _ _ x (by simpa only [leavesIn] using hx)
  | .bare _ :: vs, level, pfx, x, hx => leavesIn_nonempty vs _ _ x (by simpa only [leavesIn] using hx)
  | .str _ :: vs, level, pfx, x, hx => leavesIn_nonempty vs _ _ x (by simpa only [leavesIn] using hx)
  | .blob _ :: vs, level, pfx, x, hx => leavesIn_nonempty vs _ _ x (by simpa only [leavesIn] using hx)
end

/-- **C23 (partial).**  Exploding a bundle of such messages and flattening the result gives a bundle with the same messages, though
not always in the same order; the source is unchanged.  Missing: messages without arguments (`C23_empty_lost`), and that C does not define
the read of an atom that was freed (`keep`, `C23_full_fails`). -/
theorem C23_partial (f : Nat) (o : Flat) (hk : o.keep = true) (hsep : o.sep = []) (hr : o.remove = true) (hl : o.maxlevel ≤ 0) {m : Memory}
    (wf : WF m) {p : Nat} {vs : List VMsg} {S : List Nat} (h : BndlAt m p vs S) (hp : Paths vs)
    (hf : ∀ x ∈ vs, ∀ a, x.addr = some a → a.length < f) (hz : 18 * sizeVMsgs vs < 2147483648) :
    ∃ e m1 d m2 ws T, explode (-1) 47 f none p m = some (e, m1) ∧ flatten o none e m1 = some (d, m2) ∧ BndlAt m2 d ws T ∧ ws.Perm vs ∧
      BndlAt m2 p vs S := by
  obtain ⟨e, E, m1, r1, r2, r3, r4⟩ := explode_new (-1) f wf h hp.explodable hf hz
  obtain ⟨g1, -, g3⟩ := placeAll_ok (more := cuts (-1)) vs (ms := []) hp.explodable (by simp [GoodMsgs]) (by simp [StarFreeMs])
  obtain ⟨d, T, m2, q1, q2, -, q4⟩ := C22_partial o hk (by simp [hsep]) r4.wf r2 g1 (by simp only [sizeVMsgs] at g3; omega)
  have ho : ∀ l, opens o.maxlevel l = true := fun l => by simp [opens, hl]
  have hperm := (hp.leaves ho).2
  have hnd := ((hperm.map VMsg.addr).nodup_iff).mpr hp.distinct
  rw [hsep, hr, lastOfEach_distinct hnd] at q2
  refine ⟨e, m1, d, m2, _, T, r1, q1, q2, hperm, r3.frame fun x hx => ?_⟩
  refine q4.1 x (by simp) fun hT => ?_
  rcases q4.2.2 x hT with h' | h'
  · simp at h'
  · obtain ⟨tail, ms, b1, rfl, -, -⟩ := r3
    have := layW_alloc _ b1 x hx
    rw [h'] at this
    cases this

/-- An address of several parts is exploded into a bundle. -/
theorem Paths.deep {vs : List VMsg} (hp : Paths vs) (hx : ∃ x ∈ vs, ∃ c r s, x.addr = some (47 :: c :: r ++ 47 :: s)) :
    ∃ s ns, VMsg.mk (some s) [.bndl ns] ∈ placeAll (cuts (-1)) [] vs ∧ ∃ b ws, VMsg.mk (some (s ++ 47 :: b)) ws ∈ vs := by
  obtain ⟨t, hperm⟩ := hp.leaves (op := fun _ => true) (fun _ => rfl)
  obtain ⟨x, hx, c, r, s, ea⟩ := hx
  have hxl := hperm.mem_iff.mpr hx
  have hsub := fun z => (hperm.mem_iff (a := z)).mp
  revert hxl hsub
  generalize placeAll (cuts (-1)) [] vs = ms at t
  induction t with
  | nil => intro h; simp [Libo.leaves] at h
  | @leaf s' ws ms h1 h2 h3 h4 h5 h6 ih =>
    intro h hsub
    rw [leaves_leaf (fun _ => rfl) _ _ _ _ h4 h5] at h hsub
    rcases List.mem_cons.mp h with h | h
    · exfalso
      rw [h] at ea
      simp only [VMsg.addr, below, Option.some.injEq] at ea
      subst ea
      simp only [List.cons_append, restSeg, List.dropWhile_append] at h2
      split at h2 <;> simp_all
    · obtain ⟨y, ns, hy, hv⟩ := ih h (fun z hz => hsub z (List.mem_cons_of_mem _ hz))
      exact ⟨y, ns, List.mem_cons_of_mem _ hy, hv⟩
  | @node s' ns ms h1 h2 h3 h4 h5 h6 ih1 ih2 =>
    intro _ hsub
    obtain ⟨b, ws, hb⟩ := h5.some_leaf (op := fun _ => true) (fun _ => rfl) h4
    refine ⟨s', ns, List.mem_cons_self .., b, ws, hsub _ ?_⟩
    rw [leaves_node (fun _ => rfl)]
    simp only [below, List.mem_append]
    left
    rw [h5.pre (fun _ => rfl) (0 + 1) 0]
    exact List.mem_map.mpr ⟨_, hb, rfl⟩

theorem apart_of : ∀ {vs : List VMsg} {x y : VMsg} {a b : Bytes},
    vs.Pairwise (fun x y => ∀ a b, x.addr = some a → y.addr = some b → a ≠ b ∧ (∀ r, a ≠ b ++ 47 :: r) ∧ ∀ r, b ≠ a ++ 47 :: r) →
    x ∈ vs → y ∈ vs → x.addr = some a → y.addr = some b → ∀ r, b ≠ a ++ 47 :: r
  | z :: vs, x, y, a, b, h, hx, hy, ha, hb, r => by
    have h' := List.pairwise_cons.mp h
    rcases List.mem_cons.mp hx with e1 | hx' <;> rcases List.mem_cons.mp hy with e2 | hy'
    · subst e1; subst e2
      rw [ha] at hb
      intro e
      have := congrArg List.length e
      cases hb
      simp at this
    · subst e1; exact (h'.1 y hy' a b ha hb).2.2 r
    · subst e2; exact (h'.1 x hx' b a hb ha).2.1 r
    · exact apart_of h'.2 hx' hy' ha hb r

/-- A message with nothing but a bundle is left empty. -/
theorem leaves_emptied {op : Int → Bool} (ho : ∀ l, op l = true) {sep : Bytes} {level : Int} {s : Bytes} {ns : List VMsg} : ∀ {ms : List VMsg},
    VMsg.mk (some s) [.bndl ns] ∈ ms → VMsg.mk (some s) [] ∈ leaves op sep false level none ms
  | .mk a args :: ms, h => by
    simp only [leaves, List.mem_append]
    rcases List.mem_cons.mp h with e | h
    · cases e
      left; right
      simp [ho, Val.isBndl, below]
    · exact Or.inr (leaves_emptied ho h)

/-- **C23 fails in the strict reading of C**: flattening what was exploded reads freed memory as soon as one address has more than one
part. -/
theorem C23_full_fails (f : Nat) (o : Flat) (hk : o.keep = false) (hsep : o.sep = []) {m : Memory}
    (wf : WF m) {p : Nat} {vs : List VMsg} {S : List Nat} (h : BndlAt m p vs S) (hp : Paths vs)
    (hf : ∀ x ∈ vs, ∀ a, x.addr = some a → a.length < f) (hz : 18 * sizeVMsgs vs < 2147483648)
    (hx : ∃ x ∈ vs, ∃ c r s, x.addr = some (47 :: c :: r ++ 47 :: s)) :
    ∃ e m1, explode (-1) 47 f none p m = some (e, m1) ∧ flatten o none e m1 = none := by
  obtain ⟨e, E, m1, r1, r2, r3, r4⟩ := explode_new (-1) f wf h hp.explodable hf hz
  obtain ⟨g1, -, g3⟩ := placeAll_ok (more := cuts (-1)) vs (ms := []) hp.explodable (by simp [GoodMsgs]) (by simp [StarFreeMs])
  refine ⟨e, m1, r1, C22_full_fails o hk (by simp [hsep]) r4.wf r2 g1 (by simp only [sizeVMsgs] at g3; omega) ?_⟩
  obtain ⟨s, ns, hd, -⟩ := hp.deep hx
  exact ⟨_, hd, _, List.mem_cons_self .., rfl⟩

/-- Exploding and flattening loses messages without arguments if the flattening drops empty addresses … -/
theorem C23_empty_lost (f : Nat) (o : Flat) (hk : o.keep = true) (h0 : (0 : UInt8) ∉ o.sep) (hr : o.remove = true) {m : Memory}
    (wf : WF m) {p : Nat} {vs : List VMsg} {S : List Nat} (h : BndlAt m p vs S) (he : Explodable vs)
    (hf : ∀ x ∈ vs, ∀ a, x.addr = some a → a.length < f) (hz : 18 * sizeVMsgs vs < 2147483648) :
    ∃ e m1 d m2 ws T, explode (-1) 47 f none p m = some (e, m1) ∧ flatten o none e m1 = some (d, m2) ∧ BndlAt m2 d ws T ∧
      ∀ x ∈ ws, x.args ≠ [] := by
  obtain ⟨e, E, m1, r1, r2, r3, r4⟩ := explode_new (-1) f wf h he hf hz
  obtain ⟨g1, -, g3⟩ := placeAll_ok (more := cuts (-1)) vs (ms := []) he (by simp [GoodMsgs]) (by simp [StarFreeMs])
  obtain ⟨d, T, m2, q1, q2, -, q4⟩ := C22_partial o hk h0 r4.wf r2 g1 (by simp only [sizeVMsgs] at g3; omega)
  refine ⟨e, m1, d, m2, _, T, r1, q1, q2, fun x hx => ?_⟩
  have hx := lastOfEach_sub _ _ hx
  rw [hr] at hx
  exact leaves_nonempty _ _ _ x hx

/-- … and otherwise adds one for each part of an address. -/
theorem C23_empty_added (f : Nat) (o : Flat) (hk : o.keep = true) (hsep : o.sep = []) (hr : o.remove = false) (hl : o.maxlevel ≤ 0) {m : Memory}
    (wf : WF m) {p : Nat} {vs : List VMsg} {S : List Nat} (h : BndlAt m p vs S) (hp : Paths vs)
    (hf : ∀ x ∈ vs, ∀ a, x.addr = some a → a.length < f) (hz : 18 * sizeVMsgs vs < 2147483648)
    (hx : ∃ x ∈ vs, ∃ c r s, x.addr = some (47 :: c :: r ++ 47 :: s)) :
    ∃ e m1 d m2 ws T, explode (-1) 47 f none p m = some (e, m1) ∧ flatten o none e m1 = some (d, m2) ∧ BndlAt m2 d ws T ∧ ¬ ws.Perm vs := by
  obtain ⟨e, E, m1, r1, r2, r3, r4⟩ := explode_new (-1) f wf h hp.explodable hf hz
  obtain ⟨g1, -, g3⟩ := placeAll_ok (more := cuts (-1)) vs (ms := []) hp.explodable (by simp [GoodMsgs]) (by simp [StarFreeMs])
  obtain ⟨d, T, m2, q1, q2, -, q4⟩ := C22_partial o hk (by simp [hsep]) r4.wf r2 g1 (by simp only [sizeVMsgs] at g3; omega)
  refine ⟨e, m1, d, m2, _, T, r1, q1, q2, fun hperm => ?_⟩
  have ho : ∀ l, opens o.maxlevel l = true := fun l => by simp [opens, hl]
  obtain ⟨s, ns, hd, b, ws, hb⟩ := hp.deep hx
  have h1 := leaves_emptied ho (sep := o.sep) (level := 0) hd
  rw [← hr] at h1
  have h2 : some s ∈ (lastOfEach (leaves (opens o.maxlevel) o.sep o.remove 0 none (placeAll (cuts (-1)) [] vs))).map VMsg.addr :=
    (mem_lastOfEach_addr _).mpr (List.mem_map.mpr ⟨_, h1, rfl⟩)
  obtain ⟨z, hz, ez⟩ := List.mem_map.mp h2
  exact apart_of hp.apart (hperm.mem_iff.mp hz) hb ez rfl b rfl

/-! ### Other separators -/

theorem cut_other {c : UInt8} {s y : Bytes} (hs : s.head? = some 47) (hc : c ∉ s) : cut c (s ++ c :: y) = s.length := by
  match s, hs with
  | x :: s, hs =>
    simp only [List.mem_cons, not_or] at hc
    rw [cut, if_neg (by simpa using fun e => hc.1 e.symm), cutLoop_eq c _ _ 0 (by simp) (by simp)]
    simp only [List.cons_append, Nat.zero_add, List.drop_succ_cons, List.drop_zero, List.length_cons]
    have : ∀ t : Bytes, c ∉ t → (t ++ c :: y).takeWhile (· ≠ c) = t := by
      intro t
      induction t with
      | nil => intro _; simp
      | cons z t ih =>
        intro h
        simp only [List.mem_cons, not_or] at h
        rw [List.cons_append, List.takeWhile_cons, if_pos (by simpa using fun e => h.1 e.symm), ih h.2]
    rw [this s hc.2]; omega

/-- With another separator the rest of the address may be no shorter than the address. -/
theorem explodeImpl_loops {maxlevel : Int} (hmax : maxlevel < 0) {c : UInt8} (hc : c ≠ 47) {y : Bytes} (hy : y.head? ≠ some 47)
    (h0 : (0 : UInt8) ∉ c :: y) : ∀ (f : Nat) {m : Memory} (_ : WF m) {d p a0 : Nat} {tail : Ptr} {ds : List LMsg}
    {dv : List VMsg} {s k : Bytes} {args : List LAtom} {pv q : Ptr} {level : Int},
    LayW m 46 (.bndl d tail ds) → LayMsgs m pv q [.mk p (some (a0, s ++ c :: y, k)) args] →
    ((LW.bndl d tail ds).foot ++ footMs [.mk p (some (a0, s ++ c :: y, k)) args]).Nodup → msgsVal (toMs ds) = some dv →
    GoodMsgs dv → StarFreeMs dv → sizeVMsgs dv < 2147483648 → Plain s → s.head? = some 47 → c ∉ s →
    explodeImpl maxlevel c f level d p m = none
  | 0, _, _, _, _, _, _, _, _, _, _, _, _, _, _, _, _, _, _, _, _, _, _, _, _ => rfl
  | f + 1, m, wf, d, p, a0, tail, ds, dv, s, k, args, pv, q, level, lb, l, nd, hd, hg, hst, hsz, hp, h47, hcs => by
    rw [explodeImpl, if_neg (by omega)]
    have nd0 := List.nodup_append.mp nd
    have hlen := foot_len wf nd0.1 (layW_alloc _ lb)
    have lb' := lb
    simp only [LayW, true_and] at lb'
    have l' := l
    simp only [LayMsgs, LayAddr, and_true, Option.map_some] at l'
    rw [seq_run (msgAt_run l'.1)]
    simp only [deref]
    rw [seq_run (ofOpt_run rfl _), seq_run (strAt_run l'.2.1.1 l'.2.1.2), seq_run (bndlAt_run lb'.1), seq_run (fuel_run _)]
    have hex := addressExists_run hp h47 ds (f := 3 * m.brk + 3) lb'.2.2 hd hg (starFree_noStar hst) (by
      have := footMs_length ds
      simp only [LW.foot, List.length_cons] at hlen
      omega)
    have e1 : (s ++ c :: y).take (cut c (s ++ c :: y)) = s := by rw [cut_other h47 hcs, List.take_left]
    have e2 : (s ++ c :: y).drop (cut c (s ++ c :: y)) = c :: y := by rw [cut_other h47 hcs, List.drop_left]
    have e3 : restAddr (s ++ c :: y) (cut c (s ++ c :: y)) = [47] ++ c :: y := by
      rw [restAddr, if_neg, if_neg, e2]; rfl
      · rw [cut_other h47 hcs]
        rw [List.getElem?_append_right (by omega), show s.length + 1 - s.length = 1 by omega]
        rw [List.head?_eq_getElem?] at hy
        simpa using hy
      · rw [cut_other h47 hcs, List.getElem?_append_right (Nat.le_refl _), Nat.sub_self]
        simpa using hc
    rw [e1, e2, e3, seq_run hex, if_neg (by simp)]
    obtain ⟨x, b, ax, kx, tb, bs, m1, r1, lx, lbb, ndx, o1, v1⟩ := opening_lay wf hp h47 lb nd0.1 hd hg hst hsz
    rw [seq_run r1]
    simp only
    have hltD : ∀ y' ∈ (LW.bndl d tail ds).foot ++ footMs [.mk p (some (a0, s ++ c :: y, k)) args], y' < m.brk := fun y' hy => by
      rcases List.mem_append.mp hy with h | h
      · exact wf.lt (layW_alloc _ lb y' h)
      · exact wf.lt (layMsgs_alloc _ _ _ l y' h)
    have dj1 := o1.disj hltD (by simp)
    have l1 := o1.step.layMsgs wf l (by simp)
    obtain ⟨m2, a2, k2, r2, l2, nd2, o2⟩ := setAddress_lay o1.wf ([47] ++ c :: y) l1 nd0.2.1 rfl (by
      intro h
      simp only [List.cons_append, List.nil_append] at h
      rcases List.mem_cons.mp h with h | h
      · cases h
      · exact h0 h)
    rw [seq_run r2]
    have np1 : ∀ z ∈ (LW.bndl b tb bs).foot, z ∉ footMs [.mk p (some (a0, s ++ c :: y, k)) args] := fun z hz hp' =>
      dj1 z (by simp [hp']) (by simp [hz])
    have dj2 := o2.disj (fun z hz => o1.wf.lt (layW_alloc _ lbb z hz)) np1
    have ndx0 := List.nodup_append.mp ndx
    obtain ⟨sg, ss, sz⟩ := subOf_ok (a := s) hg hst
    have ih := explodeImpl_loops hmax hc hy h0 f o2.wf (level := level + 1) (o2.step.layW o1.wf lbb np1) l2 (by
      rw [List.nodup_append]
      exact ⟨ndx0.2.1, nd2, fun z hz w hw e => dj2 z hz (e ▸ hw)⟩) v1 sg ss (by omega) (by
        intro z hz
        simp only [List.mem_singleton] at hz
        subst hz
        decide) rfl (by simpa using hc)
    rw [bind_run, ih]
    rfl

theorem explodeMsg_loops {maxlevel : Int} (hmax : maxlevel < 0) {c : UInt8} (hc : c ≠ 47) (f : Nat) {m : Memory} (wf : WF m) {p d : Nat}
    {s y : Bytes} {args : List Val} {dv : List VMsg} {S D : List Nat} (h : MsgAt m p (some (s ++ c :: y)) args S) (hd : BndlAt m d dv D)
    (hs : s.head? = some 47) (hp : Plain s) (hcs : c ∉ s) (h0 : (0 : UInt8) ∉ c :: y) (hy : y.head? ≠ some 47) (ha : GoodVals args)
    (hz : sizeVals args < 2147483648)
    (hg : GoodMsgs dv) (hst : StarFreeMs dv) (hsz : sizeVMsgs dv < 2147483648) : explodeMsg maxlevel c f d p m = none := by
  obtain ⟨pv, q, a, as, h1, h2, h3, h4, h5⟩ := h
  obtain ⟨tail, ds, d1, rfl, d3, d4⟩ := hd
  obtain ⟨b, ad', args', m1, r1, lc, ndc, hge, st, hca, hcv, hcl⟩ := deepCopy_lay wf h1 (h2 ▸ h3) h5 (copyable_of ha hz)
  rw [explodeMsg, seq_run r1]
  rw [h4] at hca
  match ad', hca, lc, ndc, hge, hcl with
  | some (a', s', k'), hca, lc, ndc, hge, hcl =>
    simp only [Option.map_some, Option.some.injEq] at hca
    subst hca
    have oc : Own [] m (footMs [.mk b (some (a', s ++ c :: y, k')) args']) m1 := own_new st ndc hge (layMsgs_alloc _ _ _ lc) hcl
    have dj := oc.disj (fun z hz => wf.lt (layW_alloc _ d1 z hz)) (by simp)
    exact explodeImpl_loops hmax hc hy h0 f oc.wf (oc.step.layW wf d1 (by simp)) lc (by
      rw [List.nodup_append]
      exact ⟨d3, ndc, fun z hz w hw e => dj z hz (e ▸ hw)⟩) d4 hg hst hsz hp hs hcs

/-- **C52 fails for other separators.**  Exploding a bundle never ends if the address of its first message has the separator `c` in it,
not followed by a slash: however deep the recursion may be, it is not deep enough. -/
theorem C52_full_fails {maxlevel : Int} (hmax : maxlevel < 0) {c : UInt8} (hc : c ≠ 47) (f : Nat) {m : Memory} (wf : WF m) {p d : Nat}
    {s y : Bytes} {args : List Val} {vs dv : List VMsg} {S D : List Nat} (h : BndlAt m p (.mk (some (s ++ c :: y)) args :: vs) S)
    (hd : BndlAt m d dv D) (hs : s.head? = some 47) (hp : Plain s) (hcs : c ∉ s) (hy : y.head? ≠ some 47)
    (hgv : GoodMsg (.mk (some (s ++ c :: y)) args)) (hz : sizeVals args < 2147483648)
    (hg : GoodMsgs dv) (hst : StarFreeMs dv) (hsz : sizeVMsgs dv < 2147483648) : explode maxlevel c f (some d) p m = none := by
  obtain ⟨tail, ms, h1, rfl, h3, h4⟩ := h
  have l := h1
  simp only [LayW] at l
  match ms, h4, l, h3 with
  | .mk q ad as :: ms, h4, l, h3 =>
    simp only [toMs, msgsVal, msgVal, Option.bind_eq_some_iff, Option.map_eq_some_iff] at h4
    obtain ⟨x, ⟨av, hav, rfl⟩, vs', hvs, e⟩ := h4
    simp only [List.cons.injEq, VMsg.mk.injEq] at e
    obtain ⟨⟨e1, rfl⟩, rfl⟩ := e
    have hl0 : LayMsgs m none (hdM none ms) [.mk q ad as] ∧ LayMsgs m (some q) none ms :=
      (layMsgs_append m none none [.mk q ad as] ms).mp l.2.2.2
    have hft : footMs (.mk q ad as :: ms) = footMs [.mk q ad as] ++ footMs ms := footMs_append [.mk q ad as] ms
    simp only [LW.foot, List.nodup_cons] at h3
    rw [hft] at h3
    simp only [GoodMsg] at hgv
    have key := explodeMsg_loops hmax hc f wf (p := q) (S := footMs [.mk q ad as]) ⟨none, hdM none ms, ad, as, hl0.1, rfl,
      (List.nodup_append.mp h3.2).1, e1, hav⟩ hd hs hp hcs (fun h0 => hgv.2.1 (List.mem_append_right _ h0)) hy hgv.2.2 hz hg hst hsz
    rw [explode, seq_run (m' := m) (a := d) rfl, seq_run (bndlAt_run l.2.1), seq_run (fuel_run _), bind_run, hdM_cons]
    have : explodeLoop maxlevel c f d (3 * m.brk + 3) (some q) m = none := by
      rw [show 3 * m.brk + 3 = (3 * m.brk + 2) + 1 by omega, explodeLoop, bind_run, key]
      rfl
    rw [this]
    rfl

/-! ### Examples -/

/-- `/a/b` with 1, `/c` with 2, `/a/d/e` with 3, `/a/d/f` with 4. -/
def paths : List VMsg := [.mk (some [47, 97, 47, 98]) [.num 105 1], .mk (some [47, 99]) [.num 105 2],
  .mk (some [47, 97, 47, 100, 47, 101]) [.num 105 3], .mk (some [47, 97, 47, 100, 47, 102]) [.num 105 4]]

def pathsU : List UMsg := [.mk (some [47, 97, 47, 98]) [.mk 105 false (.bits 1)], .mk (some [47, 99]) [.mk 105 false (.bits 2)],
  .mk (some [47, 97, 47, 100, 47, 101]) [.mk 105 false (.bits 3)], .mk (some [47, 97, 47, 100, 47, 102]) [.mk 105 false (.bits 4)]]

theorem place_limit {more : Int → Bool} {level : Int} {ms : List VMsg} {a : Bytes} {args : List Val} (h : more level = false) :
    place more level ms a args = ms ++ [.mk (some a) args] := by rw [place, if_pos h]

theorem place_end {more : Int → Bool} {level : Int} {ms : List VMsg} {a : Bytes} {args : List Val} (h : more level = true)
    (hr : restSeg a = []) : place more level ms a args = supersede ms (.mk (some a) args) := by
  rw [place, if_neg (by simp [h]), if_pos hr]

theorem place_in {more : Int → Bool} {level : Int} {ms : List VMsg} {a : Bytes} {args : List Val} (h : more level = true)
    (hr : restSeg a ≠ []) : place more level ms a args =
      supersede ms (.mk (some (firstSeg a)) [.bndl (place more (level + 1) (subOf ms (firstSeg a)) (restSeg a) args)]) := by
  rw [place, if_neg (by simp [h]), if_neg hr]

/-- Exploded: `/c` with 2, and `/a` with a bundle with `/b` and a bundle below `/d`. -/
example : placeAll (cuts (-1)) [] paths = [.mk (some [47, 99]) [.num 105 2],
    .mk (some [47, 97]) [.bndl [.mk (some [47, 98]) [.num 105 1],
      .mk (some [47, 100]) [.bndl [.mk (some [47, 101]) [.num 105 3], .mk (some [47, 102]) [.num 105 4]]]]]] := by
  simp [paths, placeAll, place_end, place_in, cuts, restSeg, firstSeg, supersede, subOf, VMsg.addr, VMsg.args]

/-- With a limit of one level. -/
example : placeAll (cuts 1) [] paths = [.mk (some [47, 99]) [.num 105 2],
    .mk (some [47, 97]) [.bndl [.mk (some [47, 98]) [.num 105 1],
      .mk (some [47, 100, 47, 101]) [.num 105 3], .mk (some [47, 100, 47, 102]) [.num 105 4]]]] := by
  simp [paths, placeAll, place_limit, place_end, place_in, cuts, restSeg, firstSeg, supersede, subOf, VMsg.addr, VMsg.args]

/-- It meets the hypotheses. -/
example : ∃ m p S, WF m ∧ BndlAt m p paths S ∧ Paths paths ∧ (∀ x ∈ paths, ∀ a, x.addr = some a → a.length < 10) ∧
    18 * sizeVMsgs paths < 2147483648 ∧ ∃ x ∈ paths, ∃ c r s, x.addr = some (47 :: c :: r ++ 47 :: s) := by
  have hg : GoodMsgs paths := by simp [paths, GoodMsgs, GoodMsg, GoodVals, GoodVal]
  obtain ⟨m, p, S, h1, h2⟩ := bndlAt_exists pathsU paths rfl hg
  refine ⟨m, p, S, h1, h2, ⟨?_, ?_, hg, ?_⟩, ?_, by decide +kernel, ?_⟩
  · simp [paths, VMsg.addr, Plain]
  · simp [paths, VMsg.args, Val.isBndl]
  · simp [paths, VMsg.addr]
  · simp [paths, VMsg.addr]
  · exact ⟨_, List.mem_cons_self .., 97, [], [98], rfl⟩

/-- A bundle with a message to `/a.b`, and an empty one, meet the hypotheses of `C52_full_fails` for the separator `.`. -/
example : ∃ m p S d D, WF m ∧ BndlAt m p [.mk (some ([47, 97] ++ 46 :: [98])) [.num 105 1]] S ∧ BndlAt m d [] D ∧ Plain [47, 97] ∧
    GoodMsg (.mk (some ([47, 97] ++ 46 :: [98])) [.num 105 1]) ∧ sizeVals [.num 105 1] < 2147483648 ∧ ([98] : Bytes).head? ≠ some 47 := by
  have hg : GoodMsgs [.mk (some ([47, 97] ++ 46 :: [98])) [.num 105 1]] := by simp [GoodMsgs, GoodMsg, GoodVals, GoodVal]
  obtain ⟨m, p, S, h1, h2⟩ := bndlAt_exists [.mk (some [47, 97, 46, 98]) [.mk 105 false (.bits 1)]] _ rfl hg
  obtain ⟨m', a1, a2, a3⟩ := bndlAlloc_lay h1
  refine ⟨m', p, S, m.brk, [m.brk], a3.wf, ?_, ?_, by simp [Plain], by simp [GoodMsg, GoodVals, GoodVal], by decide +kernel, by simp⟩
  · exact h2.frame fun x hx => a3.same x (h2.lt h1 x hx) (by simp)
  · exact ⟨_, _, a2, rfl, by simp, rfl⟩

end Libo.Props
