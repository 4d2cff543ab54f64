import Verif.MemFlatLemmas
import Verif.Props.Copy
/-!
# Property C22 (flattening)

`leaves` and `AtPath` (`FlatSpec.lean`) say what the flat bundle is.  The code reads an atom that it has just freed; with `keep` the
model lets it.
-/

namespace Libo.Props
open Libo Libo.Mem Libo.Expr

mutual
theorem costM_le : ∀ (ms : List LMsg) (vs : List VMsg), msgsVal (toMs ms) = some vs → costM vs ≤ (footMs ms).length
  | [], vs, h => by
    simp only [toMs, msgsVal, Option.some.injEq] at h
    subst h; simp [costM]
  | .mk p a args :: ms, vs, h => by
    simp only [toMs, msgsVal, msgVal, Option.bind_eq_some_iff, Option.map_eq_some_iff] at h
    obtain ⟨_, ⟨av, h1, rfl⟩, vs', h2, rfl⟩ := h
    have := costM_le ms vs' h2
    have := costA_le args av h1
    simp only [costM, footMs, List.length_cons, List.length_append]
    omega
theorem costA_le : ∀ (as : List LAtom) (vs : List Val), argsVal (toAs as) = some vs → costA vs ≤ (footAs as).length
  | [], vs, h => by
    simp only [toAs, argsVal, Option.some.injEq] at h
    subst h; simp [costA]
  | .mk p t al w :: as, vs, h => by
    simp only [toAs, argsVal, Option.bind_eq_some_iff, Option.map_eq_some_iff] at h
    obtain ⟨v, h1, vs', h2, rfl⟩ := h
    have := costA_le as vs' h2
    have : costV v ≤ w.foot.length := costV_le t al w v h1
    simp only [costA, footAs, List.length_cons, List.length_append]
    omega
theorem costV_le : ∀ (t : UInt8) (al : Bool) (w : LW) (v : Val), (UAtom.mk t al w.toW).val = some v → costV v ≤ w.foot.length
  | t, al, .bndl p tail ms, v, h => by
    rcases val_bndl h with ⟨-, hb⟩ | ⟨-, p', tail', ms', vs, e, hv, rfl⟩
    · cases v <;> first | (simp [costV]; done) | cases hb
    · cases e
      have := costM_le ms vs hv
      simp only [costV, LW.foot, List.length_cons]
      omega
  | t, al, .plain w, v, h => by
    rcases val_bndl h with ⟨-, hb⟩ | ⟨-, p', tail', ms', vs, e, hv, rfl⟩
    · cases v <;> first | (simp [costV]; done) | cases hb
    · cases e
  | t, al, .str _ _ _, v, h => by
    rcases val_bndl h with ⟨-, hb⟩ | ⟨-, p', tail', ms', vs, e, hv, rfl⟩
    · cases v <;> first | (simp [costV]; done) | cases hb
    · cases e
  | t, al, .blob _ _, v, h => by
    rcases val_bndl h with ⟨-, hb⟩ | ⟨-, p', tail', ms', vs, e, hv, rfl⟩
    · cases v <;> first | (simp [costV]; done) | cases hb
    · cases e
end

/-- What else is in memory: apart from the blocks `F`, which are replaced by the blocks `T`, everything is as before. -/
def OnlyReplaces (m m' : Memory) (F T : List Nat) : Prop :=
  (∀ x, x ∉ F → x ∉ T → m'.cell x = m.cell x) ∧ (∀ x ∈ F, x ∉ T → m'.cell x = none) ∧ ∀ x ∈ T, x ∈ F ∨ m.cell x = none

theorem onlyReplaces_of_own {m m' : Memory} (wf : WF m) {F T : List Nat} (h : Own F m T m') : OnlyReplaces m m' F T := by
  refine ⟨fun x hF hT => ?_, fun x hF hT => h.clean x hT (Or.inl hF), fun x hT => ?_⟩
  · rcases Nat.lt_or_ge x m.brk with hx | hx
    · exact h.same x hx hF
    · rw [wf x hx]; exact h.clean x hT (Or.inr hx)
  · rcases h.new x hT with h1 | h1
    · exact Or.inl h1
    · exact Or.inr (wf x h1)

theorem deeper_eq (o : Flat) : o.deeper = opens o.maxlevel := by
  funext l
  simp only [Flat.deeper, opens]
  split <;> simp_all <;> omega

theorem flatten_own (o : Flat) (h0 : (0 : UInt8) ∉ o.sep) {m : Memory} (wf : WF m) {p d : Nat} {vs dv : List VMsg}
    {S D : List Nat} (hk : Safe o 0 vs) (h : BndlAt m p vs S) (hd : BndlAt m d dv D) (hSD : ∀ x ∈ S, x ∉ D) (hg : GoodMsgs vs)
    (hs : sizeVMsgs vs < 2147483648) : ∃ T m', flatten o (some d) p m = some (d, m') ∧
      BndlAt m' d ((leaves (opens o.maxlevel) o.sep o.remove 0 none vs).foldl supersede dv) T ∧ BndlAt m' p vs S ∧ Own D m T m' := by
  have hb := h
  obtain ⟨tail, ms, h1, rfl, h3, h4⟩ := h
  obtain ⟨dtail, ds, d1, rfl, d3, d4⟩ := hd
  have l := h1
  simp only [LayW] at l
  have hlen := foot_len wf h3 (layW_alloc _ h1)
  have hc := costM_le ms vs h4
  simp only [LW.foot, List.length_cons] at hlen
  obtain ⟨m', tail', ds', r1, r2, r3, r4, r5⟩ := flatMsgs_lay o d h0 vs wf (level := 0) (pfx := none) (f := 3 * m.brk + 2) d1 l.2.2.2
    (by
      rw [List.nodup_append]
      simp only [LW.foot, List.nodup_cons] at h3
      exact ⟨d3, h3.2, fun x hx y hy e => hSD y (List.mem_cons_of_mem _ hy) (e ▸ hx)⟩) d4 h4 hg hs (fun s e => by cases e)
    hk (by omega)
  refine ⟨_, m', ?_, ⟨tail', ds', r2, rfl, r3, deeper_eq o ▸ r5⟩, hb.frame fun x hx => r4.same x (hb.lt wf x hx) (hSD x hx), r4⟩
  have e : flatBndl o d (3 * m.brk + 2 + 1) 0 none (some p) m = some ((), m') := by
    rw [flatBndl, seq_run (bndlAt_run l.2.1)]; exact r1
  rw [flatten, seq_run (m' := m) (a := d) rfl, seq_run (fuel_run _), seq_run e]
  rfl

theorem flatten_into (o : Flat) (h0 : (0 : UInt8) ∉ o.sep) {m : Memory} (wf : WF m) {p d : Nat} {vs dv : List VMsg}
    {S D : List Nat} (hk : Safe o 0 vs) (h : BndlAt m p vs S) (hd : BndlAt m d dv D) (hSD : ∀ x ∈ S, x ∉ D) (hg : GoodMsgs vs)
    (hs : sizeVMsgs vs < 2147483648) : ∃ T m', flatten o (some d) p m = some (d, m') ∧
      BndlAt m' d ((leaves (opens o.maxlevel) o.sep o.remove 0 none vs).foldl supersede dv) T ∧ BndlAt m' p vs S ∧ OnlyReplaces m m' D T := by
  obtain ⟨T, m', r1, r2, r3, r4⟩ := flatten_own o h0 wf hk h hd hSD hg hs
  exact ⟨T, m', r1, r2, r3, onlyReplaces_of_own wf r4⟩

/-- **C22 (into a bundle; partial).**  Flattening a bundle adds its leaves (`leaves`), one after the other, to the bundle at `d`: a
message takes the place of those there to the same address.  The source is unchanged, and so is everything else in memory; no block is
lost.  Missing: C does not define the read of an atom that was freed (`keep`, see `C22_full_fails`). -/
theorem C22_into_partial (o : Flat) (hk : o.keep = true) (h0 : (0 : UInt8) ∉ o.sep) {m : Memory} (wf : WF m) {p d : Nat} {vs dv : List VMsg}
    {S D : List Nat} (h : BndlAt m p vs S) (hd : BndlAt m d dv D) (hSD : ∀ x ∈ S, x ∉ D) (hg : GoodMsgs vs)
    (hs : sizeVMsgs vs < 2147483648) : ∃ T m', flatten o (some d) p m = some (d, m') ∧
      BndlAt m' d ((leaves (opens o.maxlevel) o.sep o.remove 0 none vs).foldl supersede dv) T ∧ BndlAt m' p vs S ∧ OnlyReplaces m m' D T :=
  flatten_into o h0 wf (Or.inl hk) h hd hSD hg hs

/-- A new bundle is empty. -/
theorem bndlAlloc_at {m : Memory} (wf : WF m) : ∃ m', bndlAlloc m = some (m.brk, m') ∧ BndlAt m' m.brk [] [m.brk] ∧
    Own [] m [m.brk] m' := by
  refine ⟨m.grow (.bndl ⟨0, none, none⟩), new_run _ _, ⟨none, [], ?_, rfl, by simp, rfl⟩, ?_⟩
  · simp only [LayW, LayMsgs, true_and, and_true]
    exact ⟨grow_self _ _, Or.inl rfl⟩
  · exact own_new (step_grow wf _ []) (by simp) (by simp) (by simp [grow_self]) (by rw [grow_brk]; simp; omega)

/-- **C22 (partial).**  Flattening a bundle into a new one: the result has the leaves of the source, the last one of each address. -/
theorem C22_partial (o : Flat) (hk : o.keep = true) (h0 : (0 : UInt8) ∉ o.sep) {m : Memory} (wf : WF m) {p : Nat} {vs : List VMsg}
    {S : List Nat} (h : BndlAt m p vs S) (hg : GoodMsgs vs) (hs : sizeVMsgs vs < 2147483648) :
    ∃ d T m', flatten o none p m = some (d, m') ∧ BndlAt m' d (lastOfEach (leaves (opens o.maxlevel) o.sep o.remove 0 none vs)) T ∧
      BndlAt m' p vs S ∧ OnlyReplaces m m' [] T := by
  obtain ⟨m1, a1, a2, a3⟩ := bndlAlloc_at wf
  have h' : BndlAt m1 p vs S := h.frame fun x hx => a3.same x (h.lt wf x hx) (by simp)
  have hlt : ∀ x ∈ S, x ∉ [m.brk] := fun x hx e => by
    have := h.lt wf x hx
    simp at e; omega
  obtain ⟨T, m', r1, r2, r3, r4⟩ := C22_into_partial o hk h0 a3.wf h' a2 hlt hg hs
  refine ⟨m.brk, T, m', ?_, ?_, r3, ?_⟩
  · rw [flatten] at r1 ⊢
    rw [seq_run (show destOr none bndlAlloc m = _ from a1)]
    rw [seq_run (m' := m1) (a := m.brk) rfl] at r1
    exact r1
  · have := foldl_supersede (leaves (opens o.maxlevel) o.sep o.remove 0 none vs) []
    simp only [lastOfEach, List.nil_append] at this
    rw [← this]; exact r2
  · obtain ⟨b1, b2, b3⟩ := onlyReplaces_of_own wf a3
    obtain ⟨c1, c2, c3⟩ := r4
    refine ⟨fun x _ hT => ?_, fun x hx => by simp at hx, fun x hT => Or.inr ?_⟩
    · by_cases hx : x ∈ [m.brk]
      · rw [c2 x hx hT]
        rcases b3 x hx with h | h
        · simp at h
        · exact h.symm
      · rw [c1 x hx hT, b1 x (by simp) hx]
    · rcases c3 x hT with h | h
      · rcases b3 x h with h | h
        · simp at h
        · exact h
      · by_cases hx : x ∈ [m.brk]
        · rcases b3 x hx with h | h
          · simp at h
          · exact h
        · rw [← b1 x (by simp) hx]; exact h

/-- **C22 fails in the strict reading of C.**  Whenever any message of the bundle has a bundle among its arguments, flattening reads an
atom after it was freed. -/
theorem C22_full_fails (o : Flat) (hk : o.keep = false) (h0 : (0 : UInt8) ∉ o.sep) {m : Memory} (wf : WF m) {p : Nat} {vs : List VMsg}
    {S : List Nat} (h : BndlAt m p vs S) (hg : GoodMsgs vs) (hs : sizeVMsgs vs < 2147483648)
    (hb : ∃ x ∈ vs, ∃ v ∈ x.args, v.isBndl = true) : flatten o none p m = none := by
  obtain ⟨m1, a1, a2, a3⟩ := bndlAlloc_at wf
  have h' : BndlAt m1 p vs S := h.frame fun x hx => a3.same x (h.lt wf x hx) (by simp)
  have hlt : ∀ x ∈ S, x ∉ [m.brk] := fun x hx e => by
    have := h.lt wf x hx
    simp at e; omega
  obtain ⟨tail, ms, h1, rfl, h3, h4⟩ := h'
  obtain ⟨dtail, ds, d1, d2, d3, d4⟩ := a2
  have l := h1
  simp only [LayW] at l
  have hlen := foot_len a3.wf h3 (layW_alloc _ h1)
  have hc := costM_le ms vs h4
  simp only [LW.foot, List.length_cons] at hlen
  have r := flatMsgs_strict hk h0 (level := 0) (pfx := none) (by simp [Flat.deeper]; omega) (fun s e => by cases e) vs a3.wf
    (f := 3 * m1.brk + 2) d1 l.2.2.2 (by
      rw [d2, List.nodup_append]
      simp only [LW.foot, List.nodup_cons] at h3
      exact ⟨d3, h3.2, fun x hx y hy e => hlt y (List.mem_cons_of_mem _ hy) (e ▸ hx)⟩) d4 h4 hg hs hb (by omega)
  rw [flatten, seq_run (show destOr none bndlAlloc m = _ from a1), seq_run (fuel_run _)]
  refine bind_none fun _ m2 h2 => ?_
  replace h2 : flatBndl o m.brk (3 * m1.brk + 2 + 1) 0 none (some p) m1 = _ := h2
  rw [flatBndl, seq_run (bndlAt_run l.2.1)] at h2
  rw [r] at h2
  cases h2

/-! ### The leaves -/

theorem leavesIn_flat {open_ : Int → Bool} {sep : Bytes} {rm : Bool} {level : Int} {pfx : Option Bytes} : ∀ (vs : List Val),
    (∀ v ∈ vs, v.isBndl = false) → leavesIn open_ sep rm level pfx vs = []
  | [], _ => by simp [leavesIn]
  | v :: vs, h => by rw [leavesIn_plain (h v (by simp)), leavesIn_flat vs fun x hx => h x (by simp [hx])]

/-- Without nested bundles the leaves are the messages. -/
theorem leaves_flat {open_ : Int → Bool} {sep : Bytes} {rm : Bool} {level : Int} : ∀ (vs : List VMsg),
    (∀ x ∈ vs, ∀ v ∈ x.args, v.isBndl = false) → open_ level = true →
    leaves open_ sep rm level none vs = vs.filter fun x => !(rm && x.args.isEmpty)
  | [], _, _ => by simp [leaves]
  | .mk a args :: vs, h, ho => by
    have ih := leaves_flat (sep := sep) (rm := rm) vs (fun x hx => h x (by simp [hx])) ho
    have hb : ∀ v ∈ args, v.isBndl = false := h _ (List.mem_cons_self ..)
    have e : args.filter (fun v => !v.isBndl) = args := List.filter_eq_self.mpr fun v hv => by rw [hb v hv]; rfl
    simp only [leaves, ho, if_true, e, leavesIn_flat args hb, List.nil_append, ih, below, List.filter_cons, VMsg.args]
    cases rm <;> cases args <;> simp

mutual
/-- If every bundle is opened none remains. -/
theorem leaves_plain {open_ : Int → Bool} (ho : ∀ l, open_ l = true) {sep : Bytes} {rm : Bool} : ∀ (ms : List VMsg) (level : Int)
    (pfx : Option Bytes), ∀ x ∈ leaves open_ sep rm level pfx ms, ∀ v ∈ x.args, v.isBndl = false
  | [], _, _, x, hx => by simp [leaves] at hx
  | .mk a args :: ms, level, pfx, x, hx => by
    simp only [leaves, ho, if_true, List.mem_append] at hx
    rcases hx with (hx | hx) | hx
    · exact leavesIn_plain' ho args _ _ x hx
    · split at hx
      · simp at hx
      · rw [List.mem_singleton.mp hx]
        intro v hv
        have := (List.mem_filter.mp hv).2
        simpa using this
    · exact leaves_plain ho ms _ _ x hx
theorem leavesIn_plain' {open_ : Int → Bool} (ho : ∀ l, open_ l = true) {sep : Bytes} {rm : Bool} : ∀ (vs : List Val) (level : Int)
    (pfx : Option Bytes), ∀ x ∈ leavesIn open_ sep rm level pfx vs, ∀ v ∈ x.args, v.isBndl = false
  | [], _, _, x, hx => by simp [leavesIn] at hx
  | .bndl ms :: vs, level, pfx, x, hx => by
    simp only [leavesIn, List.mem_append] at hx
    rcases hx with hx | hx
    · exact leaves_plain ho ms _ _ x hx
    · exact leavesIn_plain' ho vs _ _ x hx
  | .num _ _ :: vs, level, pfx, x, hx => leavesIn_plain' ho vs _ _ x (by simpa only [leavesIn] using hx)
  | .time _ _ :: vs, level, pfx, x, hx => leavesIn_plain' ho vs _ _ x (by simpa only [leavesIn] using hx)
  | .bare _ :: vs, level, pfx, x, hx => leavesIn_plain' ho vs _ _ x (by simpa only [leavesIn] using hx)
  | .str _ :: vs, level, pfx, x, hx => leavesIn_plain' ho vs _ _ x (by simpa only [leavesIn] using hx)
  | .blob _ :: vs, level, pfx, x, hx => leavesIn_plain' ho vs _ _ x (by simpa only [leavesIn] using hx)
end

theorem atPath_cons {sep : Bytes} {m : VMsg} {ms : List VMsg} {a : Bytes} {vs : List Val} :
    AtPath sep (m :: ms) a vs ↔ AtPath sep [m] a vs ∨ AtPath sep ms a vs := by
  constructor
  · rintro (h | ⟨h, h1, h2⟩)
    · rcases List.mem_cons.mp h with h | h
      · exact Or.inl (.here (by simp [h]))
      · exact Or.inr (.here h)
    · rcases List.mem_cons.mp h with h | h
      · exact Or.inl (.inside (by simp [h]) h1 h2)
      · exact Or.inr (.inside h h1 h2)
  · rintro (h | h)
    · rcases h with h | ⟨h, h1, h2⟩
      · exact .here (by simp at h; simp [h])
      · exact .inside (by simp at h; simp [h]) h1 h2
    · rcases h with h | ⟨h, h1, h2⟩
      · exact .here (by simp [h])
      · exact .inside (by simp [h]) h1 h2

/-- What belongs in the flat bundle for a message with these arguments. -/
def Kept (rm : Bool) (vs rest : List Val) : Prop := rest = vs.filter (fun v => !v.isBndl) ∧ ¬(rm = true ∧ rest = [])

mutual
/-- The leaves are the messages found under their full addresses. -/
theorem mem_leaves {open_ : Int → Bool} (ho : ∀ l, open_ l = true) {sep : Bytes} {rm : Bool} : ∀ (ms : List VMsg), GoodMsgs ms →
    ∀ (level : Int) (pfx full : Option Bytes) (rest : List Val), .mk full rest ∈ leaves open_ sep rm level pfx ms ↔
      ∃ b vs, AtPath sep ms b vs ∧ full = below sep pfx (some b) ∧ Kept rm vs rest
  | [], _, level, pfx, full, rest => by
    simp only [leaves, List.not_mem_nil, false_iff]
    rintro ⟨b, vs, h, -⟩
    rcases h with h | ⟨h, -, -⟩ <;> exact absurd h (List.not_mem_nil)
  | .mk none args :: ms, hg, level, pfx, full, rest => by simp [GoodMsgs, GoodMsg] at hg
  | .mk (some a) args :: ms, hg, level, pfx, full, rest => by
    simp only [GoodMsgs, GoodMsg] at hg
    have ih := mem_leaves ho (sep := sep) (rm := rm) ms hg.2 level pfx full rest
    have ihA := mem_leavesIn ho (sep := sep) (rm := rm) args hg.1.2.2 (level + 1) (below sep pfx (some a)) full rest
    simp only [leaves, ho, if_true, List.mem_append, ih, ihA]
    constructor
    · rintro ((⟨ns, b, vs, h1, h2, h3, h4⟩ | h) | ⟨b, vs, h1, h2, h3⟩)
      · refine ⟨a ++ sep ++ b, vs, .inside (List.mem_cons_self ..) h1 h2, ?_, h4⟩
        rw [h3]; cases pfx <;> simp [below]
      · split at h
        · simp at h
        · rename_i hr
          simp only [List.mem_singleton, VMsg.mk.injEq] at h
          exact ⟨a, args, .here (List.mem_cons_self ..), h.1, h.2, by rw [h.2]; exact hr⟩
      · exact ⟨b, vs, atPath_cons.mpr (Or.inr h1), h2, h3⟩
    · rintro ⟨b, vs, h1, h2, h3⟩
      rcases atPath_cons.mp h1 with h1 | h1
      · left
        rcases h1 with h | ⟨h, h4, h5⟩
        · right
          simp only [List.mem_singleton, VMsg.mk.injEq, Option.some.injEq] at h
          obtain ⟨rfl, rfl⟩ := h
          rw [if_neg (by rw [← h3.1]; exact h3.2), h2, h3.1]
          simp
        · left
          simp only [List.mem_singleton, VMsg.mk.injEq, Option.some.injEq] at h
          obtain ⟨rfl, rfl⟩ := h
          refine ⟨_, _, vs, h4, h5, ?_, h3⟩
          rw [h2]; cases pfx <;> simp [below]
      · exact Or.inr ⟨b, vs, h1, h2, h3⟩
theorem mem_leavesIn {open_ : Int → Bool} (ho : ∀ l, open_ l = true) {sep : Bytes} {rm : Bool} : ∀ (args : List Val), GoodVals args →
    ∀ (level : Int) (pfx full : Option Bytes) (rest : List Val), .mk full rest ∈ leavesIn open_ sep rm level pfx args ↔
      ∃ ns b vs, Val.bndl ns ∈ args ∧ AtPath sep ns b vs ∧ full = below sep pfx (some b) ∧ Kept rm vs rest
  | [], _, level, pfx, full, rest => by simp [leavesIn]
  | .bndl ms :: args, hg, level, pfx, full, rest => by
    simp only [GoodVals, GoodVal] at hg
    simp only [leavesIn, List.mem_append, mem_leaves ho ms hg.1 level pfx full rest, mem_leavesIn ho args hg.2 level pfx full rest,
      List.mem_cons, Val.bndl.injEq]
    constructor
    · rintro (⟨b, vs, h⟩ | ⟨ns, b, vs, h1, h⟩)
      · exact ⟨ms, b, vs, Or.inl rfl, h⟩
      · exact ⟨ns, b, vs, Or.inr h1, h⟩
    · rintro ⟨ns, b, vs, rfl | h1, h⟩
      · exact Or.inl ⟨b, vs, h⟩
      · exact Or.inr ⟨ns, b, vs, h1, h⟩
  | .num _ _ :: args, hg, level, pfx, full, rest => by
    simpa [leavesIn] using mem_leavesIn ho args hg.2 level pfx full rest
  | .time _ _ :: args, hg, level, pfx, full, rest => by
    simpa [leavesIn] using mem_leavesIn ho args hg.2 level pfx full rest
  | .bare _ :: args, hg, level, pfx, full, rest => by
    simpa [leavesIn] using mem_leavesIn ho args hg.2 level pfx full rest
  | .str _ :: args, hg, level, pfx, full, rest => by
    simpa [leavesIn] using mem_leavesIn ho args hg.2 level pfx full rest
  | .blob _ :: args, hg, level, pfx, full, rest => by
    simpa [leavesIn] using mem_leavesIn ho args hg.2 level pfx full rest
end

theorem lastOfEach_sub : ∀ (ms : List VMsg), ∀ x ∈ lastOfEach ms, x ∈ ms
  | [], x, h => by simp [lastOfEach] at h
  | m :: ms, x, h => by
    simp only [lastOfEach] at h
    split at h
    · exact List.mem_cons_of_mem _ (lastOfEach_sub ms x h)
    · rcases List.mem_cons.mp h with rfl | h
      · simp
      · exact List.mem_cons_of_mem _ (lastOfEach_sub ms x h)

theorem lastOfEach_nodup : ∀ (ms : List VMsg), ((lastOfEach ms).map VMsg.addr).Nodup
  | [] => by simp [lastOfEach]
  | m :: ms => by
    simp only [lastOfEach]
    split
    · exact lastOfEach_nodup ms
    · rename_i h
      rw [List.map_cons, List.nodup_cons, mem_lastOfEach_addr]
      exact ⟨h, lastOfEach_nodup ms⟩

/-- **C22 without nested bundles** holds in the strict reading too. -/
theorem C22_flat (o : Flat) (h0 : (0 : UInt8) ∉ o.sep) {m : Memory} (wf : WF m) {p d : Nat} {vs dv : List VMsg}
    {S D : List Nat} (h : BndlAt m p vs S) (hd : BndlAt m d dv D) (hSD : ∀ x ∈ S, x ∉ D) (hg : GoodMsgs vs)
    (hs : sizeVMsgs vs < 2147483648) (hb : ∀ x ∈ vs, ∀ v ∈ x.args, v.isBndl = false) : ∃ T m', flatten o (some d) p m = some (d, m') ∧
      BndlAt m' d ((vs.filter fun x => !(o.remove && x.args.isEmpty)).foldl supersede dv) T ∧ BndlAt m' p vs S ∧ OnlyReplaces m m' D T := by
  obtain ⟨T, m', r1, r2, r3, r4⟩ := flatten_into o h0 wf (Or.inr (Or.inr hb)) h hd hSD hg hs
  refine ⟨T, m', r1, ?_, r3, r4⟩
  rw [← leaves_flat (open_ := opens o.maxlevel) (sep := o.sep) (level := 0) vs hb (by simp [opens]; omega)]
  exact r2

/-- **C22 (paths; partial).**  Without a level limit, and dropping addresses that have only bundles: the result has one message for each
full address under which the source has arguments that are not bundles; its arguments are such arguments, in order (those found under
the address, if they are found in one place only); no bundle remains. -/
theorem C22_paths_partial (o : Flat) (hk : o.keep = true) (h0 : (0 : UInt8) ∉ o.sep) (hl : o.maxlevel ≤ 0) (hr : o.remove = true)
    {m : Memory} (wf : WF m) {p : Nat} {vs : List VMsg} {S : List Nat} (h : BndlAt m p vs S) (hg : GoodMsgs vs)
    (hs : sizeVMsgs vs < 2147483648) : ∃ d T m' rs, flatten o none p m = some (d, m') ∧ BndlAt m' d rs T ∧ (rs.map VMsg.addr).Nodup ∧
      (∀ full rest, .mk full rest ∈ rs → rest ≠ [] ∧ (∀ v ∈ rest, v.isBndl = false) ∧
        ∃ b args, full = some b ∧ AtPath o.sep vs b args ∧ rest = args.filter fun v => !v.isBndl) ∧
      (∀ b args, AtPath o.sep vs b args → (∃ v ∈ args, v.isBndl = false) → ∃ rest, .mk (some b) rest ∈ rs) ∧
      ∀ b args, AtPath o.sep vs b args → (∃ v ∈ args, v.isBndl = false) → (∀ args', AtPath o.sep vs b args' → args' = args) →
        .mk (some b) (args.filter fun v => !v.isBndl) ∈ rs := by
  obtain ⟨d, T, m', r1, r2, -, -⟩ := C22_partial o hk h0 wf h hg hs
  have ho : ∀ l, opens o.maxlevel l = true := fun l => by simp [opens, hl]
  have hin : ∀ full rest, .mk full rest ∈ lastOfEach (leaves (opens o.maxlevel) o.sep o.remove 0 none vs) → rest ≠ [] ∧
      (∀ v ∈ rest, v.isBndl = false) ∧
      ∃ b args, full = some b ∧ AtPath o.sep vs b args ∧ rest = args.filter fun v => !v.isBndl := by
    intro full rest hm
    obtain ⟨b, args, h1, h2, h3, h4⟩ := (mem_leaves ho vs hg 0 none full rest).mp (lastOfEach_sub _ _ hm)
    refine ⟨fun e => h4 ⟨hr, e⟩, fun v hv => ?_, b, args, h2, h1, h3⟩
    rw [h3] at hv
    simpa using (List.mem_filter.mp hv).2
  have hex : ∀ b args, AtPath o.sep vs b args → (∃ v ∈ args, v.isBndl = false) →
      ∃ rest, .mk (some b) rest ∈ lastOfEach (leaves (opens o.maxlevel) o.sep o.remove 0 none vs) := by
    rintro b args h1 ⟨v, hv, hv'⟩
    have h2 := (mem_leaves ho (rm := o.remove) vs hg 0 none (some b) (args.filter fun v => !v.isBndl)).mpr ⟨b, args, h1, rfl, rfl, fun e => by
      have : v ∈ args.filter fun v => !v.isBndl := List.mem_filter.mpr ⟨hv, by rw [hv']; rfl⟩
      rw [e.2] at this; simp at this⟩
    have h3 : some b ∈ (lastOfEach (leaves (opens o.maxlevel) o.sep o.remove 0 none vs)).map VMsg.addr :=
      (mem_lastOfEach_addr _).mpr (List.mem_map.mpr ⟨_, h2, rfl⟩)
    obtain ⟨⟨a, rest⟩, h4, h5⟩ := List.mem_map.mp h3
    cases h5
    exact ⟨rest, h4⟩
  refine ⟨d, T, m', _, r1, r2, lastOfEach_nodup _, hin, hex, fun b args h1 h2 h3 => ?_⟩
  obtain ⟨rest, h4⟩ := hex b args h1 h2
  obtain ⟨-, -, b', args', e1, h5, h6⟩ := hin _ _ h4
  cases e1
  rw [h3 args' h5] at h6
  rw [← h6]; exact h4

/-! ### Examples -/

/-- `/a` with 1, a bundle with `/b` with 2 and an empty bundle below `/c`, and 3. -/
def nested : List VMsg := [.mk (some [47, 97]) [.num 105 1,
  .bndl [.mk (some [47, 98]) [.num 105 2], .mk (some [47, 99]) [.bndl []]], .num 105 3]]

/-- The example flattened: `/a/b` with 2 and `/a` with 1 and 3; `/a/c` has no arguments and is dropped, or kept. -/
example : leaves (opens 0) [] true 0 none nested =
    [.mk (some [47, 97, 47, 98]) [.num 105 2], .mk (some [47, 97]) [.num 105 1, .num 105 3]] := by
  simp [nested, leaves, leavesIn, opens, below, Val.isBndl]
example : leaves (opens 1) [46] false 0 none nested =
    [.mk (some [47, 97, 46, 47, 98]) [.num 105 2], .mk (some [47, 97, 46, 47, 99]) [.bndl []],
      .mk (some [47, 97]) [.num 105 1, .num 105 3]] := by
  simp [nested, leaves, leavesIn, opens, below, Val.isBndl]

def nestedU : List UMsg := [.mk (some [47, 97]) [.mk 105 false (.bits 1),
  .mk 46 true (.bndl 1 [.mk (some [47, 98]) [.mk 105 false (.bits 2)], .mk (some [47, 99]) [.mk 46 true (.bndl 2 [])]]),
  .mk 105 false (.bits 3)]]

/-- It meets the hypotheses of `C22_partial`, `C22_paths_partial` and `C22_full_fails`. -/
example : ∃ m p S, WF m ∧ BndlAt m p nested S ∧ GoodMsgs nested ∧ sizeVMsgs nested < 2147483648 ∧
    ∃ x ∈ nested, ∃ v ∈ x.args, v.isBndl = true := by
  have hg : GoodMsgs nested := by simp [nested, GoodMsgs, GoodMsg, GoodVals, GoodVal]
  obtain ⟨m, p, S, h1, h2⟩ := bndlAt_exists nestedU nested rfl hg
  exact ⟨m, p, S, h1, h2, hg, by decide +kernel, by simp [nested, VMsg.args, Val.isBndl]⟩

end Libo.Props
