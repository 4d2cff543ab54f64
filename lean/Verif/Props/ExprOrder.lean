import Verif.Props.ExprFloat
import Verif.ExprNum
import Verif.ExprStrLemmas
/-!
# C65: the least and the greatest element, and clipping

A list of numbers is described by the `double`s they stand for (`IsDouble`).  Their order is that of `place`.
-/

namespace Libo.Props
open Libo Libo.Expr Libo.Ieee

/-- The values are numbers, and stand for these `double`s. -/
def Numbers (vs : List Val) (xs : List Fp) : Prop :=
  vs.length = xs.length ∧ ∀ (i : Nat) v x, vs[i]? = some v → xs[i]? = some x → IsDouble v x

/-- `x` is the last of the least of the numbers, at position `k`, where `key` gives the order and which numbers count. -/
def LastLeast (key : Fp → Option Int) (xs : List Fp) (k : Nat) (x : Fp) : Prop :=
  xs[k]? = some x ∧ ∃ p, key x = some p ∧ ∀ (j : Nat) y q, xs[j]? = some y → key y = some q → p ≤ q ∧ (k < j → p < q)

theorem numbers_at {a : Ar} {vs : List Val} {xs : List Fp} (ha : Holds a vs) (hn : Numbers vs xs) {i : Nat} {x : Fp} (hx : xs[i]? = some x) :
    ∃ u v, at? a i = some u ∧ vs[i]? = some v ∧ u.val = some v ∧ IsDouble v x ∧ fpOf (at? a i) = some x := by
  obtain ⟨hi, -⟩ := List.getElem?_eq_some_iff.mp hx
  have hv : vs[i]? = some (vs[i]'(by rw [hn.1]; exact hi)) := List.getElem?_eq_getElem _
  obtain ⟨u, h1, h2⟩ := holds_at ha hv
  have h3 := hn.2 i _ x hv hx
  exact ⟨u, _, h1, hv, h2, h3, by rw [h1]; exact getFp_val u _ x h2 h3⟩

theorem isDouble_copyable {v : Val} {x : Fp} (h : IsDouble v x) : Copyable v := by
  cases h with
  | double b => show sizeVal (.num 100 b) < _; simp [sizeVal]
  | float b => show sizeVal (.num 102 b) < _; simp [sizeVal]
  | int t n x hn hx => show sizeVal (t.val n) < _; cases t <;> simp [sizeVal, ITy.val, ITy.tag]
  | bool p x hx => show sizeVal (boolVal p) < _; simp [sizeVal, boolVal]

/-- The loop finds the last of the best elements. -/
theorem pick_spec (better : Fp → Fp → Bool) (key : Fp → Option Int) (init : Fp) (c : Int) (a : Ar) (vs : List Val) (xs : List Fp)
    (ha : Holds a vs) (hn : Numbers vs xs) (hc : key init = some c) (hall : ∀ x ∈ xs, ∀ p, key x = some p → p ≤ c)
    (hb : ∀ x ∈ xs, ∀ y q, (y = init ∨ y ∈ xs) → key y = some q → (better x y = true ↔ ∃ p, key x = some p ∧ p ≤ q)) :
    ∃ s, pick better init a = some s ∧ ((∀ x ∈ xs, key x = none) → s = (init, none)) ∧
      ((∃ x ∈ xs, key x ≠ none) → ∃ k x, s = (x, at? a k) ∧ LastLeast key xs k x) := by
  have hl : len a = xs.length := by rw [holds_len ha, hn.1]
  obtain ⟨s, h1, h2⟩ := forN_inv (P := fun n s =>
      (s = (init, none) ∧ ∀ j y, j < n → xs[j]? = some y → key y = none) ∨
      ∃ k x p, k < n ∧ s = (x, at? a k) ∧ xs[k]? = some x ∧ key x = some p ∧
        ∀ j y q, j < n → xs[j]? = some y → key y = some q → p ≤ q ∧ (k < j → p < q))
    (fun i s => (fpOf (at? a i)).map fun f => if better f s.1 then (f, at? a i) else s) (len a) (init, none)
    (.inl ⟨rfl, fun j y hj => absurd hj (Nat.not_lt_zero j)⟩) (by
      intro i s hi hp
      have hx : xs[i]? = some (xs[i]'(by omega)) := List.getElem?_eq_getElem _
      generalize xs[i]'(by omega) = x at hx
      have hmem := List.mem_of_getElem? hx
      obtain ⟨u, v, g1, g2, g3, g4, g5⟩ := numbers_at ha hn hx
      refine ⟨_, by rw [g5]; rfl, ?_⟩
      rcases hp with ⟨rfl, h0⟩ | ⟨k, y, p, hk, rfl, hy, hpk, hm⟩
      · have hbx := hb x hmem init c (.inl rfl) hc
        by_cases hbb : better x init = true
        · simp only [hbb, if_true]
          obtain ⟨p, hp, hpc⟩ := hbx.mp hbb
          refine .inr ⟨i, x, p, by omega, rfl, hx, hp, fun j y q hj hy hq => ?_⟩
          by_cases e : j = i
          · subst e; rw [hx] at hy; injection hy with hy; subst hy; rw [hp] at hq; injection hq with hq; omega
          · rw [h0 j y (by omega) hy] at hq; cases hq
        · simp only [hbb, if_false]
          refine .inl ⟨rfl, fun j y hj hy => ?_⟩
          by_cases e : j = i
          · subst e; rw [hx] at hy; injection hy with hy; subst hy
            cases hk : key x with
            | none => rfl
            | some p => exact absurd (hbx.mpr ⟨p, hk, hall x hmem p hk⟩) hbb
          · exact h0 j y (by omega) hy
      · have hbx := hb x hmem y p (.inr (List.mem_of_getElem? hy)) hpk
        by_cases hbb : better x y = true
        · simp only [hbb, if_true]
          obtain ⟨q, hq, hqp⟩ := hbx.mp hbb
          refine .inr ⟨i, x, q, by omega, rfl, hx, hq, fun j z r hj hz hr => ?_⟩
          by_cases e : j = i
          · subst e; rw [hx] at hz; injection hz with hz; subst hz; rw [hq] at hr; injection hr with hr; omega
          · have := (hm j z r (by omega) hz hr).1
            exact ⟨by omega, fun h => by omega⟩
        · simp only [hbb, if_false]
          refine .inr ⟨k, y, p, by omega, rfl, hy, hpk, fun j z r hj hz hr => ?_⟩
          by_cases e : j = i
          · subst e; rw [hx] at hz; injection hz with hz; subst hz
            have : ¬ r ≤ p := fun h => hbb (hbx.mpr ⟨r, hr, h⟩)
            omega
          · exact hm j z r (by omega) hz hr)
  refine ⟨s, h1, ?_, ?_⟩
  · intro h0
    rcases h2 with ⟨h, -⟩ | ⟨k, x, p, -, -, hx, hk, -⟩
    · exact h
    · rw [h0 x (List.mem_of_getElem? hx)] at hk; cases hk
  · rintro ⟨x, hx, hk⟩
    rcases h2 with ⟨-, h⟩ | ⟨k, x, p, -, rfl, hx, hk, hm⟩
    · obtain ⟨j, hj⟩ := List.getElem?_of_mem hx
      have hlt := (List.getElem?_eq_some_iff.mp hj).1
      exact absurd (h j x (by omega) hj) hk
    · refine ⟨k, x, rfl, hx, p, hk, fun j y q hj hq => hm j y q ?_ hj hq⟩
      have hlt := (List.getElem?_eq_some_iff.mp hj).1
      omega

/-- The numbers that `min` looks at, with their order: all but NaN and positive infinity. -/
def minKey (x : Fp) : Option Int := if x = .inf false then none else place x

/-- The numbers that `max` looks at, with their order reversed: all but NaN and negative infinity. -/
def maxKey (x : Fp) : Option Int := if x = .inf true then none else (place x).map fun p => -p

theorem good_place {x : Fp} {p : Int} (hx : Fp.Good f64 x) (hp : place x = some p) : -(2 ^ 2098 : Nat) ≤ p ∧ p ≤ (2 ^ 2098 : Nat) ∧
    (p = (2 ^ 2098 : Nat) → x = .inf false) ∧ (p = -(2 ^ 2098 : Nat) → x = .inf true) := by
  have h0 : 0 < 2 ^ 2098 := Nat.two_pow_pos _
  cases x with
  | nan => cases hp
  | inf s =>
    simp only [place, Option.some.injEq] at hp
    generalize 2 ^ 2098 = K at *
    cases s <;> simp [value] at hp <;> subst hp <;> refine ⟨by omega, by omega, ?_, ?_⟩ <;> intro h <;> first | rfl | omega
  | fin s m =>
    have hm : m < 2 ^ 2098 := hx.2
    simp only [place, Option.some.injEq] at hp
    generalize 2 ^ 2098 = K at *
    cases s <;> simp [value] at hp <;> subst hp <;> refine ⟨by omega, by omega, ?_, ?_⟩ <;> intro h <;> omega

theorem fin_le_max {s : Bool} {m : Nat} (h : Fp.Good f64 (.fin s m)) : m ≤ (2 ^ 53 - 1) * 2 ^ 2045 := by
  rcases Fp.grid_gap 53 (2 ^ 53 - 1) 2045 m (by decide) (.inr (by decide)) h.1 with h1 | h1
  · exact h1
  · exfalso
    have h2 : m < 2 ^ 2098 := h.2
    rw [show (2 ^ 53 - 1 + 1) * 2 ^ 2045 = 2 ^ 2098 by rw [show (2 ^ 53 - 1 + 1 : Nat) = 2 ^ 53 from rfl, ← Nat.pow_add]] at h1
    exact Nat.lt_irrefl _ (Nat.lt_of_lt_of_le h2 h1)

theorem numbers_good {vs : List Val} {xs : List Fp} (hn : Numbers vs xs) {x : Fp} (hx : x ∈ xs) : Fp.Good f64 x := by
  obtain ⟨i, hi⟩ := List.getElem?_of_mem hx
  obtain ⟨hl, -⟩ := List.getElem?_eq_some_iff.mp hi
  exact isDouble_good _ x (hn.2 i (vs[i]'(by rw [hn.1]; exact hl)) x (List.getElem?_eq_getElem _) hi)

theorem dblMax_good : Fp.Good f64 dblMax := ⟨⟨2 ^ 53 - 1, 2045, by decide, rfl⟩, by
  show _ < 2 ^ 2098
  rw [show 2098 = 53 + 2045 from rfl, Nat.pow_add]
  exact Nat.mul_lt_mul_of_pos_right (by decide) (Nat.two_pow_pos _)⟩

theorem minKey_better {x y : Fp} (hx : Fp.Good f64 x) (hy : Fp.Good f64 y) {q : Int} (hq : minKey y = some q) :
    Fp.le x y = true ↔ ∃ p, minKey x = some p ∧ p ≤ q := by
  rw [(place_order x y hx hy).2.1]
  simp only [minKey] at hq ⊢
  split at hq
  · cases hq
  · rename_i hy0
    constructor
    · rintro ⟨p, q', h1, h2, h3⟩
      rw [hq] at h2; injection h2 with h2; subst h2
      refine ⟨p, ?_, h3⟩
      rw [if_neg, h1]
      rintro rfl
      have := good_place hy hq
      simp only [place, value, Option.some.injEq] at h1
      have h5 : p = (2 ^ 2098 : Nat) := by rw [← h1]; rfl
      exact hy0 (this.2.2.1 (by omega))
    · rintro ⟨p, h1, h2⟩
      split at h1
      · cases h1
      · exact ⟨p, q, h1, hq, h2⟩

theorem maxKey_better {x y : Fp} (hx : Fp.Good f64 x) (hy : Fp.Good f64 y) {q : Int} (hq : maxKey y = some q) :
    Fp.le y x = true ↔ ∃ p, maxKey x = some p ∧ p ≤ q := by
  rw [(place_order y x hy hx).2.1]
  simp only [maxKey] at hq ⊢
  split at hq
  · cases hq
  · rename_i hy0
    obtain ⟨r, hr, rfl⟩ := Option.map_eq_some_iff.mp hq
    constructor
    · rintro ⟨r', p, h1, h2, h3⟩
      rw [hr] at h1; injection h1 with h1; subst h1
      refine ⟨-p, ?_, by omega⟩
      rw [if_neg, h2]; rfl
      rintro rfl
      have := good_place hy hr
      have h5 : p = -(2 ^ 2098 : Nat) := by
        simp only [place, value, Option.some.injEq] at h2
        rw [← h2]; rfl
      exact hy0 (this.2.2.2 (by omega))
    · rintro ⟨p, h1, h2⟩
      split at h1
      · cases h1
      · obtain ⟨p, hp, rfl⟩ := Option.map_eq_some_iff.mp h1
        exact ⟨r, p, hr, hp, by omega⟩

theorem place_le_max {x : Fp} (hx : Fp.Good f64 x) {p : Int} (hp : place x = some p) :
    (x ≠ .inf false → p ≤ ((2 ^ 53 - 1) * 2 ^ 2045 : Nat)) ∧ (x ≠ .inf true → -((2 ^ 53 - 1) * 2 ^ 2045 : Nat) ≤ p) := by
  cases x with
  | nan => cases hp
  | inf s =>
    simp only [place, Option.some.injEq] at hp
    generalize (2 ^ 53 - 1) * 2 ^ 2045 = K at *
    generalize 2 ^ 2098 = L at *
    cases s <;> simp [value] at hp ⊢ <;> omega
  | fin s m =>
    have := fin_le_max hx
    simp only [place, Option.some.injEq] at hp
    generalize (2 ^ 53 - 1) * 2 ^ 2045 = K at *
    cases s <;> simp [value] at hp ⊢ <;> omega

/-- What the loop of `min` finds. -/
theorem pick_min {a : Ar} {vs : List Val} {xs : List Fp} (ha : Holds a vs) (hn : Numbers vs xs) :
    ∃ s, pick Fp.le dblMax a = some s ∧ ((∀ x ∈ xs, minKey x = none) → s = (dblMax, none)) ∧
      ((∃ x ∈ xs, minKey x ≠ none) → ∃ k x, s = (x, at? a k) ∧ LastLeast minKey xs k x) := by
  refine pick_spec Fp.le minKey dblMax ((2 ^ 53 - 1) * 2 ^ 2045 : Nat) a vs xs ha hn (by rw [minKey, if_neg (by simp [dblMax])]; rfl)
    (fun x hx p hp => ?_) (fun x hx y q hy hq => minKey_better (numbers_good hn hx) ?_ hq)
  · simp only [minKey] at hp
    split at hp
    · cases hp
    · rename_i h; exact (place_le_max (numbers_good hn hx) hp).1 h
  · rcases hy with rfl | hy
    · exact dblMax_good
    · exact numbers_good hn hy

/-- What the loop of `max` finds. -/
theorem pick_max {a : Ar} {vs : List Val} {xs : List Fp} (ha : Holds a vs) (hn : Numbers vs xs) :
    ∃ s, pick (fun f m => Fp.le m f) dblMax.neg a = some s ∧ ((∀ x ∈ xs, maxKey x = none) → s = (dblMax.neg, none)) ∧
      ((∃ x ∈ xs, maxKey x ≠ none) → ∃ k x, s = (x, at? a k) ∧ LastLeast maxKey xs k x) := by
  refine pick_spec _ maxKey dblMax.neg ((2 ^ 53 - 1) * 2 ^ 2045 : Nat) a vs xs ha hn ?_
    (fun x hx p hp => ?_) (fun x hx y q hy hq => maxKey_better (numbers_good hn hx) ?_ hq)
  · rw [maxKey, if_neg (by simp [dblMax, Fp.neg])]
    show some (- -(((2 ^ 53 - 1) * 2 ^ 2045 : Nat) : Int)) = _
    rw [Int.neg_neg]
  · simp only [maxKey] at hp
    split at hp
    · cases hp
    · rename_i h
      obtain ⟨r, hr, rfl⟩ := Option.map_eq_some_iff.mp hp
      have := (place_le_max (numbers_good hn hx) hr).2 h
      omega
  · rcases hy with rfl | hy
    · exact dblMax_good
    · exact numbers_good hn hy

theorem copy_one {a : Ar} {vs : List Val} {xs : List Fp} (ha : Holds a vs) (hn : Numbers vs xs) {k : Nat} {x : Fp} (hx : xs[k]? = some x) :
    ∃ v out, vs[k]? = some v ∧ copyTo (mk 1) 0 (at? a k) = some out ∧ Holds (some out) [v] := by
  obtain ⟨u, v, h1, h2, h3, h4, -⟩ := numbers_at ha hn hx
  obtain ⟨u', c1, c2, -⟩ := copyAtom_val u v h3 (isDouble_copyable h4)
  refine ⟨v, [u'], h2, by rw [h1, copyTo, c1]; rfl, ?_⟩
  simp [Holds, argsVal, c2]

/-- **C65**: `min` returns the element whose number is the least, with its type; of several that are equally small the last.  NaN and
positive infinity are not looked at. -/
theorem C65_min (a : Ar) (rest : List Ar) (vs : List Val) (xs : List Fp) (ha : Holds a vs) (hn : Numbers vs xs)
    (h : ∃ x ∈ xs, minKey x ≠ none) :
    ∃ k x v out, LastLeast minKey xs k x ∧ vs[k]? = some v ∧ minimum (a :: rest) = some (0, some out) ∧ Holds (some out) [v] := by
  obtain ⟨s, h1, -, h2⟩ := pick_min ha hn
  obtain ⟨k, x, rfl, h3⟩ := h2 h
  obtain ⟨v, out, c1, c2, c3⟩ := copy_one ha hn h3.1
  exact ⟨k, x, v, out, h3, c1, by simp [minimum, h1, c2], c3⟩

/-- **C65**: `max` returns the element whose number is the greatest, with its type; of several that are equally great the last.  NaN and
negative infinity are not looked at. -/
theorem C65_max (a : Ar) (rest : List Ar) (vs : List Val) (xs : List Fp) (ha : Holds a vs) (hn : Numbers vs xs)
    (h : ∃ x ∈ xs, maxKey x ≠ none) :
    ∃ k x v out, LastLeast maxKey xs k x ∧ vs[k]? = some v ∧ maximum (a :: rest) = some (0, some out) ∧ Holds (some out) [v] := by
  obtain ⟨s, h1, -, h2⟩ := pick_max ha hn
  obtain ⟨k, x, rfl, h3⟩ := h2 h
  obtain ⟨v, out, c1, c2, c3⟩ := copy_one ha hn h3.1
  exact ⟨k, x, v, out, h3, c1, by simp [maximum, h1, c2], c3⟩

/-- **C65**, what is wrong: for a list without such a number, e.g. the empty list or a list of infinities, both return one element without
a value. -/
theorem C65_none_fails (a : Ar) (rest : List Ar) (vs : List Val) (xs : List Fp) (ha : Holds a vs) (hn : Numbers vs xs) :
    ((∀ x ∈ xs, minKey x = none) → minimum (a :: rest) = some (0, some [.fresh])) ∧
    ((∀ x ∈ xs, maxKey x = none) → maximum (a :: rest) = some (0, some [.fresh])) := by
  obtain ⟨s, h1, h2, -⟩ := pick_min ha hn
  obtain ⟨t, h3, h4, -⟩ := pick_max ha hn
  exact ⟨fun h => by simp [minimum, h1, h2 h, copyTo, mk], fun h => by simp [maximum, h3, h4 h, copyTo, mk]⟩

theorem forN_succ {σ : Type} (n : Nat) (f : Nat → σ → Option σ) (s : σ) : forN (n + 1) f s = (forN n f s).bind (f n) := by
  unfold forN
  rw [List.range_succ, List.foldlM_append]
  simp

/-- The loop for both. -/
theorem pick2_eq (a : Ar) : pick2 a = (pick Fp.le dblMax a).bind fun s => (pick (fun f m => Fp.le m f) dblMax.neg a).map fun t => (s, t) := by
  simp only [pick2, pick]
  generalize len a = n
  induction n with
  | zero => rfl
  | succ n ih =>
    simp only [forN_succ, ih]
    cases forN n (fun i s => (fpOf (at? a i)).map fun f => if Fp.le f s.1 then (f, at? a i) else s) (dblMax, none) with
    | none => rfl
    | some s =>
      cases forN n (fun i s => (fpOf (at? a i)).map fun f => if Fp.le s.1 f then (f, at? a i) else s) (dblMax.neg, none) with
      | none => simp only [Option.bind_some, Option.map_none, Option.bind_none]; cases (fpOf (at? a n)) <;> rfl
      | some t => simp only [Option.bind_some, Option.map_some]; cases (fpOf (at? a n)) <;> rfl

/-- **C65**: `extrema` returns what `min` and `max` return. -/
theorem C65_extrema (a : Ar) (rest : List Ar) (u w : UAtom) (hu : minimum (a :: rest) = some (0, some [u]))
    (hw : maximum (a :: rest) = some (0, some [w])) : extrema (a :: rest) = some (0, some [u, w]) := by
  simp only [minimum, Option.bind_eq_some_iff, Option.map_eq_some_iff] at hu
  obtain ⟨s, h1, o, h2, h3⟩ := hu
  simp only [maximum, Option.bind_eq_some_iff, Option.map_eq_some_iff] at hw
  obtain ⟨t, h4, p, h5, h6⟩ := hw
  simp only [Prod.mk.injEq, Option.some.injEq, true_and] at h3 h6
  subst h3; subst h6
  have key : ∀ (src : Option UAtom) (u : UAtom), copyTo (mk 1) 0 src = some [u] → copyTo (mk 2) 0 src = some [u, .fresh] ∧
      ∀ x, copyTo [x, .fresh] 1 src = some [x, u] := by
    intro src u h
    cases src with
    | none => simp only [copyTo, mk, Option.some.injEq] at h ⊢; simp at h; subst h; exact ⟨rfl, fun _ => rfl⟩
    | some b =>
      simp only [copyTo, mk, Option.map_eq_some_iff] at h ⊢
      obtain ⟨b', h7, h8⟩ := h
      simp at h8; subst h8
      exact ⟨⟨b', h7, rfl⟩, fun x => ⟨b', h7, rfl⟩⟩
  simp [extrema, pick2_eq, h1, h4, (key _ _ h2).1, (key _ _ h5).2]

/-- The value is a `double` with the number `x`. -/
def NumVal (v : Val) (x : Fp) : Prop := ∃ b, b < 2 ^ 64 ∧ v = .num 100 b ∧ Fp.ofBits f64 b = x

/-- The whole part of a number, without the fraction. -/
def WholePart (x : Fp) (n : Int) : Prop := ∃ s m, x = .fin s m ∧ n = value s (m / 2 ^ 1074)

theorem toI32_spec {x : Fp} {n : Int} (h : WholePart x n) (hn : ITy.i32.has n) : Expr.toI32 x = some n := by
  obtain ⟨s, m, rfl, rfl⟩ := h
  have hn' : -2147483648 ≤ value s (m / 2 ^ 1074) ∧ value s (m / 2 ^ 1074) < 2147483648 := by
    simpa [ITy.has, ITy.width, ITy.signed] using hn
  show (if -2147483648 ≤ value s (m / 2 ^ 1074) ∧ value s (m / 2 ^ 1074) < 2147483648 then some (value s (m / 2 ^ 1074)) else none) = _
  rw [if_pos hn']

theorem putNum_double {x : Fp} (hx : Fp.Good f64 x) : ∃ u v, putNum true x .fresh = some u ∧ u.val = some v ∧ NumVal v x := by
  obtain ⟨u, h1, b, h2, h3, h4⟩ := putFp_spec x hx
  simp only [putFp, Option.map_eq_some_iff] at h1
  obtain ⟨u', h1, h5⟩ := h1
  simp only [Prod.mk.injEq, true_and] at h5
  subst h5
  exact ⟨u', _, by rw [putNum, if_pos rfl]; exact h1, h3, b, h2, rfl, h4⟩

theorem putNum_int {x : Fp} {n : Int} (hx : WholePart x n) (hn : ITy.i32.has n) :
    ∃ u, putNum false x .fresh = some u ∧ u.val = some (ITy.i32.val n) := by
  obtain ⟨u, h1, h2⟩ := setU_fresh .i32 n
  exact ⟨u, by rw [putNum, if_neg (by decide), toI32_spec hx hn]; exact h1, h2⟩

/-- **C65**: `range` is the difference of the greatest and the least number: a `double` if one of these two elements has a floating point
type, and otherwise an `int32`, which must be large enough. -/
theorem C65_range (a : Ar) (rest : List Ar) (vs : List Val) (xs : List Fp) (ha : Holds a vs) (hn : Numbers vs xs)
    (h1 : ∃ x ∈ xs, minKey x ≠ none) (h2 : ∃ x ∈ xs, maxKey x ≠ none) :
    ∃ i j x y v w z, LastLeast minKey xs i x ∧ LastLeast maxKey xs j y ∧ vs[i]? = some v ∧ vs[j]? = some w ∧ DiffOf f64 y x z ∧
      ((Floating v ∨ Floating w) → ∃ out r, rangeOf (a :: rest) = some (0, some out) ∧ Holds (some out) [r] ∧ NumVal r z) ∧
      (¬ (Floating v ∨ Floating w) → ∀ n, WholePart z n → ITy.i32.has n →
        ∃ out, rangeOf (a :: rest) = some (0, some out) ∧ Holds (some out) [ITy.i32.val n]) := by
  obtain ⟨s, p1, -, p2⟩ := pick_min ha hn
  obtain ⟨i, x, rfl, hi⟩ := p2 h1
  obtain ⟨t, q1, -, q2⟩ := pick_max ha hn
  obtain ⟨j, y, rfl, hj⟩ := q2 h2
  obtain ⟨u, v, u1, u2, u3, u4, -⟩ := numbers_at ha hn hi.1
  obtain ⟨u', w, w1, w2, w3, w4, -⟩ := numbers_at ha hn hj.1
  have key : ∀ (u : UAtom) (v : Val) (x : Fp), u.val = some v → IsDouble v x → (fd u.tag = true ↔ Floating v) := by
    intro u v x hu hv
    cases hv with
    | double b => rw [(num_raw hu).1]; simp [fd, Floating]
    | float b => rw [(num_raw hu).1]; simp [fd, Floating]
    | int t n x hn hx => rw [tag_of_val hu]; cases t <;> simp [fd, Floating, ITy.tag, ITy.val]
    | bool p x hx => rw [bare_tag hu]; cases p <;> simp [fd, Floating, boolVal]
  have e : rangeOf (a :: rest) =
      (setTo (mk 1) 0 (putNum (fd u.tag || fd u'.tag) (Fp.sub f64 y x))).map fun out => (0, some out) := by
    simp [rangeOf, pick2_eq, p1, q1, u1, w1, tagOf]
  refine ⟨i, j, x, y, v, w, _, hi, hj, u2, w2, Fp.diff_of f64 (by decide) y x, fun hf => ?_, fun hf n hz hr => ?_⟩
  · have hd : (fd u.tag || fd u'.tag) = true := by
      rw [Bool.or_eq_true, key u v x u3 u4, key u' w y w3 w4]; exact hf
    obtain ⟨r, r', g1, g2, g3⟩ := putNum_double (Fp.good_sub f64 (by decide) y x)
    refine ⟨[r], r', ?_, by simp [Holds, argsVal, g2], g3⟩
    rw [e, hd]
    simp [setTo, mk, g1]
  · have hd : (fd u.tag || fd u'.tag) = false := by
      rw [← Bool.not_eq_true, Bool.or_eq_true, key u v x u3 u4, key u' w y w3 w4]; exact hf
    obtain ⟨r, g1, g2⟩ := putNum_int hz hr
    refine ⟨[r], ?_, by simp [Holds, argsVal, g2]⟩
    rw [e, hd]
    simp [setTo, mk, g1]

/-- A loop that sets every element of a new array to a value with a property. -/
theorem forN_each (n : Nat) (R : Nat → Val → Prop) (f : Nat → List UAtom → Option (List UAtom))
    (hf : ∀ i, i < n → ∃ g u v, (∀ out, f i out = setTo out i g) ∧ g .fresh = some u ∧ u.val = some v ∧ R i v) :
    ∃ out ws, forN n f (mk n) = some out ∧ Holds (some out) ws ∧ ws.length = n ∧ ∀ i v, ws[i]? = some v → R i v := by
  have hc : ∃ w : Nat → Val, ∀ i, i < n → ∃ g u, (∀ out, f i out = setTo out i g) ∧ g .fresh = some u ∧ u.val = some (w i) ∧ R i (w i) := by
    refine ⟨fun i => if h : i < n then Classical.choose (Classical.choose_spec (Classical.choose_spec (hf i h))) else .str [], fun i hi => ?_⟩
    simp only [hi, dite_true]
    exact ⟨_, _, Classical.choose_spec (Classical.choose_spec (Classical.choose_spec (hf i hi)))⟩
  obtain ⟨w, hw⟩ := hc
  have hlen : ((List.range n).map w).length = n := by simp
  have hat : ∀ i v, ((List.range n).map w)[i]? = some v → i < n ∧ v = w i := by
    intro i v h
    have hi := (List.getElem?_eq_some_iff.mp h).1
    rw [hlen] at hi
    simp [hi] at h
    exact ⟨hi, h.symm⟩
  obtain ⟨out, h1, h2⟩ := forN_set ((List.range n).map w) f (fun i v out h => by
    obtain ⟨hi, rfl⟩ := hat i v h
    obtain ⟨g, u, e1, e2, e3, -⟩ := hw i hi
    exact ⟨g, u, e1 out, e2, e3⟩)
  rw [hlen] at h1
  refine ⟨out, _, h1, h2, hlen, fun i v h => ?_⟩
  obtain ⟨hi, rfl⟩ := hat i v h
  obtain ⟨g, u, -, -, -, e⟩ := hw i hi
  exact e

/-- The values that `clip` and `scale` leave as they are: everything but numbers and time tags. -/
def Through : Val → Prop
  | .str _ => True
  | .blob _ => True
  | .bndl _ => True
  | .bare t => t = 84 ∨ t = 70 ∨ t = 78
  | _ => False

/-- An element is a number, or one that is left as it is. -/
inductive Element : Val → Option Fp → Prop
  | num (v : Val) (x : Fp) : IsDouble v x → ¬ Through v → Element v (some x)
  | other (v : Val) : Through v → Copyable v → Element v none

/-- The elements of the list. -/
def Elements (vs : List Val) (xs : List (Option Fp)) : Prop :=
  vs.length = xs.length ∧ ∀ (i : Nat) v x, vs[i]? = some v → xs[i]? = some x → Element v x

/-- What becomes of an element: `f` of a number, as `double` if it or a parameter has a floating point type, and otherwise an `int32`. -/
def Mapped (fl : Bool) (f : Fp → Fp → Prop) (v w : Val) : Option Fp → Prop
  | none => w = v
  | some x => ∃ y, f x y ∧ (((Floating v ∨ fl = true) ∧ NumVal w y) ∨ (¬ Floating v ∧ fl = false ∧ ∃ n, WholePart y n ∧ ITy.i32.has n ∧ w = ITy.i32.val n))

theorem floating_fd {u : UAtom} {v : Val} {x : Fp} (hu : u.val = some v) (hv : IsDouble v x) : fd u.tag = true ↔ Floating v := by
  cases hv with
  | double b => rw [(num_raw hu).1]; simp [fd, Floating]
  | float b => rw [(num_raw hu).1]; simp [fd, Floating]
  | int t n x hn hx => rw [tag_of_val hu]; cases t <;> simp [fd, Floating, ITy.tag, ITy.val]
  | bool p x hx => rw [bare_tag hu]; cases p <;> simp [fd, Floating, boolVal]

theorem copied_num {u : UAtom} {v : Val} {x : Fp} (hu : u.val = some v) (hv : IsDouble v x) (ht : ¬ Through v) : copied u.tag = false := by
  cases hv with
  | double b => rw [(num_raw hu).1]; decide
  | float b => rw [(num_raw hu).1]; decide
  | int t n x hn hx => rw [tag_of_val hu]; cases t <;> decide
  | bool p x hx => exfalso; cases p <;> simp [Through, boolVal] at ht

theorem copied_through {u : UAtom} {v : Val} (hu : u.val = some v) (ht : Through v) : copied u.tag = true := by
  obtain ⟨tag, al, w⟩ := u
  rcases val_eq tag al w v hu with ⟨h1, rfl⟩ | ⟨h1, rfl⟩ | ⟨h1, rfl⟩ | ⟨h1, rfl⟩ | ⟨rfl, rfl⟩ | ⟨rfl, p, s, rfl, rfl⟩ |
      ⟨rfl, p, blk, l, c, rfl, -, -, rfl⟩ | ⟨rfl, p, ms, vs, rfl, -, rfl⟩ | ⟨rfl, h8⟩ <;> simp only [Through] at ht
  · rfl
  · rfl
  · rfl
  · rcases ht with rfl | rfl | rfl <;> rfl

/-- The loops of `clip` and `scale`. -/
theorem mapNum_spec (fl : Bool) (f : Fp → Fp) (F : Fp → Fp → Prop) (a : Ar) (vs : List Val) (xs : List (Option Fp)) (ha : Holds a vs)
    (hn : Elements vs xs) (hg : ∀ x, some x ∈ xs → Fp.Good f64 (f x)) (hF : ∀ x, some x ∈ xs → F x (f x))
    (hfit : ∀ (i : Nat) v x, vs[i]? = some v → xs[i]? = some (some x) → ¬ Floating v → fl = false → ∃ n, WholePart (f x) n ∧ ITy.i32.has n) :
    ∃ out ws, mapNum fl f a = some (0, some out) ∧ Holds (some out) ws ∧ ws.length = vs.length ∧
      ∀ (i : Nat) v w x, vs[i]? = some v → ws[i]? = some w → xs[i]? = some x → Mapped fl F v w x := by
  obtain ⟨out, ws, h1, h2, h3, h4⟩ := forN_each (len a) (fun i w => ∀ v x, vs[i]? = some v → xs[i]? = some x → Mapped fl F v w x)
    (fun i out =>
      let t := tagOf (at? a i)
      if copied t then copyTo out i (at? a i)
      else (fpOf (at? a i)).bind fun x => setTo out i (putNum (fd t || fl) (f x))) (by
    intro i hi
    rw [holds_len ha] at hi
    have hv : vs[i]? = some vs[i] := List.getElem?_eq_getElem hi
    have hx : xs[i]? = some (xs[i]'(by rw [← hn.1]; exact hi)) := List.getElem?_eq_getElem _
    generalize vs[i] = v at hv
    generalize xs[i]'(by rw [← hn.1]; exact hi) = x at hx
    obtain ⟨u, g1, g2⟩ := holds_at ha hv
    have hE := hn.2 i v x hv hx
    have pin : ∀ w, Mapped fl F v w x → ∀ v' x', vs[i]? = some v' → xs[i]? = some x' → Mapped fl F v' w x' := by
      intro w h v' x' e1 e2
      rw [hv] at e1; rw [hx] at e2
      injection e1 with e1; injection e2 with e2
      subst e1; subst e2; exact h
    cases hE with
    | other ht hc =>
      obtain ⟨u', c1, c2, -⟩ := copyAtom_val u v g2 hc
      refine ⟨fun _ => some u', u', v, fun out => ?_, rfl, c2, pin v rfl⟩
      have : copied (tagOf (at? a i)) = true := by rw [g1]; exact copied_through g2 ht
      simp only [this, if_true]
      rw [g1]
      simp only [copyTo, c1, Option.map_some, setTo]
      cases ho : out[i]? with
      | none => rw [List.set_eq_of_length_le (by simpa using ho)]
      | some _ => rfl
    | num x hd ht =>
      have hc : copied (tagOf (at? a i)) = false := by rw [g1]; exact copied_num g2 hd ht
      have hgd := hg x (List.mem_of_getElem? hx)
      have hFx := hF x (List.mem_of_getElem? hx)
      have e : ∀ out, (if copied (tagOf (at? a i)) = true then copyTo out i (at? a i)
          else (fpOf (at? a i)).bind fun x => setTo out i (putNum (fd (tagOf (at? a i)) || fl) (f x))) =
          setTo out i (putNum (fd u.tag || fl) (f x)) := by
        intro out
        rw [hc, if_neg (by decide), g1, fpOf, getFp_val u v x g2 hd]; rfl
      by_cases hfl : (fd u.tag || fl) = true
      · obtain ⟨r, w, p1, p2, p3⟩ := putNum_double hgd
        refine ⟨_, r, w, e, by rw [hfl]; exact p1, p2, pin w ⟨_, hFx, .inl ⟨?_, p3⟩⟩⟩
        rwa [Bool.or_eq_true, floating_fd g2 hd] at hfl
      · rw [Bool.or_eq_true, not_or, floating_fd g2 hd, Bool.not_eq_true] at hfl
        obtain ⟨n, w1, w2⟩ := hfit i v x hv hx hfl.1 hfl.2
        obtain ⟨r, p1, p2⟩ := putNum_int w1 w2
        refine ⟨_, r, _, e, ?_, p2, pin _ ⟨_, hFx, .inr ⟨hfl.1, hfl.2, n, w1, w2, rfl⟩⟩⟩
        have : fd u.tag = false := by rw [← Bool.not_eq_true, floating_fd g2 hd]; exact hfl.1
        rw [this, hfl.2]; exact p1)
  refine ⟨out, ws, ?_, h2, by rw [h3, holds_len ha], fun i v w x e1 e2 e3 => h4 i w e2 v x e1 e3⟩
  simp only [mapNum, h1, Option.map_some]

/-- `y` is `x` if that is between the bounds, and otherwise the bound that is nearer.  If the bounds are in the wrong order it is the upper
bound.  NaN stays. -/
def Clipped (lo hi x y : Fp) : Prop :=
  (¬ Ordered (· < ·) x lo → ¬ Ordered (· > ·) x hi → y = x) ∧
  (Ordered (· < ·) x lo → ¬ Ordered (· > ·) lo hi → y = lo) ∧
  (¬ Ordered (· < ·) x lo → Ordered (· > ·) x hi → y = hi) ∧
  (Ordered (· > ·) lo hi → x ≠ .nan → y = hi)

theorem clipTo_spec {lo hi x : Fp} (hl : Fp.Good f64 lo) (hh : Fp.Good f64 hi) (hx : Fp.Good f64 x) : Clipped lo hi x (clipTo lo hi x) := by
  have sw : ∀ x y, Ordered (· < ·) y x ↔ Ordered (· > ·) x y := fun x y =>
    ⟨fun ⟨a, b, h1, h2, h3⟩ => ⟨b, a, h2, h1, h3⟩, fun ⟨a, b, h1, h2, h3⟩ => ⟨b, a, h2, h1, h3⟩⟩
  have o1 := (place_order x lo hx hl).1
  have o2 := (place_order hi x hh hx).1.trans (sw _ _)
  have o3 := (place_order hi lo hh hl).1.trans (sw _ _)
  simp only [clipTo]
  refine ⟨fun h1 h2 => ?_, fun h1 h2 => ?_, fun h1 h2 => ?_, fun h1 h2 => ?_⟩
  · rw [if_neg (mt o1.mp h1), if_neg (mt o2.mp h2)]
  · rw [if_pos (o1.mpr h1), if_neg (mt o3.mp h2)]
  · rw [if_neg (mt o1.mp h1), if_pos (o2.mpr h2)]
  · by_cases h3 : Ordered (· < ·) x lo
    · rw [if_pos (o1.mpr h3), if_pos (o3.mpr h1)]
    · rw [if_neg (mt o1.mp h3), if_pos (o2.mpr ?_)]
      obtain ⟨l, k, p1, p2, p3⟩ := h1
      have : ∃ p, place x = some p := by cases x <;> simp [place] at h2 ⊢
      obtain ⟨p, hp⟩ := this
      refine ⟨p, k, hp, p2, ?_⟩
      have : ¬ p < l := fun h => h3 ⟨p, l, hp, p1, h⟩
      show k < p
      have : k < l := p3
      omega

theorem clipTo_good {lo hi x : Fp} (hl : Fp.Good f64 lo) (hh : Fp.Good f64 hi) (hx : Fp.Good f64 x) : Fp.Good f64 (clipTo lo hi x) := by
  simp only [clipTo]
  repeat' split
  all_goals assumption

/-- **C65**: `clip` brings every number of the list between the bounds and leaves everything else as it is.  The result is a `double` if the
element or a bound has a floating point type; otherwise it is an `int32`, which must be large enough. -/
theorem C65_clip (a b c : Ar) (vs : List Val) (xs : List (Option Fp)) (v1 v2 : Val) (r1 r2 : List Val) (lo hi : Fp) (ha : Holds a vs)
    (hn : Elements vs xs) (hb : Holds b (v1 :: r1)) (hc : Holds c (v2 :: r2)) (h1 : IsDouble v1 lo) (h2 : IsDouble v2 hi)
    (hfit : ∀ (i : Nat) v x, vs[i]? = some v → xs[i]? = some (some x) → ¬ Floating v → ¬ Floating v1 → ¬ Floating v2 →
      ∀ y, Clipped lo hi x y → ∃ n, WholePart y n ∧ ITy.i32.has n) :
    ∃ fl out ws, (fl = true ↔ Floating v1 ∨ Floating v2) ∧ clip [a, b, c] = some (0, some out) ∧ Holds (some out) ws ∧ ws.length = vs.length ∧
      ∀ (i : Nat) v w x, vs[i]? = some v → ws[i]? = some w → xs[i]? = some x → Mapped fl (Clipped lo hi) v w x := by
  have g1 := isDouble_good _ _ h1
  have g2 := isDouble_good _ _ h2
  have gx : ∀ x, some x ∈ xs → Fp.Good f64 x := by
    intro x hx
    obtain ⟨i, hi⟩ := List.getElem?_of_mem hx
    obtain ⟨hl, -⟩ := List.getElem?_eq_some_iff.mp hi
    have := hn.2 i (vs[i]'(by rw [hn.1]; exact hl)) _ (List.getElem?_eq_getElem _) hi
    cases this with
    | num _ hd _ => exact isDouble_good _ _ hd
  obtain ⟨u1, e1, e2⟩ := holds_at hb (i := 0) (v := v1) rfl
  obtain ⟨u2, e3, e4⟩ := holds_at hc (i := 0) (v := v2) rfl
  have hfl : (fd u1.tag || fd u2.tag) = true ↔ Floating v1 ∨ Floating v2 := by rw [Bool.or_eq_true, floating_fd e2 h1, floating_fd e4 h2]
  obtain ⟨out, ws, m1, m2, m3, m4⟩ := mapNum_spec (fd u1.tag || fd u2.tag) (clipTo lo hi) (Clipped lo hi) a vs xs ha hn
    (fun x hx => clipTo_good g1 g2 (gx x hx)) (fun x hx => clipTo_spec g1 g2 (gx x hx)) (fun i v x q1 q2 q3 q4 => by
      have : ¬ (Floating v1 ∨ Floating v2) := by rw [← hfl, q4]; decide
      exact hfit i v x q1 q2 q3 (fun h => this (.inl h)) (fun h => this (.inr h)) _ (clipTo_spec g1 g2 (gx x (List.mem_of_getElem? q2))))
  refine ⟨_, out, ws, hfl, ?_, m2, m3, m4⟩
  rw [← m1]
  simp [clip, e1, e3, fpOf, getFp_val u1 v1 lo e2 h1, getFp_val u2 v2 hi e4 h2, tagOf]

/-! ## Integers -/

/-- The `double` that an integer up to 2^53 stands for. -/
def exact (n : Int) : Fp := .fin (decide (n < 0)) (n.natAbs * 2 ^ 1074)

theorem exact_value (n : Int) (k : Nat) : value (decide (n < 0)) (n.natAbs * k) = n * k := by
  rw [show (value : Bool → Nat → Int) = Fp.signed from rfl, Fp.signed_mul]

theorem exact_place (n : Int) : place (exact n) = some (n * (2 ^ 1074 : Nat)) := by
  rw [exact, place, exact_value]

theorem exact_scale : ∃ k : Int, 0 < k ∧ ∀ n, place (exact n) = some (n * k) :=
  ⟨_, Int.natCast_pos.mpr (Nat.two_pow_pos 1074), exact_place⟩

theorem exact_order (n m : Int) : (Ordered (· < ·) (exact n) (exact m) ↔ n < m) ∧ (Ordered (· > ·) (exact n) (exact m) ↔ n > m) := by
  obtain ⟨k, hk, hp⟩ := exact_scale
  constructor
  · constructor
    · rintro ⟨a, b, h1, h2, h3⟩
      rw [hp] at h1 h2
      injection h1 with h1; injection h2 with h2
      subst h1; subst h2
      exact Int.lt_of_mul_lt_mul_right h3 (Int.le_of_lt hk)
    · exact fun h => ⟨_, _, hp n, hp m, Int.mul_lt_mul_of_pos_right h hk⟩
  · constructor
    · rintro ⟨a, b, h1, h2, h3⟩
      rw [hp] at h1 h2
      injection h1 with h1; injection h2 with h2
      subst h1; subst h2
      exact Int.lt_of_mul_lt_mul_right h3 (Int.le_of_lt hk)
    · exact fun h => ⟨_, _, hp n, hp m, Int.mul_lt_mul_of_pos_right h hk⟩

theorem exact_whole (n : Int) : WholePart (exact n) n := by
  refine ⟨_, _, rfl, ?_⟩
  rw [Nat.mul_div_cancel _ (Nat.two_pow_pos 1074)]
  have := exact_value n 1
  simpa using this.symm

theorem i32_exact {n : Int} (h : ITy.i32.has n) : IsDouble (ITy.i32.val n) (exact n) := by
  have h' : -2147483648 ≤ n ∧ n < 2147483648 := by simpa [ITy.has, ITy.width, ITy.signed] using h
  refine C63_integers .i32 n h ?_
  rw [show (2 : Nat) ^ 53 = 9007199254740992 from rfl]
  omega

theorem i32_numbers (ns : List Int) (h : ∀ n ∈ ns, ITy.i32.has n) : Numbers (ns.map ITy.i32.val) (ns.map exact) := by
  refine ⟨by simp, fun i v x hv hx => ?_⟩
  rw [List.getElem?_map, Option.map_eq_some_iff] at hv hx
  obtain ⟨n, h1, rfl⟩ := hv
  obtain ⟨m, h2, rfl⟩ := hx
  rw [h1] at h2; injection h2 with h2; subst h2
  exact i32_exact (h n (List.mem_of_getElem? h1))

theorem exact_keys : ∃ k : Int, 0 < k ∧ (∀ n, minKey (exact n) = some (n * k)) ∧ ∀ n, maxKey (exact n) = some (-(n * k)) := by
  obtain ⟨k, hk, hp⟩ := exact_scale
  refine ⟨k, hk, fun n => ?_, fun n => ?_⟩
  · rw [← hp]; rfl
  · have := hp n
    simp only [maxKey, exact] at this ⊢
    rw [this]; rfl

/-- **C65** for 32-bit integers: `min` and `max` return the least and the greatest. -/
theorem C65_ints (a : Ar) (rest : List Ar) (ns : List Int) (ha : Holds a (ns.map ITy.i32.val)) (h : ∀ n ∈ ns, ITy.i32.has n) (h0 : ns ≠ []) :
    (∃ n out, n ∈ ns ∧ (∀ m ∈ ns, n ≤ m) ∧ minimum (a :: rest) = some (0, some out) ∧ Holds (some out) [ITy.i32.val n]) ∧
    (∃ n out, n ∈ ns ∧ (∀ m ∈ ns, m ≤ n) ∧ maximum (a :: rest) = some (0, some out) ∧ Holds (some out) [ITy.i32.val n]) := by
  obtain ⟨q, hk, exact_minKey, exact_maxKey⟩ := exact_keys
  obtain ⟨n0, r0, rfl⟩ := List.exists_cons_of_ne_nil h0
  have hN := i32_numbers _ h
  constructor
  · obtain ⟨k, x, v, out, h1, h2, h3, h4⟩ := C65_min a rest _ _ ha hN ⟨exact n0, by simp, by rw [exact_minKey]; simp⟩
    rw [List.getElem?_map, Option.map_eq_some_iff] at h2
    obtain ⟨n, e1, rfl⟩ := h2
    refine ⟨n, out, List.mem_of_getElem? e1, fun m hm => ?_, h3, h4⟩
    obtain ⟨hx, p, hp, hall⟩ := h1
    rw [List.getElem?_map, e1] at hx
    injection hx with hx; subst hx
    rw [exact_minKey] at hp; injection hp with hp; subst hp
    obtain ⟨j, hj⟩ := List.getElem?_of_mem hm
    have := (hall j (exact m) _ (by rw [List.getElem?_map, hj]; rfl) (exact_minKey m)).1
    exact Int.le_of_mul_le_mul_right this hk
  · obtain ⟨k, x, v, out, h1, h2, h3, h4⟩ := C65_max a rest _ _ ha hN ⟨exact n0, by simp, by rw [exact_maxKey]; simp⟩
    rw [List.getElem?_map, Option.map_eq_some_iff] at h2
    obtain ⟨n, e1, rfl⟩ := h2
    refine ⟨n, out, List.mem_of_getElem? e1, fun m hm => ?_, h3, h4⟩
    obtain ⟨hx, p, hp, hall⟩ := h1
    rw [List.getElem?_map, e1] at hx
    injection hx with hx; subst hx
    rw [exact_maxKey] at hp; injection hp with hp; subst hp
    obtain ⟨j, hj⟩ := List.getElem?_of_mem hm
    have := (hall j (exact m) _ (by rw [List.getElem?_map, hj]; rfl) (exact_maxKey m)).1
    exact Int.le_of_mul_le_mul_right (by omega) hk

/-- **C65** for 32-bit integers: `clip` brings every element between the bounds. -/
theorem C65_clip_ints (a b c : Ar) (ns : List Int) (lo hi : Int) (ha : Holds a (ns.map ITy.i32.val)) (hb : Holds b [ITy.i32.val lo])
    (hc : Holds c [ITy.i32.val hi]) (h : ∀ n ∈ ns, ITy.i32.has n) (h1 : ITy.i32.has lo) (h2 : ITy.i32.has hi) (hle : lo ≤ hi) :
    ∃ out, clip [a, b, c] = some (0, some out) ∧
      Holds (some out) (ns.map fun n => ITy.i32.val (if n < lo then lo else if n > hi then hi else n)) := by
  have nf : ∀ n, ¬ Floating (ITy.i32.val n) := by intro n; simp [Floating, ITy.val, ITy.tag]
  have hcl : ∀ n y, Clipped (exact lo) (exact hi) (exact n) y → y = exact (if n < lo then lo else if n > hi then hi else n) := by
    rintro n y ⟨c1, c2, c3, -⟩
    rw [(exact_order _ _).1, (exact_order _ _).2] at c1 c3
    rw [(exact_order _ _).1, (exact_order _ _).2] at c2
    split
    · exact c2 (by assumption) (by omega)
    · split
      · exact c3 (by assumption) (by assumption)
      · exact c1 (by assumption) (by assumption)
  have hrange : ∀ n, ITy.i32.has n → ITy.i32.has (if n < lo then lo else if n > hi then hi else n) := by
    intro n hn
    repeat' split
    all_goals assumption
  have hE : Elements (ns.map ITy.i32.val) (ns.map fun n => some (exact n)) := by
    refine ⟨by simp, fun i v x hv hx => ?_⟩
    rw [List.getElem?_map, Option.map_eq_some_iff] at hv hx
    obtain ⟨n, g1, rfl⟩ := hv
    obtain ⟨m, g2, rfl⟩ := hx
    rw [g1] at g2; injection g2 with g2; subst g2
    exact .num _ _ (i32_exact (h n (List.mem_of_getElem? g1))) (by simp [Through, ITy.val])
  obtain ⟨fl, out, ws, q1, q2, q3, q4, q5⟩ := C65_clip a b c _ _ _ _ [] [] _ _ ha hE hb hc (i32_exact h1) (i32_exact h2) (by
    intro i v x hv hx _ _ _ y hy
    rw [List.getElem?_map, Option.map_eq_some_iff] at hx
    obtain ⟨n, g1, g2⟩ := hx
    injection g2 with g2; subst g2
    rw [hcl n y hy]
    exact ⟨_, exact_whole _, hrange n (h n (List.mem_of_getElem? g1))⟩)
  have hfl : fl = false := by
    cases fl with
    | false => rfl
    | true => exact absurd (q1.mp rfl) (by rintro (h | h) <;> exact nf _ h)
  refine ⟨out, q2, ?_⟩
  have : ws = ns.map fun n => ITy.i32.val (if n < lo then lo else if n > hi then hi else n) := by
    refine List.ext_getElem? fun i => ?_
    rw [List.getElem?_map]
    cases hn : ns[i]? with
    | none => rw [Option.map_none, List.getElem?_eq_none_iff, q4]; simpa using hn
    | some n =>
      have hiw : i < ws.length := by rw [q4]; simpa using (List.getElem?_eq_some_iff.mp hn).1
      have := q5 i (ITy.i32.val n) ws[i] (some (exact n)) (by rw [List.getElem?_map, hn]; rfl) (List.getElem?_eq_getElem hiw)
        (by rw [List.getElem?_map, hn]; rfl)
      obtain ⟨y, hy, ⟨hf, -⟩ | ⟨-, -, k, w1, w2, w3⟩⟩ := this
      · rw [hfl] at hf
        rcases hf with hf | hf
        · exact absurd hf (nf _)
        · cases hf
      · rw [List.getElem?_eq_getElem hiw, w3, Option.map_some]
        rw [hcl n y hy] at w1
        have e : k = if n < lo then lo else if n > hi then hi else n := by
          have t1 := toI32_spec w1 w2
          rw [toI32_spec (exact_whole _) (hrange n (h n (List.mem_of_getElem? hn)))] at t1
          injection t1 with t1; exact t1.symm
        rw [e]
  rw [this] at q3; exact q3

/-- **C65**, what is wrong: the difference of the greatest and the least 32-bit integer is converted to a type that cannot hold it, `range`
of an empty list converts −2 · `DBL_MAX`, and `clip` converts 64-bit integers to 32 bits. -/
theorem C65_overflow_fails : rangeOf [some [atomOf .i32 (-2147483648), atomOf .i32 2147483647]] = none ∧ rangeOf [some []] = none ∧
    clip [some [atomOf .i64 9000000000], some [atomOf .i32 0], some [atomOf .i64 10000000000]] = none := by
  refine ⟨?_, ?_, ?_⟩ <;> rw [← Option.isNone_iff_eq_none] <;> decide +kernel

/-- Non-vacuity: `min(3, 1.5, -2)` is the integer −2 and `max` the 3. -/
example : (minimum [some [atomOf .i32 3, (UAtom.fresh.setDouble (Fp.toBits f64 (.fin false (3 * 2 ^ 1073)))).getD .fresh, atomOf .i32 (-2)]]).map
      (fun r => (r.1, r.2.map (·.map (fun a => (a.tag, a.w.raw))))) = some (0, some [(105, 4294967294)]) ∧
    (maximum [some [atomOf .i32 3, (UAtom.fresh.setDouble (Fp.toBits f64 (.fin false (3 * 2 ^ 1073)))).getD .fresh, atomOf .i32 (-2)]]).map
      (fun r => (r.1, r.2.map (·.map (fun a => (a.tag, a.w.raw))))) = some (0, some [(105, 3)]) := by
  constructor <;> decide +kernel

/-- Non-vacuity: `range(3, -2)` is 5 and `clip([3, -2, 7], 0, 5)` is `[3, 0, 5]`. -/
example : (rangeOf [some [atomOf .i32 3, atomOf .i32 (-2)]]).map (fun r => (r.1, r.2.map (·.map (fun a => (a.tag, a.w.raw))))) =
      some (0, some [(105, 5)]) ∧
    (clip [some [atomOf .i32 3, atomOf .i32 (-2), atomOf .i32 7], some [atomOf .i32 0], some [atomOf .i32 5]]).map
      (fun r => (r.1, r.2.map (·.map (fun a => (a.tag, a.w.raw))))) = some (0, some [(105, 3), (105, 0), (105, 5)]) := by
  constructor <;> decide +kernel

/-- Non-vacuity: the hypotheses of `C65_ints`. -/
example : Holds (some [atomOf .i32 3, atomOf .i32 (-2)]) ([3, -2].map ITy.i32.val) ∧ ∀ n ∈ [3, -2], ITy.i32.has n := by
  refine ⟨by simp [Holds, argsVal, atomOf_val], by decide⟩

end Libo.Props
