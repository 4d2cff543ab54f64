import Verif.Props.ExprCmp
import Verif.FpLemmas
/-!
# C63: arithmetic with floating point numbers in the expression language

The `double` that a value stands for is described by `IsDouble`, and what the operators have to compute by the relations of `FpSpec.lean`.
-/

namespace Libo.Props
open Libo Libo.Expr Libo.Ieee

/-- A `float` as a `double`: nothing is rounded. -/
def widen : Fp → Fp
  | .fin s m => .fin s (m * 2 ^ 925)
  | x => x

/-- The `double` nearest to an integer. -/
def IntDouble (n : Int) (x : Fp) : Prop := Rounded f64 (decide (n < 0)) (n.natAbs * 2 ^ 1074) 1 x

/-- The `double` that a number stands for. -/
inductive IsDouble : Val → Fp → Prop
  | double (b : Nat) : IsDouble (.num 100 b) (Fp.ofBits f64 b)
  | float (b : Nat) : IsDouble (.num 102 b) (widen (Fp.ofBits f32 b))
  | int (t : ITy) (n : Int) (x : Fp) : t.has n → IntDouble n x → IsDouble (t.val n) x
  | bool (p : Bool) (x : Fp) : IntDouble (if p then 1 else 0) x → IsDouble (boolVal p) x

/-- A value of a floating point type. -/
def Floating : Val → Prop
  | .num tag _ => tag = 100 ∨ tag = 102
  | _ => False

/-- A `double` with the number `x`. -/
def IsNum (u : UAtom) (x : Fp) : Prop := ∃ b, b < 2 ^ 64 ∧ u.val = some (.num 100 b) ∧ Fp.ofBits f64 b = x

theorem intDouble_unique {n : Int} {x y : Fp} (hx : IntDouble n x) (hy : IntDouble n y) : x = y :=
  Fp.rounded_unique f64 _ _ 1 (by decide) x y hx hy

theorem ofInt_intDouble (n : Int) : IntDouble n (Fp.ofInt f64 n) := Fp.finish_rounded f64 (by decide) _ _ 1 (by decide)

theorem conv_widen (b : Nat) : Fp.conv f32 f64 (Fp.ofBits f32 b) = widen (Fp.ofBits f32 b) := by
  have hg := Fp.ofBits_good f32 (by decide) b
  cases hx : Fp.ofBits f32 b with
  | nan => rfl
  | inf s => rfl
  | fin s m =>
    rw [hx] at hg
    obtain ⟨⟨k, e, hk, rfl⟩, ht⟩ := hg
    have hr := Fp.finish_rounded f64 (by decide) s (k * 2 ^ e * 2 ^ f64.unit) (2 ^ f32.unit) (Nat.two_pow_pos _)
    have e1 : k * 2 ^ e * 2 ^ f64.unit = k * 2 ^ e * 2 ^ 925 * 2 ^ f32.unit := by
      rw [show f64.unit = 925 + f32.unit by decide, Nat.pow_add, Nat.mul_assoc _ (2 ^ 925)]
    refine Fp.rounded_exact f64 s (k * 2 ^ e * 2 ^ 925) (2 ^ f32.unit) (Nat.two_pow_pos _) ⟨k, e + 925, Nat.lt_trans hk (by decide), ?_⟩ ?_ _
      (by rw [← e1]; exact hr)
    · rw [Nat.mul_assoc, ← Nat.pow_add]
    · refine Nat.lt_of_lt_of_le (Nat.mul_lt_mul_of_pos_right ht (Nat.two_pow_pos _)) ?_
      rw [← Nat.pow_add]
      exact Nat.pow_le_pow_right (by decide) (by decide)

theorem num_raw {a : UAtom} {tag : UInt8} {b : Nat} (h : a.val = some (.num tag b)) :
    a.tag = tag ∧ (tag = 100 → b = a.w.raw % M64) ∧ (tag = 102 → b = a.w.raw % M32) := by
  obtain ⟨tg, al, w⟩ := a
  rcases val_eq tg al w _ h with ⟨h1, h2⟩ | ⟨h1, h2⟩ | ⟨h1, h2⟩ | ⟨h1, h2⟩ | ⟨rfl, h2⟩ | ⟨-, p, s', rfl, h2⟩ |
    ⟨-, p, blk, l, c, -, -, -, h2⟩ | ⟨-, p, ms, vs, -, -, h2⟩ | ⟨h2, -⟩ <;> simp only [Val.num.injEq, reduceCtorEq] at h2 <;>
    obtain ⟨rfl, rfl⟩ := h2 <;> refine ⟨rfl, ?_, ?_⟩ <;> rintro rfl <;> first | rfl | (exfalso; revert h1; decide)

theorem bare_tag {a : UAtom} {t : UInt8} (h : a.val = some (.bare t)) : a.tag = t := by
  obtain ⟨tg, al, w⟩ := a
  rcases val_eq tg al w _ h with ⟨h1, h2⟩ | ⟨h1, h2⟩ | ⟨h1, h2⟩ | ⟨h1, h2⟩ | ⟨rfl, h2⟩ | ⟨-, p, s', rfl, h2⟩ |
    ⟨-, p, blk, l, c, -, -, -, h2⟩ | ⟨-, p, ms, vs, -, -, h2⟩ | ⟨h2, -⟩ <;> simp only [Val.bare.injEq, reduceCtorEq] at h2
  exact h2.symm

/-- The getter for `double`s gives what the value stands for. -/
theorem getFp_val (a : UAtom) (v : Val) (x : Fp) (ha : a.val = some v) (hv : IsDouble v x) : getFp a = some x := by
  cases hv with
  | double b =>
    obtain ⟨h1, h2, -⟩ := num_raw ha
    rw [h2 rfl, getFp, if_pos h1]
  | float b =>
    obtain ⟨h1, -, h2⟩ := num_raw ha
    rw [h2 rfl, ← conv_widen, getFp, if_neg (by rw [h1]; decide), if_pos h1]
  | int t n x hn hx => rw [getFp_int t n hn a ha, intDouble_unique hx (ofInt_intDouble n)]
  | bool p x hx =>
    have ht := bare_tag ha
    rw [intDouble_unique hx (ofInt_intDouble _)]
    cases p <;> simp [getFp, ht]

/-- A value stands for one number. -/
theorem isDouble_unique (v : Val) (x y : Fp) (a : UAtom) (ha : a.val = some v) (hx : IsDouble v x) (hy : IsDouble v y) : x = y := by
  have h1 := getFp_val a v x ha hx
  rw [getFp_val a v y ha hy] at h1
  exact (Option.some.inj h1).symm

theorem putFp_spec (x : Fp) (hx : Fp.Good f64 x) : ∃ u, putFp .fresh x = some (0, u) ∧ IsNum u x := by
  obtain ⟨u, h1, h2⟩ := setDouble_fresh (Fp.toBits f64 x)
  have hlt : Fp.toBits f64 x < 2 ^ 64 := Fp.toBits_lt f64 (by decide) (by decide) x hx
  refine ⟨u, by rw [putFp, h1]; rfl, _, hlt, ?_, Fp.ofBits_toBits f64 (by decide) (by decide) x hx⟩
  rw [h2, Nat.mod_eq_of_lt hlt]

/-- Operands of an arithmetic operator, one of them floating. -/
theorem float_tags {a b : UAtom} {v w : Val} {x y : Fp} (ha : a.val = some v) (hb : b.val = some w) (hx : IsDouble v x) (hy : IsDouble w y)
    (hf : Floating v ∨ Floating w) : isNumeric a.tag = true ∧ isNumeric b.tag = true ∧ (isFloat a.tag = true ∨ isFloat b.tag = true) ∧
      a.tag ≠ 115 ∧ b.tag ≠ 115 ∧ a.tag ≠ 116 ∧ b.tag ≠ 116 := by
  have key : ∀ (a : UAtom) (v : Val) (x : Fp), a.val = some v → IsDouble v x →
      isNumeric a.tag = true ∧ a.tag ≠ 115 ∧ a.tag ≠ 116 ∧ (Floating v → isFloat a.tag = true) := by
    intro a v x ha hx
    cases hx with
    | double b => rw [(num_raw ha).1]; exact ⟨by decide, by decide, by decide, fun _ => by decide⟩
    | float b => rw [(num_raw ha).1]; exact ⟨by decide, by decide, by decide, fun _ => by decide⟩
    | int t n x hn hx =>
      rw [tag_of_val ha]
      obtain ⟨h1, h2, h3, h4⟩ := int_tag t
      refine ⟨h1, h3, h4, fun hf => ?_⟩
      cases t <;> simp [Floating, ITy.val, ITy.tag] at hf
    | bool p x hx =>
      rw [bare_tag ha]
      cases p <;> exact ⟨by decide, by decide, by decide, fun hf => by simp [Floating, boolVal] at hf⟩
  obtain ⟨a1, a2, a3, a4⟩ := key a v x ha hx
  obtain ⟨b1, b2, b3, b4⟩ := key b w y hb hy
  exact ⟨a1, b1, hf.imp a4 b4, a2, b2, a3, b3⟩

/-- **C63**: with a floating point operand, `+`, `-` and `*` give the `double` nearest to the sum, difference and product of the numbers,
whatever the type of the other operand. -/
theorem C63_arith (a b : UAtom) (v w : Val) (x y : Fp) (ha : a.val = some v) (hb : b.val = some w) (hx : IsDouble v x) (hy : IsDouble w y)
    (hf : Floating v ∨ Floating w) :
    (∃ u z, add (some a) (some b) .fresh = some (0, u) ∧ IsNum u z ∧ SumOf f64 x y z) ∧
    (∃ u z, subtract (some a) (some b) .fresh = some (0, u) ∧ IsNum u z ∧ DiffOf f64 x y z) ∧
    (∃ u z, multiply (some a) (some b) .fresh = some (0, u) ∧ IsNum u z ∧ ProductOf f64 x y z) := by
  obtain ⟨a1, b1, f1, a2, b2, a3, b3⟩ := float_tags ha hb hx hy hf
  have hm : (0 : Nat) < f64.mb := by decide
  have ga := getFp_val a v x ha hx
  have gb := getFp_val b w y hb hy
  obtain ⟨u1, p1, q1⟩ := putFp_spec _ (Fp.good_add f64 hm x y)
  obtain ⟨u2, p2, q2⟩ := putFp_spec _ (Fp.good_sub f64 hm x y)
  obtain ⟨u3, p3, q3⟩ := putFp_spec _ (Fp.good_mul f64 hm x y)
  refine ⟨⟨u1, _, ?_, q1, Fp.sum_of f64 hm x y⟩, ⟨u2, _, ?_, q2, Fp.diff_of f64 hm x y⟩, ⟨u3, _, ?_, q3, Fp.product_of f64 hm x y⟩⟩
  · rw [← p1]; simp [add, a1, b1, f1, a2, b2, a3, b3, viaFp, ga, gb]
  · rw [← p2]; simp [subtract, a1, b1, f1, viaFp, ga, gb]
  · rw [← p3]; simp [multiply, a1, b1, f1, viaFp, ga, gb]

/-- A number that is zero, of either sign. -/
def IsZero : Fp → Prop
  | .fin _ m => m = 0
  | _ => False

/-- **C63**: `/` gives the nearest `double` too; a divisor that is zero gives the string "Inf". -/
theorem C63_divide (a b : UAtom) (v w : Val) (x y : Fp) (ha : a.val = some v) (hb : b.val = some w) (hx : IsDouble v x) (hy : IsDouble w y)
    (hf : Floating v ∨ Floating w) :
    (¬ IsZero y → ∃ u z, divide (some a) (some b) .fresh = some (0, u) ∧ IsNum u z ∧ QuotientOf f64 x y z) ∧
    (IsZero y → ∃ u, divide (some a) (some b) .fresh = some (0, u) ∧ u.val = some (.str [73, 110, 102])) := by
  obtain ⟨a1, b1, f1, a2, b2, a3, b3⟩ := float_tags ha hb hx hy hf
  have hm : (0 : Nat) < f64.mb := by decide
  have ga := getFp_val a v x ha hx
  have gb := getFp_val b w y hb hy
  have hz : Fp.eq y (.fin false 0) = true ↔ IsZero y := by
    cases y with
    | nan => simp [Fp.eq, Fp.le, IsZero]
    | inf s => cases s <;> simp [Fp.eq, Fp.le, IsZero]
    | fin s m => cases s <;> simp [Fp.eq, Fp.le, IsZero, Fp.signed] <;> omega
  refine ⟨fun h => ?_, fun h => ?_⟩
  · obtain ⟨u, p, q⟩ := putFp_spec _ (Fp.good_div f64 hm x y)
    refine ⟨u, _, ?_, q, Fp.quotient_of f64 hm x y⟩
    have : Fp.eq y (.fin false 0) = false := by rw [← Bool.not_eq_true, hz]; exact h
    rw [← p]; simp [divide, a1, b1, f1, ga, gb, this]
  · refine ⟨setString .fresh infStr, ?_, rfl⟩
    have : Fp.eq y (.fin false 0) = true := hz.mpr h
    simp [divide, a1, b1, f1, gb, this]

/-- **C63**, exactness: if the exact sum of the numbers is a `double`, the result of `+` is that sum.  The numbers are in units of
2^-1074. -/
theorem C63_exact_sum (a b : UAtom) (v w : Val) (s t : Bool) (m n : Nat) (ha : a.val = some v) (hb : b.val = some w)
    (hx : IsDouble v (.fin s m)) (hy : IsDouble w (.fin t n)) (hf : Floating v ∨ Floating w)
    (hz : value s m + value t n ≠ 0) (hg : Grid 53 (value s m + value t n).natAbs) (ht : (value s m + value t n).natAbs < 2 ^ 2098) :
    ∃ u, add (some a) (some b) .fresh = some (0, u) ∧
      IsNum u (.fin (decide (value s m + value t n < 0)) (value s m + value t n).natAbs) := by
  obtain ⟨⟨u, z, h1, h2, h3⟩, -, -⟩ := C63_arith a b v w _ _ ha hb hx hy hf
  refine ⟨u, h1, ?_⟩
  have := Fp.rounded_exact f64 _ _ 1 (by decide) hg ht z (by rw [Nat.mul_one]; exact h3.2 hz)
  rwa [this] at h2

/-- **C63**: an integer up to 2^53 stands for itself. -/
theorem C63_integers (t : ITy) (n : Int) (hn : t.has n) (h : n.natAbs ≤ 2 ^ 53) :
    IsDouble (t.val n) (.fin (decide (n < 0)) (n.natAbs * 2 ^ 1074)) :=
  .int t n _ hn (by rw [← ofInt_exact n h]; exact ofInt_intDouble n)

/-- **C63**: the specification determines the results. -/
theorem C63_unique (x y z z' : Fp) : (SumOf f64 x y z → SumOf f64 x y z' → z = z') ∧ (DiffOf f64 x y z → DiffOf f64 x y z' → z = z') ∧
    (ProductOf f64 x y z → ProductOf f64 x y z' → z = z') ∧ (QuotientOf f64 x y z → QuotientOf f64 x y z' → z = z') := by
  have hu : ∀ neg n d, 0 < d → Rounded f64 neg n d z → Rounded f64 neg n d z' → z = z' := fun neg n d hd => Fp.rounded_unique f64 neg n d hd z z'
  refine ⟨?_, ?_, ?_, ?_⟩
  · cases x <;> cases y <;> simp only [SumOf] <;> intro h h' <;> try exact h.trans h'.symm
    · rename_i s t
      by_cases e : s = t
      · exact (h.1 e).trans (h'.1 e).symm
      · exact (h.2 e).trans (h'.2 e).symm
    · rename_i s m t n
      by_cases e : value s m + value t n = 0
      · exact (h.1 e).trans (h'.1 e).symm
      · exact hu _ _ _ (by decide) (h.2 e) (h'.2 e)
  · cases x <;> cases y <;> simp only [DiffOf] <;> intro h h' <;> try exact h.trans h'.symm
    · rename_i s t
      by_cases e : s = t
      · exact (h.2 e).trans (h'.2 e).symm
      · exact (h.1 e).trans (h'.1 e).symm
    · rename_i s m t n
      by_cases e : value s m - value t n = 0
      · exact (h.1 e).trans (h'.1 e).symm
      · exact hu _ _ _ (by decide) (h.2 e) (h'.2 e)
  · cases x <;> cases y <;> simp only [ProductOf] <;> intro h h' <;> try exact h.trans h'.symm
    · rename_i s t n
      by_cases e : n = 0
      · exact (h.1 e).trans (h'.1 e).symm
      · exact (h.2 e).trans (h'.2 e).symm
    · rename_i s m t
      by_cases e : m = 0
      · exact (h.1 e).trans (h'.1 e).symm
      · exact (h.2 e).trans (h'.2 e).symm
    · exact hu _ _ _ (Nat.two_pow_pos _) h h'
  · cases x <;> cases y <;> simp only [QuotientOf] <;> intro h h' <;> try exact h.trans h'.symm
    rename_i s m t n
    by_cases e : n = 0
    · by_cases e' : m = 0
      · exact (h.2.2 e e').trans (h'.2.2 e e').symm
      · exact (h.2.1 e e').trans (h'.2.1 e e').symm
    · exact hu _ _ _ (by omega) (h.1 e) (h'.1 e)

/-- The sum of two numbers as the specification has it does not depend on their order. -/
theorem sumOf_comm (x y z : Fp) (h : SumOf f64 x y z) : SumOf f64 y x z := by
  cases x <;> cases y <;> simp only [SumOf] at h ⊢ <;> try exact h
  · rename_i s t
    exact ⟨fun e => by rw [e]; exact h.1 e.symm, fun e => h.2 (Ne.symm e)⟩
  · rename_i s m t n
    rw [Int.add_comm (value t n), Bool.and_comm t]; exact h

/-- **C63**: `a + b` and `b + a` are the same number. -/
theorem C63_add_comm (a b : UAtom) (v w : Val) (x y : Fp) (ha : a.val = some v) (hb : b.val = some w) (hx : IsDouble v x) (hy : IsDouble w y)
    (hf : Floating v ∨ Floating w) : ∃ u u' z, add (some a) (some b) .fresh = some (0, u) ∧ add (some b) (some a) .fresh = some (0, u') ∧
      IsNum u z ∧ IsNum u' z := by
  obtain ⟨⟨u, z, h1, h2, h3⟩, -, -⟩ := C63_arith a b v w x y ha hb hx hy hf
  obtain ⟨⟨u', z', h1', h2', h3'⟩, -, -⟩ := C63_arith b a w v y x hb ha hy hx hf.symm
  have e := (C63_unique x y z z').1 h3 (sumOf_comm _ _ _ h3')
  subst e
  exact ⟨u, u', z, h1, h1', h2, h2'⟩

/-- **C63**: what the bits of a `double` and of a `float` stand for (for both formats: 52 and 11, 23 and 8 bits). -/
theorem C63_bits (F : Fmt) (hF : F = f64 ∨ F = f32) (sign : Bool) (ex man : Nat) (he : ex < 2 ^ F.eb) (hm : man < 2 ^ F.mb) :
    Encodes F sign ex man (Fp.ofBits F ((if sign then 1 else 0) * 2 ^ (F.mb + F.eb) + ex * 2 ^ F.mb + man)) := by
  obtain ⟨h1, h2, h3⟩ := Fp.bits_parts F.mb F.eb (if sign then 1 else 0) ex man hm he
  have h0 : (0 : Nat) ≠ 2 ^ F.eb - 1 := by rcases hF with rfl | rfl <;> decide
  have hs : ((if sign then 1 else 0) % 2 == 1) = sign := by cases sign <;> rfl
  simp only [Fp.ofBits, h1, h2, h3, hs]
  refine ⟨fun a b => by rw [if_pos a, if_pos b], fun a b => by rw [if_pos a, if_neg b], fun a => ?_, fun a b => ?_⟩
  · subst a; rw [if_neg h0, if_pos rfl]
  · rw [if_neg (by omega), if_neg (by omega), Nat.add_comm]

theorem place_order (x y : Fp) (hx : Fp.Good f64 x) (hy : Fp.Good f64 y) :
    (Fp.lt x y = true ↔ Ordered (· < ·) x y) ∧ (Fp.le x y = true ↔ Ordered (· ≤ ·) x y) ∧ (Fp.eq x y = true ↔ Ordered (· = ·) x y) := by
  have hl : ∀ x y, Fp.Good f64 x → Fp.Good f64 y → (Fp.lt x y = true ↔ Ordered (· < ·) x y) ∧ (Fp.le x y = true ↔ Ordered (· ≤ ·) x y) := by
    intro x y hx hy
    have ht : (2 : Nat) ^ f64.top = 2 ^ 2098 := rfl
    have hg : ∀ s m, Fp.Good f64 (.fin s m) → m < 2 ^ 2098 := fun s m h => by rw [← ht]; exact h.2
    have hp := Nat.two_pow_pos 2098
    cases x with
    | nan => cases y <;> simp [Fp.lt, Fp.le, Ordered, place]
    | inf s =>
      cases y with
      | nan => simp [Fp.lt, Fp.le, Ordered, place]
      | inf t =>
        simp only [Fp.lt, Fp.le, Ordered, place, Option.some.injEq, value]
        generalize 2 ^ 2098 = T at *
        cases s <;> cases t <;> simp <;> omega
      | fin t n =>
        have := hg t n hy
        simp only [Fp.lt, Fp.le, Ordered, place, Option.some.injEq, value]
        generalize 2 ^ 2098 = T at *
        cases s <;> cases t <;> simp <;> omega
    | fin s m =>
      have h1 := hg s m hx
      cases y with
      | nan => simp [Fp.lt, Fp.le, Ordered, place]
      | inf t =>
        simp only [Fp.lt, Fp.le, Ordered, place, Option.some.injEq, value]
        generalize 2 ^ 2098 = T at *
        cases s <;> cases t <;> simp <;> omega
      | fin t n =>
        have := hg t n hy
        simp only [Fp.lt, Fp.le, Ordered, place, Option.some.injEq]
        exact ⟨⟨fun h => ⟨_, _, rfl, rfl, of_decide_eq_true h⟩, fun ⟨_, _, h1, h2, h3⟩ => decide_eq_true (by rw [← h1, ← h2] at h3; exact h3)⟩,
          ⟨fun h => ⟨_, _, rfl, rfl, of_decide_eq_true h⟩, fun ⟨_, _, h1, h2, h3⟩ => decide_eq_true (by rw [← h1, ← h2] at h3; exact h3)⟩⟩
  obtain ⟨a1, a2⟩ := hl x y hx hy
  obtain ⟨-, b2⟩ := hl y x hy hx
  refine ⟨a1, a2, ?_⟩
  rw [Fp.eq, Bool.and_eq_true, a2, b2]
  constructor
  · rintro ⟨⟨a, b, p1, p2, p3⟩, ⟨c, d, q1, q2, q3⟩⟩
    rw [p1] at q2; rw [p2] at q1
    obtain rfl := Option.some.inj q1
    obtain rfl := Option.some.inj q2
    exact ⟨_, _, p1, p2, Int.le_antisymm p3 q3⟩
  · rintro ⟨a, b, p1, p2, rfl⟩
    exact ⟨⟨_, _, p1, p2, Int.le_refl _⟩, ⟨_, _, p2, p1, Int.le_refl _⟩⟩

theorem good_widen (x : Fp) (h : Fp.Good f32 x) : Fp.Good f64 (widen x) := by
  cases x with
  | nan => trivial
  | inf s => trivial
  | fin s m =>
    obtain ⟨⟨k, e, hk, rfl⟩, ht⟩ := h
    refine ⟨⟨k, e + 925, Nat.lt_trans hk (by decide), ?_⟩, ?_⟩
    · rw [Nat.mul_assoc, ← Nat.pow_add]
    · refine Nat.lt_of_lt_of_le (Nat.mul_lt_mul_of_pos_right ht (Nat.two_pow_pos _)) ?_
      rw [← Nat.pow_add]
      exact Nat.pow_le_pow_right (by decide) (by decide)

theorem rounded_good (F : Fmt) (neg : Bool) (n d : Nat) (x : Fp) (h : Rounded F neg n d x) : Fp.Good F x := by
  obtain ⟨v, h1, ⟨h2, rfl⟩ | ⟨-, rfl⟩⟩ := h
  · exact ⟨h1.1, h2⟩
  · trivial

theorem isDouble_good (v : Val) (x : Fp) (h : IsDouble v x) : Fp.Good f64 x := by
  have hi : ∀ n x, IntDouble n x → Fp.Good f64 x := fun n x h => rounded_good f64 _ _ 1 x h
  cases h with
  | double b => exact Fp.ofBits_good f64 (by decide) b
  | float b => exact good_widen _ (Fp.ofBits_good f32 (by decide) b)
  | int t n x hn hx => exact hi _ _ hx
  | bool p x hx => exact hi _ _ hx

theorem num_tags {a : UAtom} {v : Val} {x : Fp} (ha : a.val = some v) (hx : IsDouble v x) : isNumeric a.tag = true ∧ a.tag ≠ 115 := by
  cases hx with
  | double b => rw [(num_raw ha).1]; exact ⟨by decide, by decide⟩
  | float b => rw [(num_raw ha).1]; exact ⟨by decide, by decide⟩
  | int t n x hn hx => rw [tag_of_val ha]; exact ⟨(int_tag t).1, (int_tag t).2.2.1⟩
  | bool p x hx => rw [bare_tag ha]; cases p <;> exact ⟨by decide, by decide⟩

/-- **C63**: the comparisons of numbers are those of the `double`s they stand for; with a NaN only `!=` is true. -/
theorem C63_compare (a b : UAtom) (v w : Val) (x y : Fp) (ha : a.val = some v) (hb : b.val = some w) (hx : IsDouble v x) (hy : IsDouble w y) :
    (∃ r, Gives (lt (some a) (some b) .fresh) r ∧ (r = true ↔ Ordered (· < ·) x y)) ∧
    (∃ r, Gives (le (some a) (some b) .fresh) r ∧ (r = true ↔ Ordered (· ≤ ·) x y)) ∧
    (∃ r, Gives (gt (some a) (some b) .fresh) r ∧ (r = true ↔ Ordered (· > ·) x y)) ∧
    (∃ r, Gives (gte (some a) (some b) .fresh) r ∧ (r = true ↔ Ordered (· ≥ ·) x y)) ∧
    (∃ r, Gives (Expr.eq (some a) (some b) .fresh) r ∧ (r = true ↔ Ordered (· = ·) x y)) ∧
    (∃ r, Gives (neq (some a) (some b) .fresh) r ∧ (r = true ↔ ¬ Ordered (· = ·) x y)) := by
  have sw : ∀ R : Int → Int → Prop, Ordered R y x ↔ Ordered (fun a b => R b a) x y := fun R =>
    ⟨fun ⟨a, b, h1, h2, h3⟩ => ⟨b, a, h2, h1, h3⟩, fun ⟨a, b, h1, h2, h3⟩ => ⟨b, a, h2, h1, h3⟩⟩
  obtain ⟨a1, a2⟩ := num_tags ha hx
  obtain ⟨b1, b2⟩ := num_tags hb hy
  have ga := getFp_val a v x ha hx
  have gb := getFp_val b w y hb hy
  obtain ⟨o1, o2, o3⟩ := place_order x y (isDouble_good v x hx) (isDouble_good w y hy)
  obtain ⟨o4, o5, -⟩ := place_order y x (isDouble_good w y hy) (isDouble_good v x hx)
  have hE := eq_num a b x y a1 a2 b1 ga gb
  exact ⟨⟨_, cmp_num (· < 0) false true Fp.lt (· == -1) a b x y a1 a2 b1 b2 ga gb, o1⟩,
    ⟨_, cmp_num (· ≤ 0) false true Fp.le (· != 1) a b x y a1 a2 b1 b2 ga gb, o2⟩,
    ⟨_, cmp_num (0 < ·) true false (fun x y => Fp.lt y x) (· == 1) a b x y a1 a2 b1 b2 ga gb, o4.trans (sw _)⟩,
    ⟨_, cmp_num (0 ≤ ·) true false (fun x y => Fp.le y x) (· != -1) a b x y a1 a2 b1 b2 ga gb, o5.trans (sw _)⟩,
    ⟨_, hE.1, o3⟩, ⟨_, hE.2, by rw [← o3]; simp⟩⟩

theorem setFloat_fresh (n : Nat) : ∃ u, UAtom.fresh.setFloat n = some u ∧ u.val = some (.num 102 (n % 2 ^ 32)) := by
  have := store_mod (W.bits 0) M32 (by decide) n
  refine ⟨.mk 102 false ((W.bits 0).store M32 n), rfl, ?_⟩
  have e : (W.store (.bits 0) M32 (n : Int)).raw % M32 = n % M32 := by omega
  simp only [UAtom.val]
  simpa using e

/-- **C63**: `++` and `--` of a `double` and of a `float` add and subtract one in their type. -/
theorem C63_step (a : UAtom) (d : Int) (b : Nat) :
    (a.val = some (.num 100 b) → ∃ u z, step1 d a .fresh = some u ∧ IsNum u z ∧ ∀ one, Rounded f64 (decide (d < 0)) (d.natAbs * 2 ^ 1074) 1 one →
      SumOf f64 (Fp.ofBits f64 b) one z) ∧
    (a.val = some (.num 102 b) → ∃ u c, step1 d a .fresh = some u ∧ u.val = some (.num 102 c) ∧
      ∀ one, Rounded f32 (decide (d < 0)) (d.natAbs * 2 ^ 149) 1 one → SumOf f32 (Fp.ofBits f32 b) one (Fp.ofBits f32 c)) := by
  refine ⟨fun h => ?_, fun h => ?_⟩
  · obtain ⟨h1, h2, -⟩ := num_raw h
    have hg := Fp.good_add f64 (by decide) (Fp.ofBits f64 b) (Fp.ofInt f64 d)
    obtain ⟨u, g1, g2⟩ := setDouble_fresh (Fp.toBits f64 (Fp.add f64 (Fp.ofBits f64 b) (Fp.ofInt f64 d)))
    have hlt : Fp.toBits f64 (Fp.add f64 (Fp.ofBits f64 b) (Fp.ofInt f64 d)) < 2 ^ 64 := Fp.toBits_lt f64 (by decide) (by decide) _ hg
    refine ⟨u, _, ?_, ⟨_, hlt, ?_, Fp.ofBits_toBits f64 (by decide) (by decide) _ hg⟩, fun one ho => ?_⟩
    · rw [← g1, h2 rfl, step1, if_neg (by rw [h1]; decide), if_neg (by rw [h1]; decide), if_pos h1]
    · rw [g2, Nat.mod_eq_of_lt hlt]
    · rw [intDouble_unique ho (ofInt_intDouble d)]
      exact Fp.sum_of f64 (by decide) _ _
  · obtain ⟨h1, -, h2⟩ := num_raw h
    have hg := Fp.good_add f32 (by decide) (Fp.ofBits f32 b) (Fp.ofInt f32 d)
    have hlt : Fp.toBits f32 (Fp.add f32 (Fp.ofBits f32 b) (Fp.ofInt f32 d)) < 2 ^ 32 := Fp.toBits_lt f32 (by decide) (by decide) _ hg
    obtain ⟨u, g1, g2⟩ : ∃ u, UAtom.fresh.setFloat (Fp.toBits f32 (Fp.add f32 (Fp.ofBits f32 b) (Fp.ofInt f32 d))) = some u ∧
        u.val = some (.num 102 (Fp.toBits f32 (Fp.add f32 (Fp.ofBits f32 b) (Fp.ofInt f32 d)) % 2 ^ 32)) := setFloat_fresh _
    refine ⟨u, _, ?_, g2, fun one ho => ?_⟩
    · rw [← g1, h2 rfl, step1, if_neg (by rw [h1]; decide), if_pos h1]
    · rw [Nat.mod_eq_of_lt hlt, Fp.ofBits_toBits f32 (by decide) (by decide) _ hg,
        Fp.rounded_unique f32 _ _ 1 (by decide) one (Fp.ofInt f32 d) ho (Fp.finish_rounded f32 (by decide) _ _ 1 (by decide))]
      exact Fp.sum_of f32 (by decide) _ _

/-- The hypotheses are met: 1.5 and the integer 2, ... -/
example : IsDouble (.num 100 0x3ff8000000000000) (.fin false (3 * 2 ^ 1073)) ∧ IsDouble (ITy.i32.val 2) (.fin (decide ((2 : Int) < 0)) ((2 : Int).natAbs * 2 ^ 1074)) ∧
    Floating (.num 100 0x3ff8000000000000) :=
  ⟨(show Fp.ofBits f64 0x3ff8000000000000 = .fin false (3 * 2 ^ 1073) by decide +kernel) ▸ .double _,
    C63_integers .i32 2 (by decide) (by decide), .inl rfl⟩

/-- ... whose sum is 3.5. -/
example : (add (some (.mk 100 false (.bits 0x3ff8000000000000))) (some (atomOf .i32 2)) .fresh).map (fun r => (r.1, r.2.tag, r.2.w.raw)) =
    some (0, 100, 0x400c000000000000) := by decide +kernel

/-- 1.5 / -0. is the string "Inf". -/
example : IsZero (Fp.ofBits f64 0x8000000000000000) := by
  rw [show Fp.ofBits f64 0x8000000000000000 = .fin true 0 by decide +kernel]; rfl

/-- 0.1 + 0.2 is not the `double` nearest to 0.3. -/
example : Fp.toBits f64 (Fp.add f64 (Fp.ofBits f64 0x3fb999999999999a) (Fp.ofBits f64 0x3fc999999999999a)) = 0x3fd3333333333334 := by
  decide +kernel

end Libo.Props
