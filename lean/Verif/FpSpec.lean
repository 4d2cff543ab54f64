import Verif.Fp
/-!
# Specification of correct rounding

Numbers are counted in units of the smallest positive `double`, as in `Fp`.  A number is on the grid if it has at most 53 significant
binary digits; the grid has no largest number.
-/

namespace Libo.Ieee

/-- Numbers with at most `p` significant digits. -/
def Grid (p v : Nat) : Prop := ∃ k s, k < 2 ^ p ∧ v = k * 2 ^ s

/-- Among them those with an even significand: the last of the `p` digits is 0. -/
def EvenDigit (p v : Nat) : Prop := ∃ k s, k < 2 ^ p ∧ v = k * 2 ^ s ∧ k % 2 = 0 ∧ (s = 0 ∨ 2 ^ (p - 1) ≤ k)

/-- The distance of `v` from `n / d`, times `d`. -/
def dist (v n d : Nat) : Nat := (v * d - n) + (n - v * d)

/-- `v` is the number on the grid that is nearest to `n / d`; of two that are equally near the even one. -/
def Nearest (p v n d : Nat) : Prop :=
  Grid p v ∧ ∀ w, Grid p w → dist v n d < dist w n d ∨ (dist v n d = dist w n d ∧ (w = v ∨ EvenDigit p v))

/-- `r` is the number of sign `neg` and magnitude `n / d`, rounded; infinity is what does not fit. -/
def Rounded (F : Fmt) (neg : Bool) (n d : Nat) (r : Fp) : Prop :=
  ∃ v, Nearest (F.mb + 1) v n d ∧ ((v < 2 ^ F.top ∧ r = .fin neg v) ∨ (2 ^ F.top ≤ v ∧ r = .inf neg))

/-- The value with its sign. -/
def value (neg : Bool) (m : Nat) : Int := if neg then -(m : Int) else m

/-- `r` is the sum of `x` and `y`. -/
def SumOf (F : Fmt) : Fp → Fp → Fp → Prop
  | .fin s m, .fin t n, r =>
    (value s m + value t n = 0 → r = .fin (s && t) 0) ∧
    (value s m + value t n ≠ 0 → Rounded F (decide (value s m + value t n < 0)) (value s m + value t n).natAbs 1 r)
  | .inf s, .fin _ _, r => r = .inf s
  | .fin _ _, .inf s, r => r = .inf s
  | .inf s, .inf t, r => (s = t → r = .inf s) ∧ (s ≠ t → r = .nan)
  | _, _, r => r = .nan

/-- `r` is the difference of `x` and `y`. -/
def DiffOf (F : Fmt) : Fp → Fp → Fp → Prop
  | .fin s m, .fin t n, r =>
    (value s m - value t n = 0 → r = .fin (s && !t) 0) ∧
    (value s m - value t n ≠ 0 → Rounded F (decide (value s m - value t n < 0)) (value s m - value t n).natAbs 1 r)
  | .inf s, .fin _ _, r => r = .inf s
  | .fin _ _, .inf s, r => r = .inf !s
  | .inf s, .inf t, r => (s ≠ t → r = .inf s) ∧ (s = t → r = .nan)
  | _, _, r => r = .nan

/-- `r` is the product of `x` and `y`. -/
def ProductOf (F : Fmt) : Fp → Fp → Fp → Prop
  | .fin s m, .fin t n, r => Rounded F (s != t) (m * n) (2 ^ F.unit) r
  | .inf s, .fin t n, r => (n = 0 → r = .nan) ∧ (n ≠ 0 → r = .inf (s != t))
  | .fin s m, .inf t, r => (m = 0 → r = .nan) ∧ (m ≠ 0 → r = .inf (s != t))
  | .inf s, .inf t, r => r = .inf (s != t)
  | _, _, r => r = .nan

/-- `r` is the quotient of `x` and `y`. -/
def QuotientOf (F : Fmt) : Fp → Fp → Fp → Prop
  | .fin s m, .fin t n, r =>
    (n ≠ 0 → Rounded F (s != t) (m * 2 ^ F.unit) n r) ∧ (n = 0 → m ≠ 0 → r = .inf (s != t)) ∧ (n = 0 → m = 0 → r = .nan)
  | .inf s, .fin t _, r => r = .inf (s != t)
  | .fin s _, .inf t, r => r = .fin (s != t) 0
  | _, _, r => r = .nan

/-- `x` is the number with the given sign, exponent field and significand field: an all-ones exponent is for infinity and NaN, a zero
exponent for numbers without the leading one. -/
def Encodes (F : Fmt) (sign : Bool) (ex man : Nat) (x : Fp) : Prop :=
  (ex = 2 ^ F.eb - 1 → man = 0 → x = .inf sign) ∧ (ex = 2 ^ F.eb - 1 → man ≠ 0 → x = .nan) ∧
  (ex = 0 → x = .fin sign man) ∧ (0 < ex → ex < 2 ^ F.eb - 1 → x = .fin sign ((2 ^ F.mb + man) * 2 ^ (ex - 1)))

/-- The place of a `double` in the order: its value, infinity being beyond all finite numbers; NaN has none. -/
def place : Fp → Option Int
  | .nan => none
  | .inf s => some (value s (2 ^ 2098))
  | .fin s m => some (value s m)

/-- `x` and `y` are in the relation `R`; never if one of them is NaN. -/
def Ordered (R : Int → Int → Prop) (x y : Fp) : Prop := ∃ a b, place x = some a ∧ place y = some b ∧ R a b

end Libo.Ieee
