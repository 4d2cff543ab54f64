/-!
# Model of floating point arithmetic

The C code computes with `double` and `float`.  They are taken to be the binary64 and binary32 formats of IEEE 754 with rounding to nearest,
ties to even, and every operation rounded once (`FLT_EVAL_METHOD` 0, no contraction to fused operations).  This file says what the operations do; libo uses
them in `ExprArith.lean`.  The sign and payload of a NaN are not modelled: the bits of a NaN are always those of the default NaN with sign 0.

The magnitude of a finite number is a natural number, in units of the smallest positive number of the format.
-/

namespace Libo

/-- A format: number of stored bits of the significand and of the exponent. -/
structure Fmt where
  mb : Nat
  eb : Nat

/-- `double` and `float`. -/
def f64 : Fmt := ⟨52, 11⟩
def f32 : Fmt := ⟨23, 8⟩

/-- The unit is 2 to the power of minus this: 1074 and 149. -/
def Fmt.unit (F : Fmt) : Nat := 2 ^ (F.eb - 1) - 2 + F.mb

/-- Finite numbers are below 2 to the power of this, in units: 2098 and 277. -/
def Fmt.top (F : Fmt) : Nat := 2 ^ (F.eb - 1) + F.unit

/-- A floating point number. -/
inductive Fp where
  | nan
  | inf (neg : Bool)
  | fin (neg : Bool) (m : Nat)
  deriving DecidableEq

namespace Fp

/-- The number with the given bits. -/
def ofBits (F : Fmt) (b : Nat) : Fp :=
  let man := b % 2 ^ F.mb
  let ex := b / 2 ^ F.mb % 2 ^ F.eb
  let neg := b / 2 ^ (F.mb + F.eb) % 2 == 1
  if ex = 2 ^ F.eb - 1 then if man = 0 then .inf neg else .nan
  else if ex = 0 then .fin neg man
  else .fin neg ((man + 2 ^ F.mb) * 2 ^ (ex - 1))

/-- The sign bit. -/
def signBit (F : Fmt) (neg : Bool) : Nat := if neg then 2 ^ (F.mb + F.eb) else 0

/-- The bits of a number. -/
def toBits (F : Fmt) : Fp → Nat
  | .nan => (2 ^ F.eb - 1) * 2 ^ F.mb + 2 ^ (F.mb - 1)
  | .inf s => signBit F s + (2 ^ F.eb - 1) * 2 ^ F.mb
  | .fin s m =>
    let e := Nat.log2 m - F.mb
    signBit F s + e * 2 ^ F.mb + m / 2 ^ e

/-- The quotient `n / d` rounded to `p` significant binary digits, but not below the unit; ties to even. -/
def roundDiv (p n d : Nat) : Nat :=
  let s := Nat.log2 (n / d) + 1 - p
  let q := n / (d * 2 ^ s)
  let r := n % (d * 2 ^ s)
  if 2 * r > d * 2 ^ s ∨ (2 * r = d * 2 ^ s ∧ q % 2 = 1) then (q + 1) * 2 ^ s else q * 2 ^ s

/-- The number of magnitude `n / d` units, rounded; too large numbers are infinite. -/
def finish (F : Fmt) (neg : Bool) (n d : Nat) : Fp :=
  let m := roundDiv (F.mb + 1) n d
  if 2 ^ F.top ≤ m then .inf neg else .fin neg m

/-- Magnitude with sign. -/
def signed (neg : Bool) (m : Nat) : Int := if neg then -(m : Int) else m

/-- `-x`. -/
def neg : Fp → Fp
  | .nan => .nan
  | .inf s => .inf !s
  | .fin s m => .fin (!s) m

/-- `fabs(x)`. -/
def abs : Fp → Fp
  | .nan => .nan
  | .inf _ => .inf false
  | .fin _ m => .fin false m

/-- `x + y`. -/
def add (F : Fmt) : Fp → Fp → Fp
  | .nan, _ => .nan
  | _, .nan => .nan
  | .inf s, .inf t => if s = t then .inf s else .nan
  | .inf s, .fin _ _ => .inf s
  | .fin _ _, .inf t => .inf t
  | .fin s m, .fin t n =>
    let z := signed s m + signed t n
    if z = 0 then .fin (s && t) 0 else finish F (decide (z < 0)) z.natAbs 1

/-- `x - y`. -/
def sub (F : Fmt) (x y : Fp) : Fp := add F x (neg y)

/-- `x * y`. -/
def mul (F : Fmt) : Fp → Fp → Fp
  | .nan, _ => .nan
  | _, .nan => .nan
  | .inf s, .inf t => .inf (s != t)
  | .inf s, .fin t n => if n = 0 then .nan else .inf (s != t)
  | .fin s m, .inf t => if m = 0 then .nan else .inf (s != t)
  | .fin s m, .fin t n => finish F (s != t) (m * n) (2 ^ F.unit)

/-- `x / y`. -/
def div (F : Fmt) : Fp → Fp → Fp
  | .nan, _ => .nan
  | _, .nan => .nan
  | .inf _, .inf _ => .nan
  | .inf s, .fin t _ => .inf (s != t)
  | .fin s _, .inf t => .fin (s != t) 0
  | .fin s m, .fin t n =>
    if n = 0 then (if m = 0 then .nan else .inf (s != t)) else finish F (s != t) (m * 2 ^ F.unit) n

/-- `x < y`, `x <= y`, `x == y`. -/
def lt : Fp → Fp → Bool
  | .nan, _ => false
  | _, .nan => false
  | .inf s, .inf t => s && !t
  | .inf s, .fin _ _ => s
  | .fin _ _, .inf t => !t
  | .fin s m, .fin t n => signed s m < signed t n
def le : Fp → Fp → Bool
  | .nan, _ => false
  | _, .nan => false
  | .inf s, .inf t => s || !t
  | .inf s, .fin _ _ => s
  | .fin _ _, .inf t => !t
  | .fin s m, .fin t n => signed s m ≤ signed t n
def eq (x y : Fp) : Bool := le x y && le y x

/-- Conversion of an integer. -/
def ofInt (F : Fmt) (x : Int) : Fp := finish F (decide (x < 0)) (x.natAbs * 2 ^ F.unit) 1

/-- Conversion to another format. -/
def conv (F G : Fmt) : Fp → Fp
  | .nan => .nan
  | .inf s => .inf s
  | .fin s m => finish G s (m * 2 ^ G.unit) (2 ^ F.unit)

/-- Conversion to an integer type with range `lo ≤ x < hi`: rounded towards zero; undefined outside. -/
def toInt (F : Fmt) (lo hi : Int) : Fp → Option Int
  | .fin s m =>
    let v := signed s (m / 2 ^ F.unit)
    if lo ≤ v ∧ v < hi then some v else none
  | _ => none

/-- `floor(x)`: the unit is `1 / 2 ^ F.unit`. -/
def floor (F : Fmt) : Fp → Fp
  | .fin s m =>
    let q := m / 2 ^ F.unit
    .fin s ((if s = true ∧ m % 2 ^ F.unit ≠ 0 then q + 1 else q) * 2 ^ F.unit)
  | x => x

/-- `ceil(x)`. -/
def ceil (F : Fmt) (x : Fp) : Fp := neg (floor F (neg x))

end Fp

end Libo
