import Verif.Printf
import Verif.Fp
/-!
# Model of `osc_strfmt_precision` (`osc_strfmt.c`)

The function prints its argument with `%+a` and works on this text.  The text is the argument of the model; which texts the C
library may print for a number is said in `Verif/Props/Precision.lean`.
-/

namespace Libo.Prec
open Libo

/-- `strstr(buf, "0x")` (`osc_strfmt.c` line 311): the place found. -/
def strstr0x : Bytes → Option Nat
  | a :: b :: r => if a = 48 ∧ b = 120 then some 0 else (strstr0x (b :: r)).map (· + 1)
  | _ => none

/-- `INT_MAX` (`limits.h`). -/
def INT_MAX : Int := 2147483647

/-- `INT_MIN` (`limits.h`). -/
def INT_MIN : Int := -2147483648

/-- The loop reading the exponent (`osc_strfmt.c` lines 318-326); `none`: the function returns -2. -/
def expLoop : Bytes → Int → Option Int
  | [], e => some e
  | c :: r, e =>
    if e > INT_MAX / 10 then none
    else if e * 10 > INT_MAX - ((c.toNat : Int) - 48) then none
    else expLoop r (e * 10 + ((c.toNat : Int) - 48))

/-- `lsbPosInNibble` (`osc_strfmt.c` line 343). -/
def nib : List Nat := [0, 4, 3, 4, 2, 4, 3, 4, 1, 4, 3, 4, 2, 4, 3, 4]

/-- The loop looking for the last bit (`osc_strfmt.c` lines 334-352), over the bytes in front of the `p` from right to left;
`lsbFound` and `lsbPos` are the pair.  `none`: it runs over the start of the buffer or reads outside the table. -/
def lsbLoop : Bytes → Bool × Int → Option (Bool × Int)
  | [], _ => none
  | c :: r, (f, pos) =>
    if c = 120 then some (f, pos)
    else if c = 46 then lsbLoop r (f, pos)
    else if f then lsbLoop r (f, pos - 4)
    else
      let d := if 97 ≤ c then c.toNat - 97 + 10 else c.toNat - 48
      if d ≠ 0 then
        match nib[d]? with
        | none => none
        | some k => lsbLoop r (true, -(k : Int))
      else lsbLoop r (f, pos)

/-- The part after the loops (`osc_strfmt.c` lines 353-376). -/
def result (found : Bool) (pos e : Int) : Int :=
  let pos := pos + 4
  if !found then 0
  else if pos ≥ 0 ∧ e ≥ 0 then 0
  else if pos < 0 ∧ e < 0 ∧ pos < INT_MIN - e then -2
  else if pos + e ≥ 0 then 0
  else if pos + e = INT_MIN ∧ -INT_MAX ≠ INT_MIN then -2
  else -(pos + e)

/-- `osc_strfmt_precision` (`osc_strfmt.c` lines 288-377), where `t` is the text of the argument printed with `%+a`. -/
def precision (t : Bytes) : Option Int :=
  if 43 ≤ t.length then some (-1)
  else if strstr0x t ≠ some 1 then some 0
  else
    match t.findIdx? (· == 112) with
    | none => some 0
    | some pp =>
      let s := t[pp + 1]?.getD 0
      match expLoop (t.drop (pp + 1 + if s = 45 ∨ s = 43 then 1 else 0)) 0 with
      | none => some (-2)
      | some e =>
        (lsbLoop (t.take pp).reverse (false, 0)).map fun r => result r.1 r.2 (if s = 45 then -e else e)

end Libo.Prec
