import Verif.Basic
/-!
# Model of `snprintf` as libo uses it
-/

namespace Libo.Text
open Libo

/-- `%u`, `%lu`: the decimal digits. -/
def dec (n : Nat) : Bytes := if n < 10 then [UInt8.ofNat (48 + n)] else dec (n / 10) ++ [UInt8.ofNat (48 + n % 10)]

/-- `%d`, `%ld`. -/
def decI (i : Int) : Bytes := if i < 0 then 45 :: dec i.natAbs else dec i.natAbs

/-- A function that writes text into a buffer: `none` for undefined behaviour, otherwise what it returns and the buffer. -/
abbrev Writer := Bytes → Int → Option (Nat × Bytes)

/-- `snprintf(buf, n, …)` where the format with its arguments makes the text `t`. -/
def snprintf (t : Bytes) : Writer := fun b n =>
  if n < 0 then none
  else if n = 0 then some (t.length, b)
  else
    let out := t.take (n.toNat - 1) ++ [0]
    if out.length ≤ b.length then some (t.length, out ++ b.drop out.length) else none

end Libo.Text
