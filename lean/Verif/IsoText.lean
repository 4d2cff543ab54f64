import Verif.Printf
import Verif.TimeFp
/-!
# Model of the text of time tags (`osc_timetag.c` lines 307-433, 462-524 and 631-642)

The calendar is in `Timetag.lean`; here are the texts.  `printf` and `scanf` are taken to round correctly between decimal and binary numbers
(to nearest, ties to even), as in glibc; `strptime` is that of glibc in the C locale.
-/

namespace Libo.Iso
open Libo Libo.Cal Libo.Expr Libo.Text

/-- `%0wu`: the decimal digits with zeros in front, at least `w` of them. -/
def pad (w n : Nat) : Bytes := List.replicate (w - (dec n).length) 48 ++ dec n

/-- `snprintf(s, w + 1, "%0wu", n)` (`osc_timetag.c` lines 371-376): the first `w` characters fit. -/
def field (w n : Nat) : Bytes := (pad w n).take w

/-- `s1` (`osc_timetag.c` lines 363-424). -/
def dateText (d : DateTime) : Bytes :=
  field 4 d.year ++ [45] ++ field 2 d.month ++ [45] ++ field 2 d.day ++ [84] ++ field 2 d.hour ++ [58] ++ field 2 d.min ++ [58] ++ field 2 d.sec

/-- The number of millionths nearest to `m / 2 ^ 1074`, ties to even. -/
def micros (m : Nat) : Nat :=
  let q := m * 1000000 / 2 ^ 1074
  let r := m * 1000000 % 2 ^ 1074
  if 2 * r > 2 ^ 1074 ∨ (2 * r = 2 ^ 1074 ∧ q % 2 = 1) then q + 1 else q

/-- `%05f` of a number that is not negative: six digits after the point.  (This is never shorter than the width 5.) -/
def fixed (m : Nat) : Bytes := dec (micros m / 1000000) ++ [46] ++ pad 6 (micros m % 1000000)

/-- The magnitude of a finite number with sign +. -/
def mag : Fp → Option Nat
  | .fin false m => some m
  | _ => none

/-- `%05fZ` of `fmod(osc_timetag_ntp_to_float(timetag), 1.0)` (`osc_timetag.c` lines 312 and 426-429); `fmod` is exact. -/
def fracText (t : Timetag) : Option Bytes := (mag (timeToFp t)).map fun m => fixed (m % 2 ^ 1074) ++ [90]

/-- The text that `osc_timetag_toISO8601` (`osc_timetag.c` lines 307-433) prints: `s2` is the text of the fraction without its last character
(the size passed is its length), and its first two characters are skipped. -/
def isoText (t : Timetag) : Option Bytes :=
  (toISO t.sec.toNat).bind fun d => (fracText t).map fun s => dateText d ++ [46] ++ (s.take (s.length - 1)).drop 2 ++ [90]

/-- `osc_timetag_toISO8601` (`osc_timetag.c` lines 311-313) with a NULL buffer; also `osc_timetag_nformat` (lines 639-642) and
`osc_strfmt_timetag` (`osc_strfmt.c` lines 120-123). -/
def isoLen (t : Timetag) : Option Nat := (fracText t).map fun s => 19 + s.length

/-- The same functions with a buffer. -/
def putIso (t : Timetag) : Writer := fun b n => (isoText t).bind fun s => snprintf s b n

/-- `osc_timetag_format` (`osc_timetag.c` lines 631-637): the new block; `junk` is its content before. -/
def format (junk : Nat → UInt8) (t : Timetag) : Option Bytes :=
  (isoLen t).bind fun l => (putIso t ((List.range (l + 1)).map junk) (l + 1)).map (·.2)

/-! ### Reading -/

/-- `isspace` in the C locale. -/
def isSpace (c : UInt8) : Bool := c == 32 || (9 ≤ c && c ≤ 13)
/-- `'0' <= c && c <= '9'`. -/
def isDig (c : UInt8) : Bool := 48 ≤ c && c ≤ 57

/-- The number that decimal digits stand for. -/
def decVal (s : Bytes) : Nat := s.foldl (fun n c => n * 10 + (c.toNat - 48)) 0

/-- `%*d` of `sscanf`: white space, a sign perhaps, digits. -/
def skipInt (s : Bytes) : Option Bytes :=
  let s := s.dropWhile isSpace
  let s := if s.head? = some 43 ∨ s.head? = some 45 then s.drop 1 else s
  if (s.takeWhile isDig).isEmpty then none else some (s.dropWhile isDig)

/-- A character of a format that stands for itself. -/
def lit (c : UInt8) : Bytes → Option Bytes
  | [] => none
  | x :: s => if x = c then some s else none

/-- `%lf` of `sscanf`: digits, and perhaps a point and digits.  Signs, exponents, hexadecimal numbers and the like are not modelled (`none`). -/
def scanDouble (s : Bytes) : Option Fp :=
  let s := s.dropWhile isSpace
  let w := s.takeWhile isDig
  let r := s.dropWhile isDig
  let (f, r) := match r with
    | 46 :: r => (r.takeWhile isDig, r.dropWhile isDig)
    | r => ([], r)
  if w.isEmpty ∨ r.head? = some 101 ∨ r.head? = some 69 ∨ r.head? = some 120 ∨ r.head? = some 88 then none
  else some (Fp.finish f64 false (decVal (w ++ f) * 2 ^ 1074) (10 ^ f.length))

/-- `sscanf(s, "%*d-%*d-%*dT%*d:%*d:%lfZ", &fsec)` (`osc_timetag.c` line 472): `fsec`, or `none` if it stays uninitialised. -/
def scanSec (s : Bytes) : Option Fp :=
  (skipInt s).bind fun s => (lit 45 s).bind fun s => (skipInt s).bind fun s => (lit 45 s).bind fun s => (skipInt s).bind fun s =>
    (lit 84 s).bind fun s => (skipInt s).bind fun s => (lit 58 s).bind fun s => (skipInt s).bind fun s => (lit 58 s).bind scanDouble

/-- The loop of `get_number` of `strptime` (glibc): at most `n` more digits, as long as the number can stay below `hi`. -/
def getDigits (hi : Nat) : Nat → Nat → Bytes → Nat × Bytes
  | 0, v, s => (v, s)
  | _ + 1, v, [] => (v, [])
  | n + 1, v, c :: s => if v * 10 ≤ hi ∧ isDig c then getDigits hi n (v * 10 + (c.toNat - 48)) s else (v, c :: s)

/-- `get_number(lo, hi, n)` of `strptime` (glibc). -/
def getNumber (lo hi n : Nat) (s : Bytes) : Option (Nat × Bytes) :=
  match s.dropWhile isSpace with
  | [] => none
  | c :: s =>
    if isDig c then
      let r := getDigits hi (n - 1) (c.toNat - 48) s
      if r.1 < lo ∨ r.1 > hi then none else some r
    else none

/-- `strptime(s, "%Y-%m-%dT%H:%M:%S", &t)` (`osc_timetag.c` line 484).  If it fails, the code goes on with the numbers read so far; this is
not modelled (`none`). -/
def readDate (s : Bytes) : Option DateTime :=
  (getNumber 0 9999 4 s).bind fun (y, s) => (lit 45 s).bind fun s => (getNumber 1 12 2 s).bind fun (m, s) => (lit 45 s).bind fun s =>
    (getNumber 1 31 2 s).bind fun (d, s) => (lit 84 s).bind fun s => (getNumber 0 23 2 s).bind fun (h, s) => (lit 58 s).bind fun s =>
      (getNumber 0 59 2 s).bind fun (mi, s) => (lit 58 s).bind fun s => (getNumber 0 61 2 s).map fun (sec, _) => ⟨y, m, d, h, mi, sec⟩

/-- The fraction (`osc_timetag.c` line 520): `(uint32_t)(fmod(fsec, 1.0) * 4294967295.0)`. -/
def fracOf : Fp → Option UInt32
  | .fin s m => (Fp.toInt f64 0 M32 (Fp.mul f64 (.fin s (m % 2 ^ 1074)) fracScale)).map fun k => UInt32.ofNat k.toNat
  | _ => none

/-- `osc_timetag_fromISO8601` (`osc_timetag.c` lines 462-524). -/
def fromISO8601 (s : Bytes) : Option Timetag :=
  (scanSec s).bind fun fsec => (readDate s).bind fun d => (fromISO d).bind fun sec => (fracOf fsec).map fun f => ⟨UInt32.ofNat sec, f⟩

end Libo.Iso
