import Verif.ByteOrder
import Verif.BundleS
/-!
# Time tags

Modelled: `/repo/osc_timetag.c` (NTP format, the one selected by `osc_timetag.h` line 57) and the time tag accessors of
`/repo/osc_bundle_s.c`.
Not modelled: the system clock.  The calendar functions are modelled here on the six numbers they print and parse; the texts are in
`IsoText.lean`, the conversion from and to floating point in `TimeFp.lean`.
-/

namespace Libo

/-- `t_osc_timetag_ntptime`, `osc_timetag.h` lines 59-62. -/
structure Timetag where
  sec : UInt32
  frac : UInt32
deriving DecidableEq

namespace Timetag

/-- `osc_timetag_add`, `osc_timetag.c` lines 42-57. -/
def add (a b : Timetag) : Timetag :=
  let sec := a.sec + b.sec
  let frac := a.frac + b.frac
  if frac < a.frac then ⟨sec + 1, frac⟩ else ⟨sec, frac⟩

/-- `osc_timetag_subtract`, `osc_timetag.c` lines 59-90. -/
def subtract (a b : Timetag) : Timetag :=
  if a.sec > b.sec ∨ (a.sec = b.sec ∧ a.frac ≥ b.frac) then
    let sec := a.sec - b.sec
    if a.frac ≥ b.frac then ⟨sec, a.frac - b.frac⟩
    else if sec = 0 then ⟨sec, b.frac - a.frac⟩
    else ⟨sec - 1, a.frac - b.frac⟩
  else
    let sec := b.sec - a.sec
    if a.frac ≥ b.frac then ⟨sec, a.frac - b.frac⟩
    else ⟨sec, b.frac - a.frac⟩

/-- `osc_timetag_compare`, `osc_timetag.c` lines 92-108. -/
def compare (a b : Timetag) : Int :=
  if a.sec < b.sec ∨ (a.sec = b.sec ∧ a.frac < b.frac) then -1
  else if a.sec > b.sec ∨ (a.sec = b.sec ∧ a.frac > b.frac) then 1
  else 0

/-- `osc_timetag_isImmediate`, `osc_timetag.c` lines 110-117. -/
def isImmediate (t : Timetag) : Bool := t.sec == 0 && t.frac == 1

/-- `osc_timetag_encodeForHeader`, `osc_timetag.c` lines 662-677: the eight bytes stored at `buf`. -/
def encode (t : Timetag) : Bytes := st32 (swap32 t.sec) ++ st32 (swap32 t.frac)

/-- `osc_timetag_decodeFromHeader`, `osc_timetag.c` lines 644-660, at offset `i`. -/
def decode (buf : Bytes) (i : Nat) : Option Timetag := do
  let s ← ld32 buf i
  let f ← ld32 buf (i + 4)
  return ⟨swap32 s, swap32 f⟩

end Timetag

/-- `osc_bundle_s_getTimetag`, `osc_bundle_s.c` lines 525-531. -/
def getTimetag (len : Int) (buf : Option Bytes) : Option Timetag :=
  match buf with
  | none => some ⟨0, 0⟩
  | some b => if len < 16 then some ⟨0, 0⟩ else Timetag.decode b 8

/-- `osc_bundle_s_setTimetag`, `osc_bundle_s.c` lines 533-539, for a non-NULL buffer. -/
def setTimetag (len : Int) (buf : Bytes) (t : Timetag) : Option Bytes :=
  if len < 16 then some buf else blit buf 8 t.encode

namespace Cal

/-- `unsigned short` to `short`. -/
def toI16 (n : Nat) : Int := if n % 65536 < 32768 then ((n % 65536 : Nat) : Int) else ((n % 65536 : Nat) : Int) - 65536

/-- `while(yrtest > 0) yrtest -= step;`, the loops of `osc_timetag_isleap` (`osc_timetag.c` lines 187-189, 195-197,
200-202).  A `short` needs fewer than 32768 rounds, see `subDown_le`. -/
def subDown (step : Int) : Nat → Int → Int
  | 0, y => y
  | f + 1, y => if y > 0 then subDown step f (y - step) else y

/-- `osc_timetag_isleap`, `osc_timetag.c` lines 181-212. -/
def isleap (year : Nat) : Bool :=
  let y := toI16 year
  if subDown 400 32768 y = 0 then true
  else if subDown 4 32768 y = 0 then
    if subDown 100 32768 y < 0 then true else false
  else false

/-- The table of last days of `osc_timetag_getmonth`, `osc_timetag.c` lines 231-258, for months 1 to 12. -/
def lastDay (leap : Bool) (m : Nat) : Nat :=
  let k := if leap then 1 else 0
  match m with
  | 1 => 31 | 2 => 59 + k | 3 => 90 + k | 4 => 120 + k | 5 => 151 + k | 6 => 181 + k
  | 7 => 212 + k | 8 => 243 + k | 9 => 273 + k | 10 => 304 + k | 11 => 334 + k | 12 => 365 + k
  | _ => 0

/-- `osc_timetag_getmonth`, `osc_timetag.c` lines 216-304: month (0 when out of range) and the day as updated.  (The error
branches for `leap` other than 0 and 1 cannot be taken with the result of `isleap`.) -/
def getmonth (day : Nat) (leap : Bool) : Nat × Nat :=
  if day ≤ lastDay leap 1 then (1, day)
  else if day ≤ lastDay leap 2 then (2, day - lastDay leap 1)
  else if day ≤ lastDay leap 3 then (3, day - lastDay leap 2)
  else if day ≤ lastDay leap 4 then (4, day - lastDay leap 3)
  else if day ≤ lastDay leap 5 then (5, day - lastDay leap 4)
  else if day ≤ lastDay leap 6 then (6, day - lastDay leap 5)
  else if day ≤ lastDay leap 7 then (7, day - lastDay leap 6)
  else if day ≤ lastDay leap 8 then (8, day - lastDay leap 7)
  else if day ≤ lastDay leap 9 then (9, day - lastDay leap 8)
  else if day ≤ lastDay leap 10 then (10, day - lastDay leap 9)
  else if day ≤ lastDay leap 11 then (11, day - lastDay leap 10)
  else if day ≤ lastDay leap 12 then (12, day - lastDay leap 11)
  else (0, day)

/-- The six numbers printed by `osc_timetag_toISO8601` and read by `osc_timetag_fromISO8601`. -/
structure DateTime where
  year : Nat
  month : Nat
  day : Nat
  hour : Nat
  min : Nat
  sec : Nat
deriving DecidableEq

/-- The year loop of `osc_timetag_toISO8601`, `osc_timetag.c` lines 326-331: `secs` is a `uint32_t`, so taking off the extra
day of a leap year wraps around when fewer seconds are left.  `none`: more rounds than the `unsigned short` counter. -/
def yearLoop : Nat → Nat → Nat → Option (Nat × Nat)
  | 0, _, _ => none
  | f + 1, year, secs =>
    if secs ≥ 31536000 then
      let secs := secs - 31536000
      let secs := if isleap year then (secs + 4294967296 - 86400) % 4294967296 else secs
      yearLoop f (year + 1) secs
    else some (year, secs)

/-- `for(n = n0; secs >= step; n++) secs -= step;`, the day, hour and minute loops (lines 346-356). -/
def divLoop (step : Nat) : Nat → Nat → Nat → Option (Nat × Nat)
  | 0, _, _ => none
  | f + 1, n, secs => if secs ≥ step then divLoop step f (n + 1) (secs - step) else some (n, secs)

/-- `osc_timetag_toISO8601`, `osc_timetag.c` lines 307-429: the numbers printed for `secs` seconds. -/
def toISO (secs : Nat) : Option DateTime := do
  let (year, secs) ← yearLoop 65536 0 secs
  let year := year + 1900
  let leap := isleap year
  let (day, secs) ← divLoop 86400 366 1 secs
  let (hour, secs) ← divLoop 3600 25 0 secs
  let (minute, secs) ← divLoop 60 61 0 secs
  let (month, day) := getmonth day leap
  return ⟨year, month, day, hour, minute, secs⟩

/-- The year loop of `osc_timetag_fromISO8601`, `osc_timetag.c` lines 498-503: `i` runs over `0 .. n-1`. -/
def fromYears : Nat → Nat
  | 0 => 0
  | i + 1 =>
    let s := (fromYears i + 31536000) % 4294967296
    if isleap (i + 1900) then (s + 86400) % 4294967296 else s

/-- `days_in_months`, `osc_timetag.c` line 506. -/
def daysInMonths : List Nat := [0, 31, 59, 90, 120, 151, 181, 212, 243, 273, 304, 334, 365]

/-- `osc_timetag_fromISO8601`, `osc_timetag.c` lines 462-524: the `uint32_t` seconds computed from the parsed numbers
(`tm_year = year - 1900`, `tm_mon = month - 1`); `none` is an index outside the month table or a year before 1900. -/
def fromISO (d : DateTime) : Option Nat := do
  if d.year < 1900 ∨ d.month < 1 ∨ d.day < 1 then none
  let tmYear := d.year - 1900
  let tmMon := d.month - 1
  let sec := fromYears tmYear
  let leap := isleap d.year
  let dm ← daysInMonths[tmMon]?
  let offset := if leap ∧ tmMon > 1 then 1 else 0
  return (sec + (dm + offset + (d.day - 1)) * 86400 + d.hour * 3600 + d.min * 60 + d.sec) % 4294967296

end Cal
end Libo
