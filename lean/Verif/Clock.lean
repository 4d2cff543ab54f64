import Verif.Timetag
/-!
# Time tags and the system clock

Modelled: the three functions of `/repo/osc_timetag.c` that ask the system for the time, as functions of what `gettimeofday` reports.
Simplified: the clock is an argument; `time_t` and `suseconds_t` have 64 bits; `int` has 32 bits and its overflow is `none`.
-/

namespace Libo

/-- What `gettimeofday(&tv, &tz)` stores: `tv.tv_sec`, `tv.tv_usec`, `tz.tz_minuteswest` and `tz.tz_dsttime`
(`osc_timetag.c` lines 572-575, 588-591 and 605-609). -/
structure Clock where
  sec : Int
  usec : Int
  west : Int
  dst : Int

namespace Clock

/-- `60 * tz.tz_minuteswest`, a product of type `int`; `osc_timetag.c` lines 579 and 595. -/
def zone (c : Clock) : Option Int :=
  if -2147483648 ≤ 60 * c.west ∧ 60 * c.west < 2147483648 then some (60 * c.west) else none

/-- `tz.tz_dsttime == 1 ? 3600 : 0`, `osc_timetag.c` lines 580 and 595. -/
def summer (c : Clock) : Int := if c.dst = 1 then 3600 else 0

/-- `osc_timetag_ut_to_ntp`, `osc_timetag.c` lines 570-584: the sum is one of `uint64_t`, cut to `uint32_t` by the assignment. -/
def utToNtp (c : Clock) (ut : Int) : Option Timetag :=
  c.zone.map fun z =>
    let a := (2208988800 + ut % 4294967296) % 18446744073709551616
    let b := (a - z % 18446744073709551616) % 18446744073709551616
    let d := (b + c.summer) % 18446744073709551616
    ⟨UInt32.ofNat d.toNat, 0⟩

/-- `osc_timetag_ntp_to_ut`, `osc_timetag.c` lines 586-600: `n.sec` is converted to `time_t`, nothing overflows. -/
def ntpToUt (c : Clock) (n : Timetag) : Option Int :=
  c.zone.map fun z => (n.sec.toNat : Int) - 2208988800 + z - c.summer

/-- `osc_timetag_now`, `osc_timetag.c` lines 603-621: `tv.tv_usec * 4295` is computed in 64 bits and cut to `uint32_t`. -/
def now (c : Clock) : Timetag :=
  ⟨2208988800 + UInt32.ofNat (c.sec % 4294967296).toNat, UInt32.ofNat (c.usec * 4295 % 4294967296).toNat⟩

end Clock

end Libo
