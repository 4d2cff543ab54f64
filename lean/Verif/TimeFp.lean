import Verif.Fp
import Verif.Timetag
import Verif.AtomU
/-!
# Model of the conversion between time tags and floating point numbers (`osc_timetag.c` lines 526-550)
-/

namespace Libo.Expr
open Libo

/-- `4294967295.0`. -/
def fracScale : Fp := .fin false (4294967295 * 2 ^ 1074)

/-- `osc_timetag_ntp_to_float` (`osc_timetag.c` lines 547-550). -/
def timeToFp (t : Timetag) : Fp :=
  Fp.add f64 (Fp.ofInt f64 t.sec.toNat) (Fp.div f64 (Fp.ofInt f64 t.frac.toNat) fracScale)

/-- `osc_timetag_float_to_ntp` (`osc_timetag.c` lines 526-545).  `fmod(d, 1.0)` is the fraction of `d` with the sign of `d`, exactly; it is
NaN for an infinite `d`.  The conversions to `uint32_t` are undefined if the number is out of range. -/
def fpToTime (d : Fp) : Option Timetag :=
  match d with
  | .fin s m =>
    let frac := Fp.fin s (m % 2 ^ 1074)
    let sec := Fp.sub f64 d frac
    (Fp.toInt f64 0 M32 sec).bind fun n => (Fp.toInt f64 0 M32 (Fp.mul f64 frac fracScale)).map fun k =>
      ⟨UInt32.ofNat n.toNat, UInt32.ofNat k.toNat⟩
  | _ => none

end Libo.Expr
