import Verif.ExprNum
import Verif.TextFmt
import Verif.Name
/-!
# Model of the functions of the expression language that call `math.h`, and of the constants

From `osc_expr.c`: `osc_expr_1arg_dbl` and `osc_expr_2arg_dbl_dbl` with further functions of the C library, `osc_expr_ilogb`, `osc_expr_jn`,
`osc_expr_yn`, `osc_expr_l2norm`, `osc_expr_mtof`, `osc_expr_ftom` and the constants.

`sqrt`, `remainder`, `logb` and `ilogb` have results that IEEE 754 prescribes and are modelled.  The other functions of `math.h` differ
between C libraries; they are parameters, from the bits of the arguments to the bits of the result.

Simplification: `ilogb` of zero, infinity and NaN, which C leaves to the implementation, is undefined (`none`).
-/

namespace Libo.Expr
open Libo Libo.Text

/-- A function of the C library on numbers. -/
def lib1 (P : Printf) (name : Bytes) (x : Fp) : Fp := Fp.ofBits f64 (P.lib1 name (Fp.toBits f64 x))
def lib2 (P : Printf) (name : Bytes) (x y : Fp) : Fp := Fp.ofBits f64 (P.lib2 name (Fp.toBits f64 x) (Fp.toBits f64 y))
def libn (P : Printf) (name : Bytes) (n : Int) (x : Fp) : Fp := Fp.ofBits f64 (P.libn name n (Fp.toBits f64 x))

/-- The whole part of the square root. -/
def isqrt (n : Nat) : Nat :=
  if h : n = 0 then 0
  else
    let r := 2 * isqrt (n / 4)
    if (r + 1) * (r + 1) ≤ n then r + 1 else r
termination_by n
decreasing_by exact Nat.div_lt_self (Nat.pos_of_ne_zero h) (by decide)

/-- `sqrt(x)`: correctly rounded.  The root is counted in units, as the argument is; it is not less than 2^537, so that nothing but a number
between two whole numbers has to be told from the lower one. -/
def fpSqrt : Fp → Fp
  | .nan => .nan
  | .inf s => if s then .nan else .inf false
  | .fin s m =>
    if m = 0 then .fin s 0
    else if s then .nan
    else
      let n := m * 2 ^ 1074
      let r := isqrt n
      Fp.finish f64 false (2 * r + if r * r = n then 0 else 1) 2

/-- `remainder(x, y)` of the C library: exact. -/
def fpRemainder : Fp → Fp → Fp
  | .nan, _ => .nan
  | _, .nan => .nan
  | .inf _, _ => .nan
  | .fin s m, .inf _ => .fin s m
  | .fin s m, .fin _ n =>
    if n = 0 then .nan
    else if 2 * (m % n) < n ∨ (2 * (m % n) = n ∧ m / n % 2 = 0) then .fin s (m % n)
    else .fin (!s) (n - m % n)

/-- `logb(x)`: the exponent. -/
def fpLogb : Fp → Fp
  | .nan => .nan
  | .inf _ => .inf false
  | .fin _ m => if m = 0 then .inf true else Fp.ofInt f64 ((Nat.log2 m : Int) - 1074)

/-- `ilogb(x)`. -/
def fpIlogb : Fp → Option Int
  | .fin _ m => if m = 0 then none else some ((Nat.log2 m : Int) - 1074)
  | _ => none

/-- `osc_expr_ilogb` (`osc_expr.c` lines 3202-3214). -/
def ilogbF : List Ar → Res
  | [a] => (forN (len a) (fun i out => (fpOf (at? a i)).bind fun x => (fpIlogb x).bind fun n => setTo out i (·.setInt32 n)) (mk (len a))).map
      fun out => (0, some out)
  | _ => some (1, none)

/-- `osc_expr_jn` and `osc_expr_yn` (`osc_expr.c` lines 3216-3240). -/
def besselF (P : Printf) (name : Bytes) : List Ar → Res
  | [a, b] => (intOf UAtom.getInt32 (at? a 0)).bind fun n => (fpOf (at? b 0)).bind fun x =>
    (setTo (mk 1) 0 (·.setDouble (Fp.toBits f64 (libn P name n x)))).map fun out => (0, some out)
  | _ => some (1, none)

/-- `osc_expr_l2norm` (`osc_expr.c` lines 4454-4468). -/
def l2norm (P : Printf) : List Ar → Res
  | [] => none
  | a :: _ =>
    (forN (len a) (fun i s => (fpOf (at? a i)).map fun x => Fp.add f64 s (lib2 P (n! "pow") x (Fp.ofInt f64 2))) (Fp.ofInt f64 0)).bind fun s =>
      (setTo (mk 1) 0 (·.setDouble (Fp.toBits f64 (fpSqrt s)))).map fun out => (0, some out)

/-- A number with `k` decimal digits after the point, as the compiler reads it. -/
def decimal (n k : Nat) : Fp := Fp.finish f64 false (n * 2 ^ 1074) (10 ^ k)

/-- The base frequency of `osc_expr_mtof` and `osc_expr_ftom` (`osc_expr.c` lines 4803-4808 and 4834-4839). -/
def pitchBase : List Ar → Option Fp
  | [] => some (Fp.ofInt f64 440)
  | b :: _ => if 0 < len b then fpOf (at? b 0) else some (Fp.ofInt f64 440)

/-- `osc_expr_mtof` and `osc_expr_ftom` (`osc_expr.c` lines 4799-4858) with their computation `f`. -/
def pitch (f : Fp → Fp → Fp) : List Ar → Res
  | [] => some (1, none)
  | a :: rest => (pitchBase rest).bind fun base =>
    (forN (len a) (fun i out =>
      if copied (tagOf (at? a i)) then copyTo out i (at? a i)
      else (fpOf (at? a i)).bind fun x => setTo out i (·.setDouble (Fp.toBits f64 (f base x)))) (mk (len a))).map fun out => (0, some out)

/-- The computation of `osc_expr_mtof` (`osc_expr.c` line 4823). -/
def mtofOf (P : Printf) (base x : Fp) : Fp :=
  Fp.mul f64 base (lib1 P (n! "exp") (Fp.mul f64 (decimal 5776226504666210911810267678817 32) (Fp.sub f64 x (Fp.ofInt f64 69))))

/-- The computation of `osc_expr_ftom` (`osc_expr.c` line 4854). -/
def ftomOf (P : Printf) (base x : Fp) : Fp :=
  Fp.add f64 (Fp.ofInt f64 69) (Fp.mul f64 (decimal 1731234049066756088831909617202611 32) (lib1 P (n! "log") (Fp.div f64 x base)))

/-- The constants (`osc_expr.c` lines 5722-5864) with the `M_` macros of `math.h`: a list of one `double`. -/
def constant (x : Fp) (_ : List Ar) : Res := (setTo (mk 1) 0 (·.setDouble (Fp.toBits f64 x))).map fun out => (0, some out)
def cPi : Fp := decimal 314159265358979323846 20
def cTwoPi : Fp := Fp.mul f64 (Fp.ofInt f64 2) cPi
def cHalfPi : Fp := decimal 157079632679489661923 20
def cQuarterPi : Fp := decimal 785398163397448309616 21
def cOneOverPi : Fp := decimal 318309886183790671538 21
def cTwoOverPi : Fp := decimal 636619772367581343076 21
def cDegToRad : Fp := decimal 17453 6
def cRadToDeg : Fp := decimal 5729578 5
def cE : Fp := decimal 27182818284590452354 19
def cLn2 : Fp := decimal 693147180559945309417 21
def cLn10 : Fp := decimal 230258509299404568402 20
def cLog2E : Fp := decimal 14426950408889634074 19
def cLog10E : Fp := decimal 434294481903251827651 21
def cSqrt2 : Fp := decimal 141421356237309504880 20
def cSqrtHalf : Fp := decimal 707106781186547524401 21
def cPhi : Fp := decimal 1618033988749895 15
def cRoot12 : Fp := decimal 1059463094359295 15
def cRoot13 : Fp := decimal 1088182243463317 15

end Libo.Expr
