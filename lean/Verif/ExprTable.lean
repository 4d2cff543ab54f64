import Verif.ExprEval
import Verif.ExprStr
import Verif.ExprCast
import Verif.ExprNum
import Verif.ExprSort
import Verif.ExprMat
import Verif.ExprHull
import Verif.ExprMisc
import Verif.ExprMath
/-!
# Model of the table of functions of the expression language

`osc_expr_func.h` lines 205-2760 (`osc_expr_funcsym`), the functions of `osc_expr.c` that only pass a value on, and the check of the
number of arguments in `osc_expr_parser.y`.
-/

namespace Libo.Expr
open Libo Libo.Text

/-- `osc_expr_identity` (`osc_expr.c` lines 4932-4936). -/
def identity : List Ar → Res
  | [] => none
  | a :: _ => (copyAr a).map fun v => (0, v)

/-- `osc_expr_prog1` (`osc_expr.c` lines 4955-4963). -/
def prog1 : List Ar → Res
  | [] => some (1, none)
  | a :: _ => (copyAr a).map fun v => (0, v)

/-- `osc_expr_prog2` (`osc_expr.c` lines 4965-4973). -/
def prog2 : List Ar → Res
  | _ :: b :: _ => (copyAr b).map fun v => (0, v)
  | _ => some (1, none)

/-- `osc_expr_progn` (`osc_expr.c` lines 4975-4983). -/
def progn (argv : List Ar) : Res :=
  match argv.getLast? with
  | none => some (1, none)
  | some a => (copyAr a).map fun v => (0, v)

/-- `osc_expr_typetags` (`osc_expr.c` lines 5017-5031). -/
def typetags : List Ar → Res
  | [] => some (0, none)
  | a :: _ => (forN (len a) (fun i out => setTo out i (·.setInt8 (tagOf (at? a i)).toNat)) (mk (len a))).map fun out => (0, some out)

/-- What a `t_osc_expr_rec` of the table says (`osc_expr_rec.r` lines 40-53): name, number of required arguments, number of optional arguments
(negative: any number), function.  The texts of the documentation are left out. -/
structure Entry where
  name : Bytes
  required : Nat
  optional : Int
  fn : Printf → Fn

/-- `osc_expr_funcsym` (`osc_expr_func.h` lines 205-2760).  Functions that are not modelled are `Fn.other`, with the line of
the first entry that points to the function. -/
def table : List Entry :=
  [
   ⟨[43], 2, 0, fun _ => .prim (arg2 add)⟩ /- + -/,
   ⟨[45], 2, 0, fun _ => .prim (arg2 subtract)⟩ /- - -/,
   ⟨[42], 2, 0, fun _ => .prim (arg2 multiply)⟩ /- * -/,
   ⟨[47], 2, 0, fun _ => .prim (arg2 divide)⟩ /- / -/,
   ⟨[60], 2, 0, fun _ => .prim (arg2 lt)⟩ /- < -/,
   ⟨[60, 61], 2, 0, fun _ => .prim (arg2 le)⟩ /- <= -/,
   ⟨[62], 2, 0, fun _ => .prim (arg2 gt)⟩ /- > -/,
   ⟨[62, 61], 2, 0, fun _ => .prim (arg2 gte)⟩ /- >= -/,
   ⟨[61, 61], 2, 0, fun _ => .prim (arg2 eq)⟩ /- == -/,
   ⟨[33, 61], 2, 0, fun _ => .prim (arg2 neq)⟩ /- != -/,
   ⟨[38], 2, 0, fun _ => .prim (arg2 and)⟩ /- & -/,
   ⟨[124], 2, 0, fun _ => .prim (arg2 or)⟩ /- | -/,
   ⟨[38, 38], 2, 0, fun _ => .andalso⟩ /- && -/,
   ⟨[124, 124], 2, 0, fun _ => .orelse⟩ /- || -/,
   ⟨[37], 2, 0, fun _ => .prim (arg2 modulo)⟩ /- % -/,
   ⟨[61], 2, 0, fun _ => .assign⟩ /- = -/,
   ⟨[43, 43], 1, 0, fun _ => .prim plus1⟩ /- ++ -/,
   ⟨[45, 45], 1, 0, fun _ => .prim minus1⟩ /- -- -/,
   ⟨[43, 61], 2, 0, fun _ => .prim (arg2 add)⟩ /- += -/,
   ⟨[45, 61], 2, 0, fun _ => .prim (arg2 subtract)⟩ /- -= -/,
   ⟨[42, 61], 2, 0, fun _ => .prim (arg2 multiply)⟩ /- *= -/,
   ⟨[47, 61], 2, 0, fun _ => .prim (arg2 divide)⟩ /- /= -/,
   ⟨[37, 61], 2, 0, fun _ => .prim (arg2 modulo)⟩ /- %= -/,
   ⟨[63, 63], 2, 0, fun _ => .other 506⟩ /- ?? -/,
   ⟨[46], 2, 0, fun _ => .getMember⟩ /- . -/,
   ⟨[97, 100, 100], 2, 0, fun _ => .prim (arg2 add)⟩ /- add -/,
   ⟨[115, 117, 98], 2, 0, fun _ => .prim (arg2 subtract)⟩ /- sub -/,
   ⟨[109, 117, 108], 2, 0, fun _ => .prim (arg2 multiply)⟩ /- mul -/,
   ⟨[100, 105, 118], 2, 0, fun _ => .prim (arg2 divide)⟩ /- div -/,
   ⟨[108, 116], 2, 0, fun _ => .prim (arg2 lt)⟩ /- lt -/,
   ⟨[108, 101], 2, 0, fun _ => .prim (arg2 le)⟩ /- le -/,
   ⟨[103, 116], 2, 0, fun _ => .prim (arg2 gt)⟩ /- gt -/,
   ⟨[103, 101], 2, 0, fun _ => .prim (arg2 gte)⟩ /- ge -/,
   ⟨[101, 113], 2, 0, fun _ => .prim (arg2 eq)⟩ /- eq -/,
   ⟨[110, 101], 2, 0, fun _ => .prim (arg2 neq)⟩ /- ne -/,
   ⟨[97, 110, 100], 2, 0, fun _ => .prim (arg2 and)⟩ /- and -/,
   ⟨[111, 114], 2, 0, fun _ => .prim (arg2 or)⟩ /- or -/,
   ⟨[97, 110, 100, 97, 108, 115, 111], 2, 0, fun _ => .andalso⟩ /- andalso -/,
   ⟨[111, 114, 101, 108, 115, 101], 2, 0, fun _ => .orelse⟩ /- orelse -/,
   ⟨[109, 111, 100], 2, 0, fun _ => .prim (arg2 modulo)⟩ /- mod -/,
   ⟨[97, 115, 115, 105, 103, 110], 2, 0, fun _ => .assign⟩ /- assign -/,
   ⟨[112, 108, 117, 115, 49], 1, 0, fun _ => .prim plus1⟩ /- plus1 -/,
   ⟨[109, 105, 110, 117, 115, 49], 1, 0, fun _ => .prim minus1⟩ /- minus1 -/,
   ⟨[97, 98, 115], 1, 0, fun _ => .prim (math1 Fp.abs)⟩ /- abs -/,
   ⟨[97, 99, 111, 115], 1, 0, fun P => .prim (math1 (lib1 P (n! "acos")))⟩ /- acos -/,
   ⟨[97, 115, 105, 110], 1, 0, fun P => .prim (math1 (lib1 P (n! "asin")))⟩ /- asin -/,
   ⟨[97, 116, 97, 110], 1, 0, fun P => .prim (math1 (lib1 P (n! "atan")))⟩ /- atan -/,
   ⟨[97, 116, 97, 110, 50], 2, 0, fun P => .prim (math2 (lib2 P (n! "atan2")))⟩ /- atan2 -/,
   ⟨[99, 101, 105, 108], 1, 0, fun _ => .prim (math1 (Fp.ceil f64))⟩ /- ceil -/,
   ⟨[99, 111, 115], 1, 0, fun P => .prim (math1 (lib1 P (n! "cos")))⟩ /- cos -/,
   ⟨[99, 111, 115, 104], 1, 0, fun P => .prim (math1 (lib1 P (n! "cosh")))⟩ /- cosh -/,
   ⟨[101, 120, 112], 1, 0, fun P => .prim (math1 (lib1 P (n! "exp")))⟩ /- exp -/,
   ⟨[102, 108, 111, 111, 114], 1, 0, fun _ => .prim (math1 (Fp.floor f64))⟩ /- floor -/,
   ⟨[102, 109, 111, 100], 2, 0, fun _ => .prim (math2 fpMod)⟩ /- fmod -/,
   ⟨[108, 111, 103], 1, 0, fun P => .prim (math1 (lib1 P (n! "log")))⟩ /- log -/,
   ⟨[108, 111, 103, 49, 48], 1, 0, fun P => .prim (math1 (lib1 P (n! "log10")))⟩ /- log10 -/,
   ⟨[112, 111, 119], 2, 0, fun P => .prim (math2 (lib2 P (n! "pow")))⟩ /- pow -/,
   ⟨[115, 105, 110], 1, 0, fun P => .prim (math1 (lib1 P (n! "sin")))⟩ /- sin -/,
   ⟨[115, 105, 110, 104], 1, 0, fun P => .prim (math1 (lib1 P (n! "sinh")))⟩ /- sinh -/,
   ⟨[115, 113, 114, 116], 1, 0, fun _ => .prim (math1 fpSqrt)⟩ /- sqrt -/,
   ⟨[116, 97, 110], 1, 0, fun P => .prim (math1 (lib1 P (n! "tan")))⟩ /- tan -/,
   ⟨[116, 97, 110, 104], 1, 0, fun P => .prim (math1 (lib1 P (n! "tanh")))⟩ /- tanh -/,
   ⟨[101, 114, 102], 1, 0, fun P => .prim (math1 (lib1 P (n! "erf")))⟩ /- erf -/,
   ⟨[101, 114, 102, 99], 1, 0, fun P => .prim (math1 (lib1 P (n! "erfc")))⟩ /- erfc -/,
   ⟨[103, 97, 109, 109, 97], 1, 0, fun P => .prim (math1 (lib1 P (n! "tgamma")))⟩ /- gamma -/,
   ⟨[104, 121, 112, 111, 116], 2, 0, fun P => .prim (math2 (lib2 P (n! "hypot")))⟩ /- hypot -/,
   ⟨[106, 48], 1, 0, fun P => .prim (math1 (lib1 P (n! "j0")))⟩ /- j0 -/,
   ⟨[106, 49], 1, 0, fun P => .prim (math1 (lib1 P (n! "j1")))⟩ /- j1 -/,
   ⟨[106, 110], 2, 0, fun P => .prim (besselF P (n! "jn"))⟩ /- jn -/,
   ⟨[108, 103, 97, 109, 109, 97], 1, 0, fun P => .prim (math1 (lib1 P (n! "lgamma")))⟩ /- lgamma -/,
   ⟨[121, 48], 1, 0, fun P => .prim (math1 (lib1 P (n! "y0")))⟩ /- y0 -/,
   ⟨[121, 49], 1, 0, fun P => .prim (math1 (lib1 P (n! "y1")))⟩ /- y1 -/,
   ⟨[121, 110], 2, 0, fun P => .prim (besselF P (n! "yn"))⟩ /- yn -/,
   ⟨[97, 99, 111, 115, 104], 1, 0, fun P => .prim (math1 (lib1 P (n! "acosh")))⟩ /- acosh -/,
   ⟨[97, 115, 105, 110, 104], 1, 0, fun P => .prim (math1 (lib1 P (n! "asinh")))⟩ /- asinh -/,
   ⟨[97, 116, 97, 110, 104], 1, 0, fun P => .prim (math1 (lib1 P (n! "atanh")))⟩ /- atanh -/,
   ⟨[99, 98, 114, 116], 1, 0, fun P => .prim (math1 (lib1 P (n! "cbrt")))⟩ /- cbrt -/,
   ⟨[101, 120, 112, 109, 49], 1, 0, fun P => .prim (math1 (lib1 P (n! "expm1")))⟩ /- expm1 -/,
   ⟨[105, 108, 111, 103, 98], 1, 0, fun _ => .prim ilogbF⟩ /- ilogb -/,
   ⟨[108, 111, 103, 98], 1, 0, fun _ => .prim (math1 fpLogb)⟩ /- logb -/,
   ⟨[110, 101, 120, 116, 97, 102, 116, 101, 114], 1, 0, fun _ => .other 1251⟩ /- nextafter -/,
   ⟨[114, 101, 109, 97, 105, 110, 100, 101, 114], 2, 0, fun _ => .prim (math2 fpRemainder)⟩ /- remainder -/,
   ⟨[114, 111, 117, 110, 100], 1, 0, fun _ => .prim (math1 fpRound)⟩ /- round -/,
   ⟨[110, 116, 104], 2, -1, fun _ => .prim nth⟩ /- nth -/,
   ⟨[97, 115, 115, 105, 103, 110, 95, 116, 111, 95, 105, 110, 100, 101, 120], 3, 0, fun _ => .assignToIndex⟩ /- assign_to_index -/,
   ⟨[112, 114, 111, 100, 117, 99, 116], 1, 0, fun _ => .prim product⟩ /- product -/,
   ⟨[115, 117, 109], 1, 0, fun _ => .prim sum⟩ /- sum -/,
   ⟨[99, 117, 109, 115, 117, 109], 1, 0, fun _ => .prim cumsum⟩ /- cumsum -/,
   ⟨[108, 101, 110, 103, 116, 104], 1, 0, fun _ => .prim length⟩ /- length -/,
   ⟨[97, 118, 103], 1, 0, fun _ => .prim mean⟩ /- avg -/,
   ⟨[109, 101, 97, 110], 1, 0, fun _ => .prim mean⟩ /- mean -/,
   ⟨[109, 101, 100, 105, 97, 110], 1, 0, fun P => .prim (median P.qsort)⟩ /- median -/,
   ⟨[114, 101, 118, 101, 114, 115, 101], 1, 0, fun _ => .prim reverse⟩ /- reverse -/,
   ⟨[114, 101, 118], 1, 0, fun _ => .prim reverse⟩ /- rev -/,
   ⟨[115, 111, 114, 116], 1, -1, fun P => .prim (sortF P.qsort)⟩ /- sort -/,
   ⟨[115, 111, 114, 116, 105, 100, 120], 1, 0, fun P => .prim (sortIdx P.qsort)⟩ /- sortidx -/,
   ⟨[110, 111, 110, 122, 101, 114, 111], 1, 0, fun _ => .prim nonzero⟩ /- nonzero -/,
   ⟨[108, 105, 115, 116], 0, -1, fun _ => .prim list⟩ /- list -/,
   ⟨[110, 102, 105, 108, 108], 1, 1, fun _ => .prim nfill⟩ /- nfill -/,
   ⟨[97, 115, 101, 113], 2, 1, fun _ => .prim aseq⟩ /- aseq -/,
   ⟨[105, 110, 116, 101, 114, 108, 101, 97, 118, 101], 2, -1, fun _ => .prim interleave⟩ /- interleave -/,
   ⟨[102, 105, 114, 115, 116], 1, 0, fun _ => .prim first⟩ /- first -/,
   ⟨[108, 97, 115, 116], 1, 0, fun _ => .prim last⟩ /- last -/,
   ⟨[114, 101, 115, 116], 1, 0, fun _ => .prim rest⟩ /- rest -/,
   ⟨[98, 117, 116, 108, 97, 115, 116], 1, 0, fun _ => .prim butlast⟩ /- butlast -/,
   ⟨[33], 1, 0, fun _ => .prim not⟩ /- ! -/,
   ⟨[110, 111, 116], 1, 0, fun _ => .prim not⟩ /- not -/,
   ⟨[100, 111, 116], 2, 0, fun _ => .prim dot⟩ /- dot -/,
   ⟨[99, 114, 111, 115, 115], 2, 0, fun _ => .prim cross⟩ /- cross -/,
   ⟨[100, 101, 116], 1, -1, fun _ => .prim det⟩ /- det -/,
   ⟨[108, 50, 110, 111, 114, 109], 1, 0, fun P => .prim (l2norm P)⟩ /- l2norm -/,
   ⟨[109, 105, 110], 1, 0, fun _ => .prim minimum⟩ /- min -/,
   ⟨[109, 97, 120], 1, 0, fun _ => .prim maximum⟩ /- max -/,
   ⟨[114, 97, 110, 103, 101], 1, 0, fun _ => .prim rangeOf⟩ /- range -/,
   ⟨[101, 120, 116, 114, 101, 109, 97], 1, 0, fun _ => .prim extrema⟩ /- extrema -/,
   ⟨[99, 108, 105, 112], 3, 0, fun _ => .prim clip⟩ /- clip -/,
   ⟨[115, 99, 97, 108, 101], 5, 0, fun _ => .prim scale⟩ /- scale -/,
   ⟨[109, 116, 111, 102], 1, 1, fun P => .prim (pitch (mtofOf P))⟩ /- mtof -/,
   ⟨[102, 116, 111, 109], 1, 1, fun P => .prim (pitch (ftomOf P))⟩ /- ftom -/,
   ⟨[115, 105, 103, 110], 1, 0, fun _ => .prim signF⟩ /- sign -/,
   ⟨[105, 102], 2, 1, fun _ => .cond⟩ /- if -/,
   ⟨[115, 116, 114, 108, 101, 110], 1, 0, fun P => .prim (strlenF P)⟩ /- strlen -/,
   ⟨[115, 116, 114, 99, 104, 97, 114], 2, 0, fun P => .prim (strchar P)⟩ /- strchar -/,
   ⟨[115, 116, 114, 102, 105, 110, 100], 2, 0, fun P => .prim (strfind P)⟩ /- strfind -/,
   ⟨[115, 116, 114, 99, 109, 112], 2, 1, fun P => .prim (strcmpF P)⟩ /- strcmp -/,
   ⟨[115, 112, 108, 105, 116], 2, 0, fun P => .prim (split P)⟩ /- split -/,
   ⟨[106, 111, 105, 110], 2, -1, fun P => .prim (join P)⟩ /- join -/,
   ⟨[98, 111, 117, 110, 100], 1, 0, fun _ => .bound⟩ /- bound -/,
   ⟨[101, 120, 105, 115, 116, 115], 1, 0, fun _ => .exist⟩ /- exists -/,
   ⟨[101, 109, 112, 116, 121, 98, 117, 110, 100, 108, 101], 0, 1, fun _ => .emptybundle⟩ /- emptybundle -/,
   ⟨[103, 101, 116, 97, 100, 100, 114, 101, 115, 115, 101, 115], 0, 1, fun _ => .getaddresses⟩ /- getaddresses -/,
   ⟨[100, 101, 108, 101, 116, 101], 1, -1, fun _ => .delete⟩ /- delete -/,
   ⟨[103, 101, 116, 109, 115, 103, 99, 111, 117, 110, 116], 0, 0, fun _ => .getmsgcount⟩ /- getmsgcount -/,
   ⟨[105, 100, 101, 110, 116, 105, 116, 121], 1, 0, fun _ => .prim identity⟩ /- identity -/,
   ⟨[101, 118, 97, 108], 1, 0, fun _ => .eval⟩ /- eval -/,
   ⟨[116, 111, 107, 101, 110, 105, 122, 101], 1, 0, fun _ => .other 1966⟩ /- tokenize -/,
   ⟨[112, 114, 111, 103, 49], 1, -1, fun _ => .prim prog1⟩ /- prog1 -/,
   ⟨[112, 114, 111, 103, 50], 1, -1, fun _ => .prim prog2⟩ /- prog2 -/,
   ⟨[112, 114, 111, 103, 110], 1, -1, fun _ => .prim progn⟩ /- progn -/,
   ⟨[97, 112, 112, 108, 121], 2, -1, fun _ => .apply⟩ /- apply -/,
   ⟨[109, 97, 112], 2, -1, fun _ => .map⟩ /- map -/,
   ⟨[108, 114, 101, 100, 117, 99, 101], 2, 1, fun _ => .lreduce⟩ /- lreduce -/,
   ⟨[114, 114, 101, 100, 117, 99, 101], 2, 1, fun _ => .rreduce⟩ /- rreduce -/,
   ⟨[113, 117, 111, 116, 101], 1, 0, fun _ => .quote⟩ /- quote -/,
   ⟨[118, 97, 108, 117, 101], 1, 0, fun _ => .value⟩ /- value -/,
   ⟨[108, 97, 109, 98, 100, 97], 0, 0, fun _ => .other 2096⟩ /- lambda -/,
   ⟨[103, 101, 116, 116, 105, 109, 101, 116, 97, 103], 0, 0, fun _ => .gettimetag⟩ /- gettimetag -/,
   ⟨[115, 101, 116, 116, 105, 109, 101, 116, 97, 103], 1, 0, fun _ => .settimetag⟩ /- settimetag -/,
   ⟨[103, 101, 116, 98, 117, 110, 100, 108, 101, 109, 101, 109, 98, 101, 114], 2, 0, fun _ => .getMember⟩ /- getbundlemember -/,
   ⟨[97, 115, 115, 105, 103, 110, 116, 111, 98, 117, 110, 100, 108, 101, 109, 101, 109, 98, 101, 114], 3, 0, fun _ => .assignMember⟩ /- assigntobundlemember -/,
   ⟨[98, 105, 116, 97, 110, 100], 2, 0, fun _ => .prim bitAnd⟩ /- bitand -/,
   ⟨[98, 105, 116, 111, 114], 2, 0, fun _ => .prim bitOr⟩ /- bitor -/,
   ⟨[112, 105], 0, 0, fun _ => .prim (constant cPi)⟩ /- pi -/,
   ⟨[116, 119, 111, 112, 105], 0, 0, fun _ => .prim (constant cTwoPi)⟩ /- twopi -/,
   ⟨[104, 97, 108, 102, 112, 105], 0, 0, fun _ => .prim (constant cHalfPi)⟩ /- halfpi -/,
   ⟨[113, 117, 97, 114, 116, 101, 114, 112, 105], 0, 0, fun _ => .prim (constant cQuarterPi)⟩ /- quarterpi -/,
   ⟨[111, 110, 101, 111, 118, 101, 114, 112, 105], 0, 0, fun _ => .prim (constant cOneOverPi)⟩ /- oneoverpi -/,
   ⟨[116, 119, 111, 111, 118, 101, 114, 112, 105], 0, 0, fun _ => .prim (constant cTwoOverPi)⟩ /- twooverpi -/,
   ⟨[100, 101, 103, 116, 111, 114, 97, 100], 0, 0, fun _ => .prim (constant cDegToRad)⟩ /- degtorad -/,
   ⟨[114, 97, 100, 116, 111, 100, 101, 103], 0, 0, fun _ => .prim (constant cRadToDeg)⟩ /- radtodeg -/,
   ⟨[101], 0, 0, fun _ => .prim (constant cE)⟩ /- e -/,
   ⟨[108, 110, 116, 119, 111], 0, 0, fun _ => .prim (constant cLn2)⟩ /- lntwo -/,
   ⟨[108, 110, 116, 101, 110], 0, 0, fun _ => .prim (constant cLn10)⟩ /- lnten -/,
   ⟨[108, 111, 103, 116, 119, 111, 101], 0, 0, fun _ => .prim (constant cLog2E)⟩ /- logtwoe -/,
   ⟨[108, 111, 103, 116, 101, 110, 101], 0, 0, fun _ => .prim (constant cLog10E)⟩ /- logtene -/,
   ⟨[115, 113, 114, 116, 116, 119, 111], 0, 0, fun _ => .prim (constant cSqrt2)⟩ /- sqrttwo -/,
   ⟨[115, 113, 114, 116, 104, 97, 108, 102], 0, 0, fun _ => .prim (constant cSqrtHalf)⟩ /- sqrthalf -/,
   ⟨[102, 108, 111, 97, 116, 51, 50], 1, 0, fun P => .prim (explicitCast P .float32)⟩ /- float32 -/,
   ⟨[102, 108, 111, 97, 116, 54, 52], 1, 0, fun P => .prim (explicitCast P .float64)⟩ /- float64 -/,
   ⟨[105, 110, 116, 56], 1, 0, fun P => .prim (explicitCast P (.int .i8))⟩ /- int8 -/,
   ⟨[99, 104, 97, 114], 1, 0, fun P => .prim (explicitCast P (.int .i8))⟩ /- char -/,
   ⟨[105, 110, 116, 49, 54], 1, 0, fun P => .prim (explicitCast P (.int .i16))⟩ /- int16 -/,
   ⟨[105, 110, 116, 51, 50], 1, 0, fun P => .prim (explicitCast P (.int .i32))⟩ /- int32 -/,
   ⟨[105, 110, 116, 54, 52], 1, 0, fun P => .prim (explicitCast P (.int .i64))⟩ /- int64 -/,
   ⟨[117, 105, 110, 116, 56], 1, 0, fun P => .prim (explicitCast P (.int .u8))⟩ /- uint8 -/,
   ⟨[117, 105, 110, 116, 49, 54], 1, 0, fun P => .prim (explicitCast P (.int .u16))⟩ /- uint16 -/,
   ⟨[117, 105, 110, 116, 51, 50], 1, 0, fun P => .prim (explicitCast P (.int .u32))⟩ /- uint32 -/,
   ⟨[117, 105, 110, 116, 54, 52], 1, 0, fun P => .prim (explicitCast P (.int .u64))⟩ /- uint64 -/,
   ⟨[98, 111, 111, 108], 1, 0, fun P => .prim (explicitCast P .bool)⟩ /- bool -/,
   ⟨[115, 116, 114, 105, 110, 103], 1, 0, fun P => .prim (explicitCast P .string)⟩ /- string -/,
   ⟨[98, 108, 111, 98], 1, 0, fun _ => .prim blobCast⟩ /- blob -/,
   ⟨[99, 97, 115, 116], 2, 0, fun P => .prim (dynamicCast P)⟩ /- cast -/,
   ⟨[116, 121, 112, 101, 116, 97, 103, 115], 1, 0, fun _ => .prim typetags⟩ /- typetags -/,
   ⟨[104, 116, 111, 110, 51, 50], 1, 0, fun _ => .prim hton32⟩ /- hton32 -/,
   ⟨[110, 116, 111, 104, 51, 50], 1, 0, fun _ => .prim ntoh32⟩ /- ntoh32 -/,
   ⟨[104, 116, 111, 110, 54, 52], 1, 0, fun _ => .prim hton64⟩ /- hton64 -/,
   ⟨[110, 116, 111, 104, 54, 52], 1, 0, fun _ => .prim ntoh64⟩ /- ntoh64 -/,
   ⟨[114, 101, 97, 100, 115, 116, 114, 105, 110, 103], 1, 0, fun _ => .prim readstring⟩ /- readstring -/,
   ⟨[115, 116, 114, 116, 111, 116, 105, 109, 101], 1, 0, fun _ => .prim strtotime⟩ /- strtotime -/,
   ⟨[102, 108, 111, 97, 116, 116, 111, 116, 105, 109, 101], 1, 0, fun _ => .prim floattotime⟩ /- floattotime -/,
   ⟨[109, 97, 116, 99, 104], 2, 0, fun _ => .prim matchFn⟩ /- match -/,
   ⟨[113, 117, 105, 99, 107, 104, 117, 108, 108], 1, 1, fun _ => .prim quickhull⟩ /- quickhull -/,
   ⟨[98, 117, 110, 100, 108, 101], 0, -1, fun _ => .prim bundleFn⟩ /- bundle -/,
   ⟨[112, 104, 105], 0, 0, fun _ => .prim (constant cPhi)⟩ /- phi -/,
   ⟨[116, 119, 101, 108, 102, 116, 104, 95, 114, 111, 111, 116, 95, 111, 102, 95, 50], 0, 0, fun _ => .prim (constant cRoot12)⟩ /- twelfth_root_of_2 -/,
   ⟨[116, 104, 105, 114, 116, 101, 101, 110, 116, 104, 95, 114, 111, 111, 116, 95, 111, 102, 95, 51], 0, 0, fun _ => .prim (constant cRoot13)⟩ /- thirteenth_root_of_3 -/]

/-- `osc_expr_lookupFunction` (`osc_expr.c` lines 2176-2187): the first entry with the name. -/
def lookup (name : Bytes) : Option Entry := table.find? fun e => e.name == name

/-- `osc_expr_parser_checkArity` (`osc_expr_parser.y` lines 329-385); `true` when it returns 0. -/
def Entry.arityOk (e : Entry) (n : Nat) : Bool :=
  if n = e.required then true
  else if n < e.required then false
  else if e.optional < 0 then true
  else if e.optional = 0 ∨ (n : Int) - e.required > e.optional then false
  else true

/-- The function with a name, for `osc_expr_specFunc_apply`. -/
def funcOf (P : Printf) (name : Bytes) : Option Fn := (lookup name).map (·.fn P)

end Libo.Expr
