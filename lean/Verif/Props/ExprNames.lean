import Verif.Props.ExprBuild
/-!
# C60: the functions and their names

The names under which a function can be called, the number of its required and of its optional arguments (negative: any number), and the
function.
-/

namespace Libo.Props
open Libo Libo.Expr Libo.Text

/-- The functions of the expression language that are modelled. -/
def manual (P : Printf) : List (List Bytes × Nat × Int × Fn) :=
  [([n! "&&", n! "andalso"], 2, 0, .andalso),
   ([n! "apply"], 2, -1, .apply),
   ([n! "=", n! "assign"], 2, 0, .assign),
   ([n! "assigntobundlemember"], 3, 0, .assignMember),
   ([n! "assign_to_index"], 3, 0, .assignToIndex),
   ([n! "bound"], 1, 0, .bound),
   ([n! "if"], 2, 1, .cond),
   ([n! "delete"], 1, -1, .delete),
   ([n! "emptybundle"], 0, 1, .emptybundle),
   ([n! "eval"], 1, 0, .eval),
   ([n! "exists"], 1, 0, .exist),
   ([n! ".", n! "getbundlemember"], 2, 0, .getMember),
   ([n! "getaddresses"], 0, 1, .getaddresses),
   ([n! "getmsgcount"], 0, 0, .getmsgcount),
   ([n! "gettimetag"], 0, 0, .gettimetag),
   ([n! "lreduce"], 2, 1, .lreduce),
   ([n! "map"], 2, -1, .map),
   ([n! "||", n! "orelse"], 2, 0, .orelse),
   ([n! "+", n! "+=", n! "add"], 2, 0, .prim (arg2 add)),
   ([n! "&", n! "and"], 2, 0, .prim (arg2 and)),
   ([n! "/", n! "/=", n! "div"], 2, 0, .prim (arg2 divide)),
   ([n! "==", n! "eq"], 2, 0, .prim (arg2 eq)),
   ([n! ">", n! "gt"], 2, 0, .prim (arg2 gt)),
   ([n! ">=", n! "ge"], 2, 0, .prim (arg2 gte)),
   ([n! "<=", n! "le"], 2, 0, .prim (arg2 le)),
   ([n! "<", n! "lt"], 2, 0, .prim (arg2 lt)),
   ([n! "%", n! "%=", n! "mod"], 2, 0, .prim (arg2 modulo)),
   ([n! "*", n! "*=", n! "mul"], 2, 0, .prim (arg2 multiply)),
   ([n! "!=", n! "ne"], 2, 0, .prim (arg2 neq)),
   ([n! "|", n! "or"], 2, 0, .prim (arg2 or)),
   ([n! "-", n! "-=", n! "sub"], 2, 0, .prim (arg2 subtract)),
   ([n! "jn"], 2, 0, .prim (besselF P (n! "jn"))),
   ([n! "yn"], 2, 0, .prim (besselF P (n! "yn"))),
   ([n! "degtorad"], 0, 0, .prim (constant cDegToRad)),
   ([n! "e"], 0, 0, .prim (constant cE)),
   ([n! "halfpi"], 0, 0, .prim (constant cHalfPi)),
   ([n! "lnten"], 0, 0, .prim (constant cLn10)),
   ([n! "lntwo"], 0, 0, .prim (constant cLn2)),
   ([n! "logtene"], 0, 0, .prim (constant cLog10E)),
   ([n! "logtwoe"], 0, 0, .prim (constant cLog2E)),
   ([n! "oneoverpi"], 0, 0, .prim (constant cOneOverPi)),
   ([n! "phi"], 0, 0, .prim (constant cPhi)),
   ([n! "pi"], 0, 0, .prim (constant cPi)),
   ([n! "quarterpi"], 0, 0, .prim (constant cQuarterPi)),
   ([n! "radtodeg"], 0, 0, .prim (constant cRadToDeg)),
   ([n! "twelfth_root_of_2"], 0, 0, .prim (constant cRoot12)),
   ([n! "thirteenth_root_of_3"], 0, 0, .prim (constant cRoot13)),
   ([n! "sqrttwo"], 0, 0, .prim (constant cSqrt2)),
   ([n! "sqrthalf"], 0, 0, .prim (constant cSqrtHalf)),
   ([n! "twooverpi"], 0, 0, .prim (constant cTwoOverPi)),
   ([n! "twopi"], 0, 0, .prim (constant cTwoPi)),
   ([n! "cast"], 2, 0, .prim (dynamicCast P)),
   ([n! "int16"], 1, 0, .prim (explicitCast P (.int .i16))),
   ([n! "int32"], 1, 0, .prim (explicitCast P (.int .i32))),
   ([n! "int64"], 1, 0, .prim (explicitCast P (.int .i64))),
   ([n! "int8", n! "char"], 1, 0, .prim (explicitCast P (.int .i8))),
   ([n! "uint16"], 1, 0, .prim (explicitCast P (.int .u16))),
   ([n! "uint32"], 1, 0, .prim (explicitCast P (.int .u32))),
   ([n! "uint64"], 1, 0, .prim (explicitCast P (.int .u64))),
   ([n! "uint8"], 1, 0, .prim (explicitCast P (.int .u8))),
   ([n! "bool"], 1, 0, .prim (explicitCast P .bool)),
   ([n! "float32"], 1, 0, .prim (explicitCast P .float32)),
   ([n! "float64"], 1, 0, .prim (explicitCast P .float64)),
   ([n! "string"], 1, 0, .prim (explicitCast P .string)),
   ([n! "join"], 2, -1, .prim (join P)),
   ([n! "l2norm"], 1, 0, .prim (l2norm P)),
   ([n! "ceil"], 1, 0, .prim (math1 (Fp.ceil f64))),
   ([n! "floor"], 1, 0, .prim (math1 (Fp.floor f64))),
   ([n! "acos"], 1, 0, .prim (math1 (lib1 P (n! "acos")))),
   ([n! "acosh"], 1, 0, .prim (math1 (lib1 P (n! "acosh")))),
   ([n! "asin"], 1, 0, .prim (math1 (lib1 P (n! "asin")))),
   ([n! "asinh"], 1, 0, .prim (math1 (lib1 P (n! "asinh")))),
   ([n! "atan"], 1, 0, .prim (math1 (lib1 P (n! "atan")))),
   ([n! "atanh"], 1, 0, .prim (math1 (lib1 P (n! "atanh")))),
   ([n! "cbrt"], 1, 0, .prim (math1 (lib1 P (n! "cbrt")))),
   ([n! "cos"], 1, 0, .prim (math1 (lib1 P (n! "cos")))),
   ([n! "cosh"], 1, 0, .prim (math1 (lib1 P (n! "cosh")))),
   ([n! "erf"], 1, 0, .prim (math1 (lib1 P (n! "erf")))),
   ([n! "erfc"], 1, 0, .prim (math1 (lib1 P (n! "erfc")))),
   ([n! "exp"], 1, 0, .prim (math1 (lib1 P (n! "exp")))),
   ([n! "expm1"], 1, 0, .prim (math1 (lib1 P (n! "expm1")))),
   ([n! "j0"], 1, 0, .prim (math1 (lib1 P (n! "j0")))),
   ([n! "j1"], 1, 0, .prim (math1 (lib1 P (n! "j1")))),
   ([n! "lgamma"], 1, 0, .prim (math1 (lib1 P (n! "lgamma")))),
   ([n! "log"], 1, 0, .prim (math1 (lib1 P (n! "log")))),
   ([n! "log10"], 1, 0, .prim (math1 (lib1 P (n! "log10")))),
   ([n! "sin"], 1, 0, .prim (math1 (lib1 P (n! "sin")))),
   ([n! "sinh"], 1, 0, .prim (math1 (lib1 P (n! "sinh")))),
   ([n! "tan"], 1, 0, .prim (math1 (lib1 P (n! "tan")))),
   ([n! "tanh"], 1, 0, .prim (math1 (lib1 P (n! "tanh")))),
   ([n! "gamma"], 1, 0, .prim (math1 (lib1 P (n! "tgamma")))),
   ([n! "y0"], 1, 0, .prim (math1 (lib1 P (n! "y0")))),
   ([n! "y1"], 1, 0, .prim (math1 (lib1 P (n! "y1")))),
   ([n! "abs"], 1, 0, .prim (math1 Fp.abs)),
   ([n! "logb"], 1, 0, .prim (math1 fpLogb)),
   ([n! "round"], 1, 0, .prim (math1 fpRound)),
   ([n! "sqrt"], 1, 0, .prim (math1 fpSqrt)),
   ([n! "atan2"], 2, 0, .prim (math2 (lib2 P (n! "atan2")))),
   ([n! "hypot"], 2, 0, .prim (math2 (lib2 P (n! "hypot")))),
   ([n! "pow"], 2, 0, .prim (math2 (lib2 P (n! "pow")))),
   ([n! "fmod"], 2, 0, .prim (math2 fpMod)),
   ([n! "remainder"], 2, 0, .prim (math2 fpRemainder)),
   ([n! "median"], 1, 0, .prim (median P.qsort)),
   ([n! "ftom"], 1, 1, .prim (pitch (ftomOf P))),
   ([n! "mtof"], 1, 1, .prim (pitch (mtofOf P))),
   ([n! "sort"], 1, -1, .prim (sortF P.qsort)),
   ([n! "sortidx"], 1, 0, .prim (sortIdx P.qsort)),
   ([n! "split"], 2, 0, .prim (split P)),
   ([n! "strchar"], 2, 0, .prim (strchar P)),
   ([n! "strcmp"], 2, 1, .prim (strcmpF P)),
   ([n! "strfind"], 2, 0, .prim (strfind P)),
   ([n! "strlen"], 1, 0, .prim (strlenF P)),
   ([n! "aseq"], 2, 1, .prim aseq),
   ([n! "bitand"], 2, 0, .prim bitAnd),
   ([n! "bitor"], 2, 0, .prim bitOr),
   ([n! "blob"], 1, 0, .prim blobCast),
   ([n! "bundle"], 0, -1, .prim bundleFn),
   ([n! "butlast"], 1, 0, .prim butlast),
   ([n! "clip"], 3, 0, .prim clip),
   ([n! "cross"], 2, 0, .prim cross),
   ([n! "cumsum"], 1, 0, .prim cumsum),
   ([n! "det"], 1, -1, .prim det),
   ([n! "dot"], 2, 0, .prim dot),
   ([n! "extrema"], 1, 0, .prim extrema),
   ([n! "first"], 1, 0, .prim first),
   ([n! "floattotime"], 1, 0, .prim floattotime),
   ([n! "hton32"], 1, 0, .prim hton32),
   ([n! "hton64"], 1, 0, .prim hton64),
   ([n! "identity"], 1, 0, .prim identity),
   ([n! "ilogb"], 1, 0, .prim ilogbF),
   ([n! "interleave"], 2, -1, .prim interleave),
   ([n! "last"], 1, 0, .prim last),
   ([n! "length"], 1, 0, .prim length),
   ([n! "list"], 0, -1, .prim list),
   ([n! "match"], 2, 0, .prim matchFn),
   ([n! "max"], 1, 0, .prim maximum),
   ([n! "avg", n! "mean"], 1, 0, .prim mean),
   ([n! "min"], 1, 0, .prim minimum),
   ([n! "--", n! "minus1"], 1, 0, .prim minus1),
   ([n! "nfill"], 1, 1, .prim nfill),
   ([n! "nonzero"], 1, 0, .prim nonzero),
   ([n! "!", n! "not"], 1, 0, .prim not),
   ([n! "nth"], 2, -1, .prim nth),
   ([n! "ntoh32"], 1, 0, .prim ntoh32),
   ([n! "ntoh64"], 1, 0, .prim ntoh64),
   ([n! "++", n! "plus1"], 1, 0, .prim plus1),
   ([n! "product"], 1, 0, .prim product),
   ([n! "prog1"], 1, -1, .prim prog1),
   ([n! "prog2"], 1, -1, .prim prog2),
   ([n! "progn"], 1, -1, .prim progn),
   ([n! "quickhull"], 1, 1, .prim quickhull),
   ([n! "range"], 1, 0, .prim rangeOf),
   ([n! "readstring"], 1, 0, .prim readstring),
   ([n! "rest"], 1, 0, .prim rest),
   ([n! "reverse", n! "rev"], 1, 0, .prim reverse),
   ([n! "scale"], 5, 0, .prim scale),
   ([n! "sign"], 1, 0, .prim signF),
   ([n! "strtotime"], 1, 0, .prim strtotime),
   ([n! "sum"], 1, 0, .prim sum),
   ([n! "typetags"], 1, 0, .prim typetags),
   ([n! "quote"], 1, 0, .quote),
   ([n! "rreduce"], 2, 1, .rreduce),
   ([n! "settimetag"], 1, 0, .settimetag),
   ([n! "value"], 1, 0, .value)]

/-- The function with that name takes these arguments and is this one. -/
def Provides (P : Printf) (required : Nat) (optional : Int) (fn : Fn) (name : Bytes) : Prop :=
  ∃ e, lookup name = some e ∧ e.required = required ∧ e.optional = optional ∧ e.fn P = fn

set_option maxRecDepth 8000 in
/-- **C60**: the name of a function finds that function. -/
theorem C60_functions (P : Printf) : ∀ r ∈ manual P, ∀ n ∈ r.1, Provides P r.2.1 r.2.2.1 r.2.2.2 n := by
  simp only [manual, List.forall_mem_cons, List.not_mem_nil, false_imp_iff, implies_true, and_true]
  repeat' apply And.intro
  all_goals exact ⟨_, rfl, rfl, rfl, rfl⟩

/-- Non-vacuity: the list names more than a hundred functions. -/
example (P : Printf) : ((manual P).flatMap (·.1)).length = 192 := rfl

end Libo.Props
