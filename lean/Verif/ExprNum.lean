import Verif.ExprEval
import Verif.ExprArith
/-!
# Model of the numerical functions of the expression language

From `osc_expr.c`: `osc_expr_min`, `osc_expr_max`, `osc_expr_extrema`, `osc_expr_range`, `osc_expr_clip`, `osc_expr_scale`, `osc_expr_sign`,
`osc_expr_product`, `osc_expr_sum`, `osc_expr_mean`, `osc_expr_dot`, `osc_expr_mod`, `osc_expr_aseq`, `osc_expr_1arg_dbl` and
`osc_expr_2arg_dbl_dbl` with the functions of the C library that are exact: `fabs`, `floor`, `ceil`, `round`, `fmod`.

As in `ExprArith.lean`, strings and blobs are not converted to numbers (`none`).
-/

namespace Libo.Expr
open Libo

/-- `osc_atom_u_getDouble` (`osc_atom_u.c` lines 213-262), with 0 for NULL. -/
def fpOf : Option UAtom → Option Fp
  | none => some (.fin false 0)
  | some a => getFp a

/-- `DBL_MAX`. -/
def dblMax : Fp := .fin false ((2 ^ 53 - 1) * 2 ^ 2045)

/-- The loops of `osc_expr_min` and `osc_expr_max` (`osc_expr.c` lines 4589-4595 and 4610-4616): an element that is `better` than the best so
far, or as good, replaces it.  The state is the number and the element. -/
def pick (better : Fp → Fp → Bool) (init : Fp) (a : Ar) : Option (Fp × Option UAtom) :=
  forN (len a) (fun i s => (fpOf (at? a i)).map fun f => if better f s.1 then (f, at? a i) else s) (init, none)

/-- `osc_expr_min` (`osc_expr.c` lines 4580-4599). -/
def minimum : List Ar → Res
  | [] => some (0, none)
  | a :: _ => (pick Fp.le dblMax a).bind fun s => (copyTo (mk 1) 0 s.2).map fun out => (0, some out)

/-- `osc_expr_max` (`osc_expr.c` lines 4601-4620). -/
def maximum : List Ar → Res
  | [] => some (0, none)
  | a :: _ => (pick (fun f m => Fp.le m f) dblMax.neg a).bind fun s => (copyTo (mk 1) 0 s.2).map fun out => (0, some out)

/-- The loop of `osc_expr_extrema` (`osc_expr.c` lines 4631-4641) and `osc_expr_range` (lines 4660-4672). -/
def pick2 (a : Ar) : Option ((Fp × Option UAtom) × (Fp × Option UAtom)) :=
  forN (len a) (fun i s => (fpOf (at? a i)).map fun f =>
    (if Fp.le f s.1.1 then (f, at? a i) else s.1, if Fp.le s.2.1 f then (f, at? a i) else s.2)) ((dblMax, none), (dblMax.neg, none))

/-- `osc_expr_extrema` (`osc_expr.c` lines 4622-4647). -/
def extrema : List Ar → Res
  | [] => some (0, none)
  | a :: _ => (pick2 a).bind fun s => (copyTo (mk 2) 0 s.1.2).bind fun out => (copyTo out 1 s.2.2).map fun out => (0, some out)

/-- Conversion of a `double` to `int32_t`. -/
def toI32 (x : Fp) : Option Int := Fp.toInt f64 (-2147483648) 2147483648 x

/-- `osc_atom_u_setDouble(r, x)` or `osc_atom_u_setInt32(r, x)`. -/
def putNum (dbl : Bool) (x : Fp) (r : UAtom) : Option UAtom :=
  if dbl then r.setDouble (Fp.toBits f64 x) else (toI32 x).bind fun n => r.setInt32 n

/-- The test for `'f'` and `'d'`. -/
def fd (t : UInt8) : Bool := t == 102 || t == 100

/-- `osc_expr_range` (`osc_expr.c` lines 4649-4680).  The types are `'i'` before the first element (lines 4656-4657). -/
def rangeOf : List Ar → Res
  | [] => some (0, none)
  | a :: _ => (pick2 a).bind fun s =>
    let t (x : Option UAtom) : UInt8 := if x = none then 105 else tagOf x
    (setTo (mk 1) 0 (putNum (fd (t s.1.2) || fd (t s.2.2)) (Fp.sub f64 s.2.1 s.1.1))).map fun out => (0, some out)

/-- The elements that `osc_expr_clip` and `osc_expr_scale` only copy (`osc_expr.c` lines 4710, 4762, 4782). -/
def copied (t : UInt8) : Bool := t == 115 || t == 84 || t == 70 || t == 78 || t == 98 || t == 46

/-- The frame of the loops of `osc_expr_clip` (`osc_expr.c` lines 4708-4727) and `osc_expr_scale` (lines 4760-4772, 4780-4795): numbers are
transformed with `f`. -/
def mapNum (fl : Bool) (f : Fp → Fp) (a : Ar) : Res :=
  (forN (len a) (fun i out =>
    let t := tagOf (at? a i)
    if copied t then copyTo out i (at? a i)
    else (fpOf (at? a i)).bind fun x => setTo out i (putNum (fd t || fl) (f x))) (mk (len a))).map fun out => (0, some out)

/-- The comparisons of `osc_expr_clip` (`osc_expr.c` lines 4716-4721). -/
def clipTo (mn mx x : Fp) : Fp :=
  let x := if Fp.lt x mn then mn else x
  if Fp.lt mx x then mx else x

/-- `osc_expr_clip` (`osc_expr.c` lines 4682-4728). -/
def clip : List Ar → Res
  | [a, b, c] =>
    (fpOf (at? b 0)).bind fun mn => (fpOf (at? c 0)).bind fun mx =>
      mapNum (fd (tagOf (at? b 0)) || fd (tagOf (at? c 0))) (clipTo mn mx) a
  | _ => some (1, none)

/-- The computation of `osc_expr_scale` (`osc_expr.c` lines 4757-4789). -/
def scaleTo (mnIn mxIn mnOut mxOut x : Fp) : Fp :=
  if Fp.eq mxOut mnOut then mnOut
  else
    let m := Fp.div f64 (Fp.sub f64 mxOut mnOut) (Fp.sub f64 mxIn mnIn)
    let b := Fp.sub f64 mnOut (Fp.mul f64 m mnIn)
    Fp.add f64 (Fp.mul f64 m x) b

/-- `osc_expr_scale` (`osc_expr.c` lines 4730-4797). -/
def scale : List Ar → Res
  | [a, b, c, d, e] =>
    (fpOf (at? b 0)).bind fun mnIn => (fpOf (at? c 0)).bind fun mxIn => (fpOf (at? d 0)).bind fun mnOut => (fpOf (at? e 0)).bind fun mxOut =>
      mapNum (fd (tagOf (at? b 0)) || fd (tagOf (at? c 0)) || fd (tagOf (at? d 0)) || fd (tagOf (at? e 0))) (scaleTo mnIn mxIn mnOut mxOut) a
  | _ => some (1, none)

/-- `_osc_expr_sign` (`osc_expr.c` lines 4860-4869). -/
def signOf (x : Fp) : Int := if Fp.eq x (.fin false 0) then 0 else if Fp.lt x (.fin false 0) then -1 else 1

/-- `osc_expr_sign` (`osc_expr.c` lines 4871-4888). -/
def signF : List Ar → Res
  | [] => none
  | a :: _ => (forN (len a) (fun i out => (fpOf (at? a i)).bind fun x => setTo out i (·.setInt32 (signOf x))) (mk (len a))).map fun out =>
    (0, some out)

/-- The loops over all elements of all arguments in `osc_expr_product` (`osc_expr.c` lines 3360-3371) and `osc_expr_sum` (lines 3397-3412). -/
def foldAll {σ : Type} (f : σ → Option UAtom → Option σ) (s : σ) (argv : List Ar) : Option σ :=
  argv.foldlM (fun s a => forN (len a) (fun i s => f s (at? a i)) s) s

/-- The choice of the type of the result in `osc_expr_product` (`osc_expr.c` lines 3375-3385) and `osc_expr_sum` (lines 3416-3426).  The
constants are compared as `double`s: 0x7fffffffffffffff and 0xffffffffffffffff become 2^63 and 2^64. -/
def putWhole (x : Fp) (r : UAtom) : Option UAtom :=
  if Fp.le x (Fp.ofInt f64 2147483647) then (toI32 x).bind fun n => r.setInt32 n
  else if Fp.le x (Fp.ofInt f64 4294967295) then (Fp.toInt f64 0 4294967296 x).bind fun n => r.setUInt32 n
  else if Fp.le x (Fp.ofInt f64 9223372036854775807) then (Fp.toInt f64 (-9223372036854775808) 9223372036854775808 x).bind fun n => r.setInt64 n
  else if Fp.le x (Fp.ofInt f64 18446744073709551615) then (Fp.toInt f64 0 18446744073709551616 x).bind fun n => r.setUInt64 n
  else r.setDouble (Fp.toBits f64 x)

/-- `osc_expr_product` (`osc_expr.c` lines 3353-3388); `doubleup` is never set. -/
def product (argv : List Ar) : Res :=
  (foldAll (fun s a => (fpOf a).map fun x => Fp.mul f64 s x) (Fp.ofInt f64 1) argv).bind fun x =>
    (setTo (mk 1) 0 (putWhole x)).map fun out => (0, some out)

/-- `osc_expr_sum` (`osc_expr.c` lines 3390-3429). -/
def sum (argv : List Ar) : Res :=
  (foldAll (fun s a => (fpOf a).map fun x => (Fp.add f64 s.1 x, s.2 || isFloat (tagOf a))) (Fp.ofInt f64 0, false) argv).bind fun s =>
    (setTo (mk 1) 0 (if s.2 then fun r => r.setDouble (Fp.toBits f64 s.1) else putWhole s.1)).map fun out => (0, some out)

/-- `osc_expr_mean` (`osc_expr.c` lines 3682-3694). -/
def mean : List Ar → Res
  | [] => none
  | a :: _ =>
    (forN (len a) (fun i s => (fpOf (at? a i)).map fun x => Fp.add f64 s x) (Fp.ofInt f64 0)).bind fun s =>
      (setTo (mk 1) 0 (·.setDouble (Fp.toBits f64 (Fp.div f64 s (Fp.ofInt f64 (len a)))))).map fun out => (0, some out)

/-- `osc_expr_dot` (`osc_expr.c` lines 4120-4144). -/
def dot : List Ar → Res
  | a :: b :: _ =>
    (forN (if len a < len b then len a else len b) (fun i s => (fpOf (at? a i)).bind fun x => (fpOf (at? b i)).map fun y =>
      Fp.add f64 s (Fp.mul f64 x y)) (Fp.ofInt f64 0)).bind fun s =>
      (setTo (mk 1) 0 (·.setDouble (Fp.toBits f64 s))).map fun out => (0, some out)
  | _ => some (0, none)

/-- `_osc_expr_fmod` (`osc_expr.c` lines 3065-3068). -/
def fmodOf (x m : Fp) : Fp :=
  Fp.sub f64 x (Fp.mul f64 (Fp.mul f64 m (Fp.ofInt f64 (signOf m))) (Fp.floor f64 (Fp.div f64 x m.abs)))

/-- `osc_expr_mod` (`osc_expr.c` lines 3070-3115). -/
def modulo : Op
  | none, _, r => (r.setInt32 0).map fun r => (0, r)
  | some f1, none, r => copyOp (some f1) r
  | some f1, some f2, r =>
    (getFp f1).bind fun x => (getFp f2).bind fun y =>
      if Fp.eq y (.fin false 0) then copyOp (some f1) r
      else (putNum (fd f1.tag || fd f2.tag) (fmodOf x y) r).map fun r => (0, r)

/-- The loop of `osc_expr_aseq` (`osc_expr.c` lines 3987-3998). -/
def aseqLoop (dbl : Bool) (step : Fp) (n : Nat) (start : Fp) : Option (List UAtom) :=
  (forN n (fun i s => (setTo s.1 i (putNum dbl s.2)).map fun out => (out, Fp.add f64 s.2 step)) (mk n, start)).map (·.1)

/-- `osc_expr_aseq` (`osc_expr.c` lines 3931-4000).  The addition of 1 to the number of elements may overflow. -/
def aseq : List Ar → Res
  | a :: b :: rest =>
    let third := rest.head?
    let third := third.map fun c => at? c 0
    let dbl := fd (tagOf (at? a 0)) || fd (tagOf (at? b 0)) || (third.map fun c => fd (tagOf c)).getD false
    (fpOf (at? a 0)).bind fun start => (fpOf (at? b 0)).bind fun stop =>
      if Fp.eq start stop then (copyTo (mk 1) 0 (at? a 0)).map fun out => (0, some out)
      else
        let dir := signOf (Fp.sub f64 stop start)
        (match third with | none => some (Fp.ofInt f64 dir) | some c => fpOf c).bind fun step =>
          if Fp.eq step (.fin false 0) then some (1, none)
          else if dir ≠ signOf step then some (1, none)
          else
            let mn := if Fp.lt stop start then stop else start
            let mx := if Fp.lt stop start then start else stop
            (toI32 (Fp.div f64 (Fp.sub f64 mx mn) step.abs)).bind fun k => (i32 (k + 1)).bind fun n =>
              (aseqLoop dbl step n.toNat start).map fun out => (0, some out)
  | _ => some (1, none)

/-- `round(x)`: to the nearest whole number, halves away from zero. -/
def fpRound : Fp → Fp
  | .fin s m => .fin s ((m + 2 ^ 1073) / 2 ^ 1074 * 2 ^ 1074)
  | x => x

/-- `fmod(x, y)` of the C library: exact. -/
def fpMod : Fp → Fp → Fp
  | .nan, _ => .nan
  | _, .nan => .nan
  | .inf _, _ => .nan
  | .fin s m, .inf _ => .fin s m
  | .fin s m, .fin _ n => if n = 0 then .nan else .fin s (m % n)

/-- `osc_expr_1arg_dbl` (`osc_expr.c` lines 2189-2206) with a function of the C library. -/
def math1 (f : Fp → Fp) : List Ar → Res := arg1d (fun a => (fpOf a).map (Fp.toBits f64)) fun b => Fp.toBits f64 (f (Fp.ofBits f64 b))

/-- `osc_expr_2arg_dbl_dbl` (`osc_expr.c` lines 2208-2259) with a function of the C library. -/
def math2 (f : Fp → Fp → Fp) : List Ar → Res :=
  arg2dd (fun a => (fpOf a).map (Fp.toBits f64)) fun b c => Fp.toBits f64 (f (Fp.ofBits f64 b) (Fp.ofBits f64 c))

end Libo.Expr
