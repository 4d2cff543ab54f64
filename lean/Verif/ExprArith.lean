import Verif.ExprList
import Verif.Typetag
import Verif.TimeFp
/-!
# Model of the operators of the expression language

`osc_expr_2arg`, `osc_expr_2arg_dbl_dbl`, `osc_expr_1arg_dbl` and the operators `+ - * / < <= > >= == != & | !` of `osc_expr.c`.

An operator gets two atoms (NULL possible) and the atom for its result, and returns a code and the new result; `none` is UB.
Conversion of numbers to strings is not modelled (`none`).  Computation with `double`s is that of `Fp.lean`.
-/

namespace Libo.Expr
open Libo

/-- An operator as `osc_expr_2arg` calls it. -/
abbrev Op := Option UAtom → Option UAtom → UAtom → Option (Int × UAtom)

/-- The loop of `osc_expr_2arg` (`osc_expr.c` lines 2285-2291, 2297-2303, 2309-2315): `n` more elements from `i` on; `x i` and `y i`
are the operands; leaves at the first code that is not 0. -/
def loop2 (f : Op) (x y : Nat → Option UAtom) : Nat → Nat → List UAtom → Res
  | 0, _, out => some (0, some out)
  | n + 1, i, out =>
    (f (x i) (y i) (out.getD i .fresh)).bind fun r =>
      let out := out.set i r.2
      if r.1 ≠ 0 then some (r.1, some out) else loop2 f x y n (i + 1) out

/-- `osc_expr_2arg` (`osc_expr.c` lines 2261-2320). -/
def arg2 (f : Op) : List Ar → Res
  | [a, b] =>
    let mn := if len a > len b then len b else len a
    let mx := if len a > len b then len a else len b
    if len a = 1 then loop2 f (fun _ => at? a 0) (fun i => at? b i) mx 0 (mk mx)
    else if len b = 1 then loop2 f (fun i => at? a i) (fun _ => at? b 0) mx 0 (mk mx)
    else loop2 f (fun i => at? a i) (fun i => at? b i) mn 0 (mk mn)
  | _ => some (1, none)

/-- `osc_expr_2arg_dbl_dbl` (`osc_expr.c` lines 2208-2259), for any conversion `g` of atoms to the bits of a `double` (0 for
NULL) and any function on `double`s: the same loops, with a body that cannot fail. -/
def arg2dd (g : Option UAtom → Option Nat) (func : Nat → Nat → Nat) (argv : List Ar) : Res :=
  arg2 (fun x y r => (g x).bind fun x => (g y).bind fun y => (r.setDouble (func x y)).map fun r => (0, r)) argv

/-- `osc_expr_1arg_dbl` (`osc_expr.c` lines 2189-2206). -/
def arg1d (g : Option UAtom → Option Nat) (func : Nat → Nat) : List Ar → Res
  | [] => none
  | a :: _ =>
    if len a < 1 then some (1, none)
    else (forN (len a) (fun i out => (g (at? a i)).bind fun x => setTo out i (·.setDouble (func x))) (mk (len a))).map fun out =>
      (0, some out)

/-- `osc_atom_u_setString` (`osc_atom_u.c` lines 1110-1133); the number of the new block is arbitrary. -/
def setString (a : UAtom) (s : Bytes) : UAtom :=
  match a with
  | .mk tag alloc w => if w.raw ≠ 0 ∧ tag = 115 ∧ alloc = true then .mk 115 true (.str w.raw s) else .mk 115 true (.str 1 s)

/-- `osc_atom_u_setBool` (`osc_atom_u.c` lines 1145-1156). -/
def setBool (a : UAtom) (b : Bool) : Option UAtom := a.clear.bind fun a => if b then a.setTrue else a.setFalse

/-- `OSC_TYPETAG_ISFLOAT` and `OSC_TYPETAG_ISNUMERIC` (`osc_typetag.h` lines 51 and 55). -/
def isFloat (t : UInt8) : Bool := t == 102 || t == 100
def isNumeric (t : UInt8) : Bool := isFloat t || t == 84 || t == 70 || t == 105 || t == 73 || t == 104 || t == 72 || t == 117 ||
  t == 85 || t == 99 || t == 67

/-- The result of an `int64_t` operation; overflow is UB. -/
def i64 (x : Int) : Option Int := if -9223372036854775808 ≤ x ∧ x < 9223372036854775808 then some x else none

/-- `copyInto(result, other); return 0` for a NULL operand. -/
def copyOp (src : Option UAtom) (r : UAtom) : Option (Int × UAtom) :=
  match src with
  | none => some (0, r)
  | some a => (copyAtom a).map fun a => (0, a)

/-- One case of the switches on the larger type: get both operands with `g`, compute with `f`, store with `s`. -/
def viaInt (g : UAtom → Option Int) (f : Int → Int → Option Int) (s : UAtom → Int → Option UAtom) (a b r : UAtom) :
    Option (Int × UAtom) :=
  (g a).bind fun x => (g b).bind fun y => (f x y).bind fun z => (s r z).map fun r => (0, r)

/-- The switch of `osc_expr_add` (`osc_expr.c` lines 2381-2407); without a case (true and false) the result is untouched. -/
def addInt (tt : UInt8) (a b r : UAtom) : Option (Int × UAtom) :=
  if tt = 105 then viaInt UAtom.getInt32 (fun x y => i32 (x + y)) UAtom.setInt32 a b r
  else if tt = 73 then viaInt UAtom.getUInt32 (fun x y => some (castU M32 (x + y))) UAtom.setUInt32 a b r
  else if tt = 104 then viaInt UAtom.getInt64 (fun x y => i64 (x + y)) UAtom.setInt64 a b r
  else if tt = 72 then viaInt UAtom.getUInt64 (fun x y => some (castU M64 (x + y))) UAtom.setUInt64 a b r
  else if tt = 117 then viaInt UAtom.getInt16 (fun x y => i32 (x + y)) UAtom.setInt16 a b r
  else if tt = 85 then viaInt UAtom.getUInt16 (fun x y => i32 (x + y)) UAtom.setUInt16 a b r
  else if tt = 99 then viaInt UAtom.getInt8 (fun x y => i32 (x + y)) UAtom.setInt8 a b r
  else if tt = 67 then viaInt UAtom.getUInt8 (fun x y => i32 (x + y)) UAtom.setUInt8 a b r
  else some (0, r)

/-- The time tag of an atom that has one: `a->w.t` (`osc_atom_u.c` lines 878-888). -/
def timeOf (a : UAtom) : Timetag := ⟨UInt32.ofNat a.w.raw, UInt32.ofNat (a.w.raw / M32)⟩

/-- `osc_atom_u_getDouble` (`osc_atom_u.c` lines 213-262); strings and blobs are not modelled. -/
def getFp (a : UAtom) : Option Fp :=
  if a.tag = 100 then some (Fp.ofBits f64 (a.w.raw % M64))
  else if a.tag = 102 then some (Fp.conv f32 f64 (Fp.ofBits f32 (a.w.raw % M32)))
  else if a.tag = 105 then some (Fp.ofInt f64 a.w.i)
  else if a.tag = 104 then some (Fp.ofInt f64 a.w.h)
  else if a.tag = 73 then some (Fp.ofInt f64 a.w.I)
  else if a.tag = 115 ∨ a.tag = 98 then none
  else if a.tag = 84 then some (Fp.ofInt f64 1)
  else if a.tag = 70 then some (Fp.ofInt f64 0)
  else if a.tag = 72 then some (Fp.ofInt f64 a.w.H)
  else if a.tag = 99 then some (Fp.ofInt f64 a.w.c)
  else if a.tag = 67 then some (Fp.ofInt f64 a.w.C)
  else if a.tag = 117 then some (Fp.ofInt f64 a.w.u)
  else if a.tag = 85 then some (Fp.ofInt f64 a.w.U)
  else if a.tag = 116 then some (timeToFp (timeOf a))
  else some (Fp.ofInt f64 0)

/-- `osc_atom_u_getFloat` (`osc_atom_u.c` lines 162-211); strings and blobs are not modelled. -/
def getFp32 (a : UAtom) : Option Fp :=
  if a.tag = 102 then some (Fp.ofBits f32 (a.w.raw % M32))
  else if a.tag = 100 then some (Fp.conv f64 f32 (Fp.ofBits f64 (a.w.raw % M64)))
  else if a.tag = 105 then some (Fp.ofInt f32 a.w.i)
  else if a.tag = 104 then some (Fp.ofInt f32 a.w.h)
  else if a.tag = 73 then some (Fp.ofInt f32 a.w.I)
  else if a.tag = 115 ∨ a.tag = 98 then none
  else if a.tag = 84 then some (Fp.ofInt f32 1)
  else if a.tag = 70 then some (Fp.ofInt f32 0)
  else if a.tag = 72 then some (Fp.ofInt f32 a.w.H)
  else if a.tag = 99 then some (Fp.ofInt f32 a.w.c)
  else if a.tag = 67 then some (Fp.ofInt f32 a.w.C)
  else if a.tag = 117 then some (Fp.ofInt f32 a.w.u)
  else if a.tag = 85 then some (Fp.ofInt f32 a.w.U)
  else if a.tag = 116 then some (Fp.conv f64 f32 (timeToFp (timeOf a)))
  else some (Fp.ofInt f32 0)

/-- `osc_atom_u_setDouble(*result, x)`. -/
def putFp (r : UAtom) (x : Fp) : Option (Int × UAtom) := (r.setDouble (Fp.toBits f64 x)).map fun r => (0, r)

/-- Get both operands as `double`s, compute with `f`, store. -/
def viaFp (f : Fp → Fp → Fp) (a b r : UAtom) : Option (Int × UAtom) :=
  (getFp a).bind fun x => (getFp b).bind fun y => putFp r (f x y)

/-- A time tag, or a number of seconds as a time tag (`osc_expr.c` lines 2360-2371, 2447-2452 and 2647-2656). -/
def asTime (a : UAtom) : Option Timetag := if a.tag = 116 then some (timeOf a) else (getFp a).bind fpToTime

/-- `osc_expr_add` (`osc_expr.c` lines 2323-2418). -/
def add : Op
  | none, f2, r => copyOp f2 r
  | some f1, none, r => copyOp (some f1) r
  | some f1, some f2, r =>
    if f1.tag = 115 ∧ f2.tag = 115 then
      match f1.w, f2.w with
      | .str _ s1, .str _ s2 => some (0, setString r (s1 ++ s2))
      | _, _ => none
    else if (f1.tag = 115 ∧ isNumeric f2.tag) ∨ (f2.tag = 115 ∧ isNumeric f1.tag) then none
    else if f1.tag = 116 ∨ f2.tag = 116 then
      if (f1.tag = 116 ∧ f2.tag = 116) ∨ isNumeric f1.tag ∨ isNumeric f2.tag then
        (asTime f1).bind fun t1 => (asTime f2).bind fun t2 => (r.setTimetag (Timetag.add t1 t2)).map fun r => (0, r)
      else some (1, r)
    else if isNumeric f1.tag ∧ isNumeric f2.tag then
      if isFloat f1.tag ∨ isFloat f2.tag then viaFp (Fp.add f64) f1 f2 r
      else (typetagLarger f1.tag f2.tag).bind fun tt => addInt tt f1 f2 r
    else some (1, r)

/-- `osc_expr_subtract` (`osc_expr.c` lines 2420-2465). -/
def subtract : Op
  | none, f2, r => copyOp f2 r
  | some f1, none, r => copyOp (some f1) r
  | some f1, some f2, r =>
    if isNumeric f1.tag ∧ isNumeric f2.tag then
      if isFloat f1.tag ∨ isFloat f2.tag then viaFp (Fp.sub f64) f1 f2 r
      else viaInt UAtom.getInt32 (fun x y => i32 (x - y)) UAtom.setInt32 f1 f2 r
    else if f1.tag = 116 ∨ f2.tag = 116 then
      if f1.tag = 116 ∧ f2.tag = 116 then putFp r (timeToFp (Timetag.subtract (timeOf f1) (timeOf f2)))
      else if isNumeric f1.tag ∨ isNumeric f2.tag then
        (asTime f1).bind fun t1 => (asTime f2).bind fun t2 => (r.setTimetag (Timetag.subtract t1 t2)).map fun r => (0, r)
      else some (1, r)
    else some (1, r)

/-- The switch of `osc_expr_multiply` (`osc_expr.c` lines 2483-2509). -/
def mulInt (tt : UInt8) (a b r : UAtom) : Option (Int × UAtom) :=
  if tt = 105 then viaInt UAtom.getInt32 (fun x y => i32 (x * y)) UAtom.setInt32 a b r
  else if tt = 73 then viaInt UAtom.getUInt32 (fun x y => some (castU M32 (x * y))) UAtom.setUInt32 a b r
  else if tt = 104 then viaInt UAtom.getInt64 (fun x y => i64 (x * y)) UAtom.setInt64 a b r
  else if tt = 72 then viaInt UAtom.getUInt64 (fun x y => some (castU M64 (x * y))) UAtom.setUInt64 a b r
  else if tt = 117 then viaInt UAtom.getInt16 (fun x y => i32 (x * y)) UAtom.setInt16 a b r
  else if tt = 85 then viaInt UAtom.getUInt16 (fun x y => i32 (x * y)) UAtom.setUInt16 a b r
  else if tt = 99 then viaInt UAtom.getInt8 (fun x y => i32 (x * y)) UAtom.setInt8 a b r
  else if tt = 67 then viaInt UAtom.getUInt8 (fun x y => i32 (x * y)) UAtom.setUInt8 a b r
  else some (0, r)

/-- `osc_expr_multiply` (`osc_expr.c` lines 2467-2520). -/
def multiply : Op
  | none, f2, r => copyOp f2 r
  | some f1, none, r => copyOp (some f1) r
  | some f1, some f2, r =>
    if isNumeric f1.tag ∧ isNumeric f2.tag then
      if isFloat f1.tag ∨ isFloat f2.tag then viaFp (Fp.mul f64) f1 f2 r
      else (typetagLarger f1.tag f2.tag).bind fun tt => mulInt tt f1 f2 r
    else some (1, r)

/-- The string `"Inf"`. -/
def infStr : Bytes := [73, 110, 102]

/-- One case of the switch of `osc_expr_divide`: a zero divisor gives the string "Inf"; `f` decides about overflow. -/
def divCase (g : UAtom → Option Int) (f : Int → Option Int) (s : UAtom → Int → Option UAtom) (a b r : UAtom) : Option (Int × UAtom) :=
  (g b).bind fun y =>
    if y = 0 then some (0, setString r infStr)
    else (g a).bind fun x => (f (x.tdiv y)).bind fun z => (s r z).map fun r => (0, r)

/-- The switch of `osc_expr_divide` (`osc_expr.c` lines 2548-2628). -/
def divInt (tt : UInt8) (a b r : UAtom) : Option (Int × UAtom) :=
  if tt = 105 then divCase UAtom.getInt32 i32 UAtom.setInt32 a b r
  else if tt = 73 then divCase UAtom.getUInt32 some UAtom.setUInt32 a b r
  else if tt = 104 then divCase UAtom.getInt64 i64 UAtom.setInt64 a b r
  else if tt = 72 then divCase UAtom.getUInt64 some UAtom.setUInt64 a b r
  else if tt = 117 then divCase UAtom.getInt16 i32 UAtom.setInt16 a b r
  else if tt = 85 then divCase UAtom.getUInt16 i32 UAtom.setUInt16 a b r
  else if tt = 99 then divCase UAtom.getInt8 i32 UAtom.setInt8 a b r
  else if tt = 67 then divCase UAtom.getInt8 i32 UAtom.setInt8 a b r
  else some (0, r)

/-- `osc_expr_divide` (`osc_expr.c` lines 2522-2641). -/
def divide : Op
  | none, f2, r => copyOp f2 r
  | some f1, none, r => copyOp (some f1) r
  | some f1, some f2, r =>
    if isNumeric f1.tag ∧ isNumeric f2.tag then
      if isFloat f1.tag ∨ isFloat f2.tag then
        (getFp f2).bind fun y =>
          if Fp.eq y (.fin false 0) then some (0, setString r infStr)
          else (getFp f1).bind fun x => putFp r (Fp.div f64 x y)
      else (typetagLarger f1.tag f2.tag).bind fun tt => divInt tt f1 f2 r
    else some (1, r)

/-- The sign of `strcmp`, on the bytes as unsigned numbers. -/
def strcmp : Bytes → Bytes → Int
  | [], [] => 0
  | [], _ :: _ => -1
  | _ :: _, [] => 1
  | x :: xs, y :: ys => if x < y then -1 else if y < x then 1 else strcmp xs ys

/-- The frame of the four order comparisons (`osc_expr.c` lines 2662-2690, 2692-2720, 2722-2750, 2752-2780), which differ in: what
they make of the result of `strcmp`, the answers for a string with a number and a number with a string, the comparison of
`double`s, and of time tags (`osc_expr_compareTimetag`, `osc_expr.c` lines 2643-2660). -/
def cmpOp (onStr : Int → Bool) (strNum numStr : Bool) (onDbl : Fp → Fp → Bool) (onTime : Int → Bool) : Op
  | some f1, some f2, r =>
    if f1.tag = 115 ∧ f2.tag = 115 then
      match f1.w, f2.w with
      | .str _ s1, .str _ s2 => (setBool r (onStr (strcmp s1 s2))).map fun r => (0, r)
      | _, _ => none
    else if f1.tag = 115 ∧ isNumeric f2.tag then (setBool r strNum).map fun r => (0, r)
    else if f2.tag = 115 ∧ isNumeric f1.tag then (setBool r numStr).map fun r => (0, r)
    else if isNumeric f1.tag ∧ isNumeric f2.tag then
      (getFp f1).bind fun x => (getFp f2).bind fun y => (setBool r (onDbl x y)).map fun r => (0, r)
    else if (f1.tag = 116 ∨ isNumeric f1.tag) ∧ (f2.tag = 116 ∨ isNumeric f2.tag) then
      (asTime f1).bind fun t1 => (asTime f2).bind fun t2 => (setBool r (onTime (Timetag.compare t1 t2))).map fun r => (0, r)
    else some (1, r)
  | _, _, r => r.setFalse.map fun r => (0, r)

/-- `osc_expr_lt`, `osc_expr_le`, `osc_expr_gt`, `osc_expr_gte`. -/
def lt : Op := cmpOp (· < 0) false true Fp.lt (· == -1)
def le : Op := cmpOp (· ≤ 0) false true Fp.le (· != 1)
def gt : Op := cmpOp (0 < ·) true false (fun x y => Fp.lt y x) (· == 1)
def gte : Op := cmpOp (0 ≤ ·) true false (fun x y => Fp.le y x) (· != -1)

/-- Comparison of two nested bundles by their serialised forms (`osc_expr.c` lines 2803-2818 and 2848-2863). -/
def bndlEq (w1 w2 : W) : Option Bool :=
  match w1, w2 with
  | .bndl _ m1, .bndl _ m2 => (serialize m1).bind fun b1 => (serialize m2).map fun b2 => b1 == b2
  | _, _ => none

/-- `osc_expr_eq` (`osc_expr.c` lines 2782-2827). -/
def eq : Op
  | some f1, some f2, r =>
    if f1.tag = 115 ∧ f2.tag = 115 then
      match f1.w, f2.w with
      | .str _ s1, .str _ s2 => (setBool r (strcmp s1 s2 == 0)).map fun r => (0, r)
      | _, _ => none
    else if isNumeric f1.tag ∧ isNumeric f2.tag then
      (getFp f1).bind fun x => (getFp f2).bind fun y => (setBool r (Fp.eq x y)).map fun r => (0, r)
    else if (f1.tag = 116 ∨ isNumeric f1.tag) ∧ (f2.tag = 116 ∨ isNumeric f2.tag) then
      (asTime f1).bind fun t1 => (asTime f2).bind fun t2 => (setBool r (Timetag.compare t1 t2 == 0)).map fun r => (0, r)
    else if f1.tag = 78 ∧ f2.tag = 78 then (setBool r true).map fun r => (0, r)
    else if f1.tag = 78 ∨ f2.tag = 78 then (setBool r false).map fun r => (0, r)
    else if f1.tag = 46 ∧ f2.tag = 46 then (bndlEq f1.w f2.w).bind fun e => (setBool r e).map fun r => (0, r)
    else some (1, r)
  | _, _, r => r.setFalse.map fun r => (0, r)

/-- `osc_expr_neq` (`osc_expr.c` lines 2829-2870); there is no case for nil. -/
def neq : Op
  | some f1, some f2, r =>
    if f1.tag = 115 ∧ f2.tag = 115 then
      match f1.w, f2.w with
      | .str _ s1, .str _ s2 => (setBool r (strcmp s1 s2 != 0)).map fun r => (0, r)
      | _, _ => none
    else if isNumeric f1.tag ∧ isNumeric f2.tag then
      (getFp f1).bind fun x => (getFp f2).bind fun y => (setBool r (!Fp.eq x y)).map fun r => (0, r)
    else if (f1.tag = 116 ∨ isNumeric f1.tag) ∧ (f2.tag = 116 ∨ isNumeric f2.tag) then
      (asTime f1).bind fun t1 => (asTime f2).bind fun t2 => (setBool r (Timetag.compare t1 t2 != 0)).map fun r => (0, r)
    else if f1.tag = 46 ∧ f2.tag = 46 then (bndlEq f1.w f2.w).bind fun e => (setBool r (!e)).map fun r => (0, r)
    else some (1, r)
  | _, _, r => r.setFalse.map fun r => (0, r)

/-- `osc_expr_and` (`osc_expr.c` lines 2872-2880). -/
def and : Op
  | some f1, some f2, r => (setBool r (getBool (some f1) && getBool (some f2))).map fun r => (0, r)
  | _, _, r => r.setFalse.map fun r => (0, r)

/-- `osc_expr_or` (`osc_expr.c` lines 2882-2894). -/
def or : Op := fun f1 f2 r => (setBool r (getBool f1 || getBool f2)).map fun r => (0, r)

/-- The body of `osc_expr_not` (`osc_expr.c` lines 4086-4115) for one element. -/
def not1 (a r : UAtom) : Option UAtom :=
  if a.tag = 105 ∨ a.tag = 73 ∨ a.tag = 104 ∨ a.tag = 72 then a.getInt32.bind fun x => r.setInt32 (if x = 0 then 1 else 0)
  else if a.tag = 102 ∨ a.tag = 100 then (getFp a).bind fun x => r.setInt32 (if Fp.eq x (.fin false 0) then 1 else 0)
  else if a.tag = 115 ∨ a.tag = 98 ∨ a.tag = 46 then copyAtom a
  else if a.tag = 84 then r.setFalse
  else if a.tag = 70 ∨ a.tag = 78 then r.setTrue
  else r.setFalse

/-- `osc_expr_not` (`osc_expr.c` lines 4080-4118). -/
def not : List Ar → Res
  | [] => none
  | a :: _ =>
    (forN (len a) (fun i out => match at? a i with | none => some out | some x => setTo out i (not1 x)) (mk (len a))).map fun out =>
      (0, some out)

/-- The body of `osc_expr_plus1` (`d = 1`, `osc_expr.c` lines 3143-3165) and `osc_expr_minus1` (`d = -1`, lines 3176-3198) for one
element: `h` is handled as `uint32` and `I` as `int64`. Other types leave the result
untouched. -/
def step1 (d : Int) (a r : UAtom) : Option UAtom :=
  if a.tag = 105 then a.getInt32.bind fun x => (i32 (x + d)).bind fun y => r.setInt32 y
  else if a.tag = 102 then r.setFloat (Fp.toBits f32 (Fp.add f32 (Fp.ofBits f32 (a.w.raw % M32)) (Fp.ofInt f32 d)))
  else if a.tag = 100 then r.setDouble (Fp.toBits f64 (Fp.add f64 (Fp.ofBits f64 (a.w.raw % M64)) (Fp.ofInt f64 d)))
  else if a.tag = 104 then a.getUInt32.bind fun x => r.setUInt32 (castU M32 (x + d))
  else if a.tag = 73 then a.getInt64.bind fun x => (i64 (x + d)).bind fun y => r.setInt64 y
  else if a.tag = 72 then a.getUInt64.bind fun x => r.setUInt64 (castU M64 (x + d))
  else some r

/-- `osc_expr_plus1` and `osc_expr_minus1` (`osc_expr.c` lines 3137-3167, 3169-3200). -/
def addConst (d : Int) : List Ar → Res
  | [] => none
  | a :: _ =>
    (forN (len a) (fun i out => match at? a i with | none => some out | some x => setTo out i (step1 d x)) (mk (len a))).map
      fun out => (0, some out)
def plus1 : List Ar → Res := addConst 1
def minus1 : List Ar → Res := addConst (-1)

end Libo.Expr
