import Verif.ExprNum
/-!
# Model of running sums, vector products and determinants in the expression language

From `osc_expr.c`: `osc_expr_cumsum`, `osc_expr_cross`, `osc_expr_det` with `LUPDecompose` and `LUPDeterminant`.  As in `ExprNum.lean`, strings and blobs are not converted to numbers (`none`).
-/

namespace Libo.Expr
open Libo

/-- How the code computes with the elements of one type: conversion of an atom to it, the operators, and storing. -/
structure Arith where
  α : Type
  zero : α
  get : UAtom → Option α
  add : α → α → Option α
  sub : α → α → Option α
  mul : α → α → Option α
  put : α → UAtom → Option UAtom

/-- `int8_t`, `uint8_t`, `int16_t` and `uint16_t` are promoted to `int`; the conversion back is done by the setter, or in `cumsum` by the
assignment. -/
def promoted (get : UAtom → Option Int) (cast : Int → Int) (put : UAtom → Int → Option UAtom) : Arith :=
  ⟨Int, 0, get, fun x y => (i32 (x + y)).map cast, fun x y => i32 (x - y), fun x y => i32 (x * y), fun x a => put a x⟩

/-- Signed integers (overflow is undefined) and unsigned integers. -/
def signedInt (get : UAtom → Option Int) (chk : Int → Option Int) (put : UAtom → Int → Option UAtom) : Arith :=
  ⟨Int, 0, get, fun x y => chk (x + y), fun x y => chk (x - y), fun x y => chk (x * y), fun x a => put a x⟩
def unsignedInt (get : UAtom → Option Int) (m : Nat) (put : UAtom → Int → Option UAtom) : Arith :=
  ⟨Int, 0, get, fun x y => some (castU m (x + y)), fun x y => some (castU m (x - y)), fun x y => some (castU m (x * y)), fun x a => put a x⟩

/-- `float` and `double`. -/
def floating (F : Fmt) (get : UAtom → Option Fp) (put : UAtom → Nat → Option UAtom) : Arith :=
  ⟨Fp, .fin false 0, get, fun x y => some (Fp.add F x y), fun x y => some (Fp.sub F x y), fun x y => some (Fp.mul F x y),
    fun x a => put a (Fp.toBits F x)⟩

/-- The arithmetic for a type tag. -/
def arithOf (t : UInt8) : Option Arith :=
  if t = 99 then some (promoted UAtom.getInt8 (castS M8) UAtom.setInt8)
  else if t = 67 then some (promoted UAtom.getUInt8 (castU M8) UAtom.setUInt8)
  else if t = 117 then some (promoted UAtom.getInt16 (castS M16) UAtom.setInt16)
  else if t = 85 then some (promoted UAtom.getUInt16 (castU M16) UAtom.setUInt16)
  else if t = 105 then some (signedInt UAtom.getInt32 i32 UAtom.setInt32)
  else if t = 73 then some (unsignedInt UAtom.getUInt32 M32 UAtom.setUInt32)
  else if t = 104 then some (signedInt UAtom.getInt64 i64 UAtom.setInt64)
  else if t = 72 then some (unsignedInt UAtom.getUInt64 M64 UAtom.setUInt64)
  else if t = 102 then some (floating f32 getFp32 UAtom.setFloat)
  else if t = 100 then some (floating f64 getFp UAtom.setDouble)
  else none

/-- The switch of `osc_expr_cumsum` on the type tag of an element (`osc_expr.c` lines 3449-3500). -/
def cumConst (t : UInt8) : Nat :=
  if t = 99 then 0x1 else if t = 67 then 0x2 else if t = 117 then 0x4 else if t = 85 then 0x8 else if t = 73 then 0x20
  else if t = 104 then 0x40 else if t = 72 then 0x80 else if t = 102 then 0x100 else if t = 100 then 0x200 else 0x10

/-- The second switch (`osc_expr.c` lines 3505-3628). -/
def cumType (n : Nat) : UInt8 :=
  if n = 0x1 then 99 else if n = 0x2 then 67 else if n = 0x4 then 117 else if n = 0x8 then 85 else if n = 0x20 then 73
  else if n = 0x40 then 104 else if n = 0x80 then 72 else if n = 0x100 then 102 else if n = 0x200 then 100 else 105

/-- The loops of the cases of `osc_expr_cumsum` (for example `osc_expr.c` lines 3508-3517). -/
def cumLoop (A : Arith) (n : Nat) (argv : List Ar) : Option (List UAtom) :=
  (foldAll (fun (s : List UAtom × Nat × A.α) a => (a.bind A.get).bind fun x => (A.add s.2.2 x).bind fun y =>
    (setTo s.1 s.2.1 (A.put y)).map fun out => (out, s.2.1 + 1, y)) (mk n, 0, A.zero) argv).map (·.1)

/-- `osc_expr_cumsum` (`osc_expr.c` lines 3431-3667). -/
def cumsum (argv : List Ar) : Res :=
  (foldAll (fun (s : Nat × Nat) a => (some (s.1 + 1, if cumConst (tagOf a) > s.2 then cumConst (tagOf a) else s.2))) (0, 0) argv).bind fun s =>
    (arithOf (cumType s.2)).bind fun A => (cumLoop A s.1 argv).map fun out => (0, some out)

/-- `osc_expr_cross_int8` and so on (`osc_expr.c` lines 4146-4284). -/
def crossIn (A : Arith) (p q : Ar) : Option (List UAtom) :=
  let g (r : Ar) (i : Nat) : Option A.α := (at? r i).bind A.get
  let d (p q r s : A.α) : Option A.α := (A.mul p q).bind fun u => (A.mul r s).bind fun v => A.sub u v
  (g p 0).bind fun a => (g p 1).bind fun b => (g p 2).bind fun c => (g q 0).bind fun x => (g q 1).bind fun y => (g q 2).bind fun z =>
    (d b z c y).bind fun u => (d c x a z).bind fun v => (d a y b x).bind fun w =>
      (setTo (mk 3) 0 (A.put u)).bind fun out => (setTo out 1 (A.put v)).bind fun out => setTo out 2 (A.put w)

/-- `osc_expr_cross` (`osc_expr.c` lines 4286-4321). -/
def cross : List Ar → Res
  | [p, q] =>
    if len p ≠ 3 ∨ len q ≠ 3 then some (1, none)
    else (getLargestType [p.getD [], q.getD []]).bind fun t =>
      match arithOf t with
      | none => some (1, some (mk 3))
      | some A => (crossIn A p q).map fun out => (0, some out)
  | _ => some (1, none)

/-- A matrix of `double`s; only rows and columns below its size are used. -/
abbrev Mat := Nat → Nat → Fp

/-- The search for the pivot in `LUPDecompose` (`osc_expr.c` lines 4333-4340): the largest magnitude so far and its row. -/
def findPivot (A : Mat) (i N : Nat) : Fp × Nat :=
  (List.range (N - i)).foldl (fun s k => if Fp.lt s.1 (A (i + k) i).abs then ((A (i + k) i).abs, i + k) else s) (.fin false 0, i)

/-- Exchange of two rows (lines 4351-4353). -/
def swapRows (A : Mat) (i j : Nat) : Mat := fun r => if r = i then A j else if r = j then A i else A r

/-- `osc_expr.c` lines 4359-4364.  Row `i` does not change, every cell below it is assigned once, and the factor of a row before the other cells of the row,
so that the loops are written as one matrix. -/
def eliminate (A : Mat) (i N : Nat) : Mat := fun r c =>
  if i < r ∧ r < N then
    let q := Fp.div f64 (A r i) (A i i)
    if c = i then q else if i < c ∧ c < N then Fp.sub f64 (A r c) (Fp.mul f64 q (A i c)) else A r c
  else A r c

/-- One round of `LUPDecompose` (`osc_expr.c` lines 4332-4365).  Of the array `P` only `P[N] - N`, the number of exchanges, is used. -/
def lupStep (N : Nat) (s : Mat × Nat) (i : Nat) : Mat × Nat :=
  let j := (findPivot s.1 i N).2
  if j ≠ i then (eliminate (swapRows s.1 i j) i N, s.2 + 1) else (eliminate s.1 i N, s.2)

/-- `LUPDecompose` (`osc_expr.c` lines 4324-4368) with a tolerance of 0: no magnitude is less than 0, so it never fails (line 4342). -/
def lupDecompose (A : Mat) (N : Nat) : Mat × Nat := (List.range N).foldl (lupStep N) (A, 0)

/-- `LUPDeterminant` (`osc_expr.c` lines 4370-4378). -/
def lupDeterminant (s : Mat × Nat) (N : Nat) : Fp :=
  let d := (List.range (N - 1)).foldl (fun d i => Fp.mul f64 d (s.1 (i + 1) (i + 1))) (s.1 0 0)
  if s.2 % 2 = 0 then d else d.neg

/-- The cells of the matrix. -/
def cellsOf (argv : List Ar) (n : Nat) : Option (List (List Fp)) :=
  argv.mapM fun a => (List.range n).mapM fun j => fpOf (at? a j)

/-- The determinant as computed from the cells (`osc_expr.c` lines 4388, 4398, 4415, 4438-4439). -/
def detOf (n : Nat) (A : Mat) : Fp :=
  let m := Fp.mul f64
  let p := Fp.add f64
  let s := Fp.sub f64
  if n = 1 then A 0 0
  else if n = 2 then s (m (A 0 0) (A 1 1)) (m (A 0 1) (A 1 0))
  else if n = 3 then
    s (s (s (p (p (m (m (A 0 0) (A 1 1)) (A 2 2)) (m (m (A 0 1) (A 1 2)) (A 2 0))) (m (m (A 0 2) (A 1 0)) (A 2 1)))
      (m (m (A 0 2) (A 1 1)) (A 2 0))) (m (m (A 0 1) (A 1 0)) (A 2 2))) (m (m (A 0 0) (A 1 2)) (A 2 1))
  else lupDeterminant (lupDecompose A n) n

/-- `osc_expr_det` (`osc_expr.c` lines 4380-4452).  With one argument only its first element is used. -/
def det (argv : List Ar) : Res :=
  if argv = [] then some (1, none)
  else if argv.length ≠ 1 ∧ argv.any (fun a => len a ≠ argv.length) then some (1, some (mk 1))
  else (cellsOf argv argv.length).bind fun rows =>
    (setTo (mk 1) 0 (·.setDouble (Fp.toBits f64 (detOf argv.length fun r c => (rows.getD r []).getD c .nan)))).map fun out => (0, some out)

end Libo.Expr
