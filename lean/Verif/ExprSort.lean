import Verif.ExprNum
import Verif.TextFmt
/-!
# Model of the sorting functions of the expression language

From `osc_expr.c`: `osc_expr_sort`, `osc_expr_sortidx`, `osc_expr_median` with their comparison functions.  How `qsort` of the C library sorts
is a parameter (`Printf.qsort`, applied to positions instead of the elements); C leaves the behaviour undefined if the comparison function does
not order the array, and then the result is `none`.
-/

namespace Libo.Expr
open Libo

/-- The requirement of C (C11 7.22.5, paragraph 4) for the comparison function, on an array of `n` elements: it orders them.  Elements are not
compared with themselves. -/
def orders (n : Nat) (c : Nat → Nat → Int) : Bool :=
  (List.range n).all fun i => (List.range n).all fun j => i == j || ((c i j).sign == -(c j i).sign &&
    (List.range n).all fun k => k == i || k == j || !(decide (c i j ≤ 0) && decide (c j k ≤ 0)) || decide (c i k ≤ 0))

/-- `qsort` on an array of `n` elements: where the elements of the result were before. -/
def sortBy (q : Nat → (Nat → Nat → Int) → List Nat) (n : Nat) (c : Nat → Nat → Int) : Option (List Nat) :=
  if orders n c then some (q n c) else none

/-- `osc_expr_qsortcb` (`osc_expr.c` lines 3748-3770) with `onNum` for the comparison of numbers (lines 3761-3767), and `osc_expr_qsortIndexcb`
(lines 3799-3817) with its own (line 3814). -/
def compareAtoms (onNum : Fp → Fp → Int) (a b : UAtom) : Option Int :=
  if a.tag = 115 ∧ b.tag = 115 then
    match a.w, b.w with
    | .str _ s, .str _ t => some (strcmp s t)
    | _, _ => none
  else if a.tag = 115 then some 1
  else if b.tag = 115 then some (-1)
  else (getFp a).bind fun x => (getFp b).map fun y => onNum x y

/-- `osc_expr.c` lines 3763-3767. -/
def sortNum (x y : Fp) : Int := if Fp.lt x y then -1 else 1

/-- `osc_expr.c` line 3814. -/
def indexNum (x y : Fp) : Int := if Fp.lt x y then -1 else if Fp.lt y x then 1 else 0

/-- All comparisons of the elements of an array are defined. -/
def comparable (onNum : Fp → Fp → Int) (ar : List UAtom) : Bool := ar.all fun a => ar.all fun b => (compareAtoms onNum a b).isSome

/-- The comparison of the elements at two positions. -/
def compareAt (onNum : Fp → Fp → Int) (ar : List UAtom) (i j : Nat) : Int :=
  ((ar[i]?.bind fun a => ar[j]?.bind fun b => compareAtoms onNum a b)).getD 0

/-- `osc_expr_sort` (`osc_expr.c` lines 3772-3790). -/
def sortF (q : Nat → (Nat → Nat → Int) → List Nat) (argv : List Ar) : Res :=
  ((argv.flatMap fun a => a.getD []).mapM copyAtom).bind fun ar =>
    if comparable sortNum ar then
      (sortBy q ar.length (compareAt sortNum ar)).map fun p => (0, some (p.filterMap fun i => ar[i]?))
    else none

/-- `osc_expr_sortidx` (`osc_expr.c` lines 3819-3850).  An array of length 0 on the stack (line 3831) is undefined. -/
def sortIdx (q : Nat → (Nat → Nat → Int) → List Nat) : List Ar → Res
  | [] => none
  | a :: _ =>
    if len a = 0 then none
    else ((a.getD []).mapM copyAtom).bind fun ar =>
      if comparable indexNum ar then
        (sortBy q ar.length (compareAt indexNum ar)).bind fun p =>
          (forN (len a) (fun i out => setTo out i (·.setInt32 (p.getD i 0))) (mk (len a))).map fun out => (0, some out)
      else none

/-- `comp` (`osc_expr.c` lines 3699-3709). -/
def medianNum (x y : Fp) : Int := if Fp.lt x y then -1 else if Fp.eq x y then 0 else 1

/-- `osc_expr_median` (`osc_expr.c` lines 3711-3733).  For an empty list it reads behind the end of an array (lines 3722-3723). -/
def median (q : Nat → (Nat → Nat → Int) → List Nat) : List Ar → Res
  | [] => none
  | a :: _ =>
    ((List.range (len a)).mapM fun i => fpOf (at? a i)).bind fun xs =>
      (sortBy q (len a) (fun i j => medianNum (xs.getD i .nan) (xs.getD j .nan))).bind fun p =>
        let tmp := p.filterMap fun i => xs[i]?
        if len a = 0 then none
        else
          (if len a % 2 = 0 then
            (tmp[(len a - 1) / 2]?).bind fun left => (tmp[(len a - 1) / 2 + 1]?).map fun right =>
              Fp.div f64 (Fp.add f64 left right) (Fp.ofInt f64 2)
          else tmp[(len a - 1) / 2]?).bind fun x =>
            (setTo (mk 1) 0 (·.setDouble (Fp.toBits f64 x))).map fun out => (0, some out)

end Libo.Expr
