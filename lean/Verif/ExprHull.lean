import Verif.ExprNum
/-!
# Model of the convex hull function of the expression language

From `osc_expr.c`: `osc_expr_quickhull` with `_osc_expr_quickhull`, `osc_expr_qhdist` and `osc_expr_qhwhichside`.  As in `ExprNum.lean`, strings
and blobs are not converted to numbers (`none`).
-/

namespace Libo.Expr
open Libo

/-- `osc_expr_qhdist` (`osc_expr.c` lines 4470-4473). -/
def qhDist (p1 p2 p : Fp × Fp) : Fp :=
  Fp.sub f64 (Fp.mul f64 (Fp.sub f64 p.2 p1.2) (Fp.sub f64 p2.1 p1.1)) (Fp.mul f64 (Fp.sub f64 p2.2 p1.2) (Fp.sub f64 p.1 p1.1))

/-- `osc_expr_qhwhichside` (`osc_expr.c` lines 4475-4484). -/
def qhSide (d : Fp) : Int := if Fp.lt (.fin false 0) d then 1 else if Fp.lt d (.fin false 0) then -1 else 0

/-- The loop that looks for the point farthest from the line on the given side (`osc_expr.c` lines 4488-4498). -/
def qhFar (pt : Nat → Fp × Fp) (n p1 p2 : Nat) (side : Int) : Option Nat :=
  ((List.range n).foldl (fun (s : Option Nat × Fp) i =>
    let d := qhDist (pt p1) (pt p2) (pt i)
    if qhSide d = side ∧ Fp.lt s.2 d.abs = true then (some i, d.abs) else s) (none, .fin false 0)).1

/-- Marking one point: `hulln` and `hull` (`osc_expr.c` lines 4500-4503, 4504-4507). -/
def qhMark (s : Nat × List Bool) (p : Nat) : Nat × List Bool := (if s.2.getD p false then s.1 else s.1 + 1, s.2.set p true)

/-- `_osc_expr_quickhull` (`osc_expr.c` lines 4486-4514).  The number is a bound for the depth of the recursion: deeper recursion is not
modelled (`none`). -/
def qhRec (pt : Nat → Fp × Fp) (n : Nat) : Nat → Nat × List Bool → Nat → Nat → Int → Option (Nat × List Bool)
  | 0, _, _, _, _ => none
  | f + 1, s, p1, p2, side =>
    match qhFar pt n p1 p2 side with
    | none => some (qhMark (qhMark s p1) p2)
    | some i =>
      (qhRec pt n f s i p1 (-qhSide (qhDist (pt p1) (pt p2) (pt i)))).bind fun s =>
        qhRec pt n f s i p2 (-qhSide (qhDist (pt p2) (pt p1) (pt i)))

/-- The leftmost and the rightmost point (`osc_expr.c` lines 4552-4559). -/
def qhEnds (pt : Nat → Fp × Fp) (n : Nat) : Nat × Nat :=
  (List.range' 1 (n - 1)).foldl (fun (s : Nat × Nat) i =>
    if Fp.lt (pt i).1 (pt s.1).1 then (i, s.2) else if Fp.lt (pt s.2).1 (pt i).1 then (s.1, i) else s) (0, 0)

/-- `hulln` and `hull` at the end (`osc_expr.c` lines 4552-4564). -/
def qhHull (pt : Nat → Fp × Fp) (n : Nat) : Option (Nat × List Bool) :=
  (qhRec pt n (n + 1) (0, List.replicate n false) (qhEnds pt n).1 (qhEnds pt n).2 1).bind fun s =>
    qhRec pt n (n + 1) s (qhEnds pt n).1 (qhEnds pt n).2 (-1)

/-- Storing the marked points (`osc_expr.c` lines 4566-4575). -/
def qhStore (pt : Nat → Fp × Fp) (n : Nat) (hull : List Bool) (out : List UAtom) : Option (List UAtom) :=
  ((List.range n).foldlM (fun (s : List UAtom × Nat) i =>
    if hull.getD i false then
      (setTo s.1 (s.2 * 2) (·.setDouble (Fp.toBits f64 (pt i).1))).bind fun o =>
        (setTo o (s.2 * 2 + 1) (·.setDouble (Fp.toBits f64 (pt i).2))).map fun o => (o, s.2 + 1)
    else some s) (out, 0)).map (·.1)

/-- The points (`osc_expr.c` lines 4538-4551): interleaved in one argument, or the coordinates in two. -/
def qhPoint (argv : List Ar) (i : Nat) : Option (Fp × Fp) :=
  (fpOf (if argv.length = 1 then at? (argv.getD 0 none) (i * 2) else at? (argv.getD 0 none) i)).bind fun x =>
    (fpOf (if argv.length = 1 then at? (argv.getD 0 none) (i * 2 + 1) else at? (argv.getD 1 none) i)).map fun y => (x, y)

/-- `osc_expr_quickhull` (`osc_expr.c` lines 4516-4578).  Errors are only reported: the function returns 0 and no list. -/
def quickhull (argv : List Ar) : Res :=
  if argv.length ≠ 1 ∧ argv.length ≠ 2 then some (0, none)
  else if argv.length = 2 ∧ len (argv.getD 0 none) ≠ len (argv.getD 1 none) then some (0, none)
  else
    let n := if argv.length = 1 then len (argv.getD 0 none) / 2 else len (argv.getD 0 none)
    if n < 3 then some (0, none)
    else ((List.range n).mapM (qhPoint argv)).bind fun pts =>
      let pt := fun i => pts.getD i (.nan, .nan)
      (qhHull pt n).bind fun s => (qhStore pt n s.2 (mk (s.1 * 2))).map fun out => (0, some out)

end Libo.Expr
