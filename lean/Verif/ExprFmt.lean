import Verif.TextFmt
/-!
# The text of expressions: `osc_expr_format` (`osc_expr.c` lines 6867-6953)

What the parser made of a program is a list of expressions; each is written on a line of its own in prefix form, the name of the
function first.  Modelled is the writing into the block `*fmt` that `osc_expr_format` allocates itself (`*fmt` is NULL), with the growth
of that block.  `sprintf` does not know where the block ends: writing beyond it is `none`.
-/

namespace Libo.Expr
open Libo.Text

mutual
/-- An expression as far as the formatter looks at it: `t_osc_expr` (`osc_expr.h`), the name of its record and its list of arguments. -/
inductive FExpr where
  | mk (name : Bytes) (args : List FArg)
/-- `t_osc_expr_arg` with its five types (`osc_expr.h`, `OSC_EXPR_ARG_TYPE_*`): an atom, a list of atoms, an address, an expression, a
function with the names of its parameters and the expressions of its body. -/
inductive FArg where
  | atom (a : UAtom)
  | list (as : List UAtom)
  | addr (s : Bytes)
  | expr (e : FExpr)
  | fn (ps : List Bytes) (body : List FExpr)
end

/-- A step that writes at a place of a block and tells where the next one goes on. -/
abbrev Pen := Nat → Bytes → Option (Nat × Bytes)

/-- `ptr += sprintf(ptr, …)`: the text and a NUL at place `p` of the block, which must have room for both. -/
def sprintfAt (t : Bytes) : Pen := fun p b =>
  if p + t.length + 1 ≤ b.length then some (p + t.length, b.take p ++ (t ++ 0 :: b.drop (p + t.length + 1))) else none

/-- Two statements in sequence. -/
def penSeq (f g : Pen) : Pen := fun p b => (f p b).bind fun (q, c) => g q c

/-- The text of an atom, `osc_expr.c` lines 6879-6882 and 6890-6893: the length first, then the text in an array of that length and one,
read up to its NUL by `%s`.  Simplified: the array, which C leaves uninitialised, starts with zeros. -/
def atomText (P : Printf) (a : UAtom) : Option Bytes :=
  (lenAtom P 0 a).bind fun n =>
    (putAtom P 0 a (List.replicate (n + 1) 0) (n + 1)).bind fun (_, b) => cstr b 0

/-- One atom and a space (`osc_expr.c` lines 6878-6884 and 6889-6894). -/
def fmtAtom (P : Printf) (a : UAtom) : Pen := fun p b => (atomText P a).bind fun t => sprintfAt (t ++ [32]) p b

/-- The loop over the atoms of a list (`osc_expr.c` lines 6888-6895). -/
def fmtAtoms (P : Printf) : List UAtom → Pen
  | [] => fun p b => some (p, b)
  | a :: as => penSeq (fmtAtom P a) (fmtAtoms P as)

/-- The loop over the names of the parameters (`osc_expr.c` lines 6910-6916): a comma and a space, after the last one a parenthesis and
a space. -/
def fmtParams : List Bytes → Pen
  | [] => fun p b => some (p, b)
  | [s] => sprintfAt (s ++ [41, 32])
  | s :: t :: l => penSeq (sprintfAt (s ++ [44, 32])) (fmtParams (t :: l))

mutual
/-- `osc_expr_format_r` (`osc_expr.c` lines 6867-6930): the name, the arguments, and `ptr--` before the closing parenthesis (lines
6927-6928). -/
def fmtExpr (P : Printf) : FExpr → Pen
  | .mk name args =>
    penSeq (penSeq (sprintfAt ([40] ++ name ++ [32])) (fmtArgs P args)) (fun p b => sprintfAt [41, 32] (p - 1) b)
/-- The `switch` over the type of an argument (`osc_expr.c` lines 6876-6924). -/
def fmtArg (P : Printf) : FArg → Pen
  | .atom a => fmtAtom P a
  | .list as => fmtAtoms P as
  | .addr s => sprintfAt (s ++ [32])
  | .expr e => fmtExpr P e
  | .fn ps body =>
    penSeq (penSeq (penSeq (sprintfAt [40, 108, 97, 109, 98, 100, 97, 32, 40]) (fmtParams ps)) (fmtBody P body)) (sprintfAt [41, 32])
/-- The loop over the arguments (`osc_expr.c` lines 6874-6926). -/
def fmtArgs (P : Printf) : List FArg → Pen
  | [] => fun p b => some (p, b)
  | a :: as => penSeq (fmtArg P a) (fmtArgs P as)
/-- The loop over the expressions of a body (`osc_expr.c` lines 6917-6921). -/
def fmtBody (P : Printf) : List FExpr → Pen
  | [] => fun p b => some (p, b)
  | e :: es => penSeq (fmtExpr P e) (fmtBody P es)
end

/-- `osc_mem_resize` of a block (`osc_mem.c`): what is there stays; the new bytes are zeros here, in C they are not initialised. -/
def growTo (b : Bytes) (n : Nat) : Bytes := b.take n ++ List.replicate (n - b.length) 0

/-- The loop of `osc_expr_format` (`osc_expr.c` lines 6938-6950).  The block grows only while fewer than 256 bytes are written. -/
def formatLoop (P : Printf) : List FExpr → Nat → Nat → Bytes → Option (Nat × Bytes)
  | [], _, pos, b => some (pos, b)
  | e :: es, size, pos, b =>
    let b := if pos < 256 then growTo b (size + 256) else b
    (penSeq (fmtExpr P e) (sprintfAt [10]) pos b).bind fun (pos, b) => formatLoop P es (size + 256) pos b

/-- `osc_expr_format` (`osc_expr.c` lines 6932-6953) with `*fmt` NULL: `*buflen` and the block `*fmt`. -/
def formatExprs (P : Printf) (es : List FExpr) : Option (Nat × Bytes) := formatLoop P es 512 0 (List.replicate 512 0)

end Libo.Expr
