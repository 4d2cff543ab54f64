import Verif.ExprDoc
/-!
# The index of functions and the list of compiled functions (`osc_expr.c` lines 6955-7017 and 7188-7215)

Messages as in `ExprDoc`.  Simplified: the table of functions and the list of categories are parameters, and the table of compiled functions
is the list of its entries in the order of `osc_hashtab_foreach`, each with the text that `%p` gives for it.
-/

namespace Libo.EDoc
open Libo

/-- The chain of `strcmp` in `osc_expr_makeFunctionBundle` (`osc_expr.c` lines 6966-6990). -/
def indexName (s : Bytes) : Bytes :=
  if s = n! "+" then n! "add"
  else if s = n! "-" then n! "sub"
  else if s = n! "*" then n! "mul"
  else if s = n! "/" then n! "div"
  else if s = n! "%" then n! "mod"
  else if s = n! "++" then n! "inc"
  else if s = n! "--" then n! "dec"
  else if s = n! "+=" then n! "addassign"
  else if s = n! "-=" then n! "subassign"
  else if s = n! "*=" then n! "mulassign"
  else if s = n! "/=" then n! "divassign"
  else if s = n! "%=" then n! "modassign"
  else s

/-- The `sprintf` and the message for one category (`osc_expr.c` lines 6991-6993), with a buffer of 128 bytes. -/
def indexMsg (name cat : Bytes) : Option DMsg :=
  let a := n! "/doc/category" ++ cat ++ n! "/" ++ indexName name
  if a.length + 1 ≤ 128 then some (a, [.str name]) else none

/-- The loop over the categories of one function (`osc_expr.c` lines 6963-6995). -/
def indexCats (name : Bytes) : List Bytes → Option (List DMsg)
  | [] => some []
  | c :: cs => (indexMsg name c).bind fun m => (indexCats name cs).map (m :: ·)

/-- `osc_expr_makeFunctionBundle` (`osc_expr.c` lines 6955-6998): names of functions with their categories. -/
def functionIndex : List (Bytes × List Bytes) → Option (List DMsg)
  | [] => some []
  | f :: fs => (indexCats f.1 f.2).bind fun ms => (functionIndex fs).map (ms ++ ·)

/-- `osc_expr_makeCategoryBundle` (`osc_expr.c` lines 7000-7017), before it is serialized. -/
def categoryIndex : List Bytes → Option (List DMsg)
  | [] => some []
  | c :: cs =>
    let a := n! "/doc/category/list" ++ c
    if a.length + 1 ≤ 128 then (categoryIndex cs).map ((a, []) :: ·) else none

/-- The text behind the key in the format (`osc_expr.c` line 7200). -/
def boundText : Bytes := n! " is bound to compil" ++ n! "ed function object "

/-- `osc_expr_doFormatFunctionTable` (`osc_expr.c` lines 7188-7201): the state is the size of the buffer and the text in it. -/
def tableStep (s : Option (Nat × Bytes)) (e : Bytes × Bytes) : Option (Nat × Bytes) :=
  s.bind fun s =>
    let len := if (s.1 : Int) - s.2.length < 64 then s.1 + 256 else s.1
    let line := n! "address " ++ e.1 ++ boundText ++ e.2 ++ [10]
    if s.2.length + line.length + 1 ≤ len then some (len, s.2 ++ line) else none

/-- `osc_expr_formatFunctionTable` (`osc_expr.c` lines 7203-7215): the text, whose length is stored. -/
def formatTable (es : List (Bytes × Bytes)) : Option Bytes := (es.foldl tableStep (some (256, []))).map (·.2)

end Libo.EDoc
