import Verif.Printf
import Verif.Name
/-!
# The documentation of functions (`osc_expr.c` lines 66-68, 7026-7039 and 7063-7186)

A message is its address with its values.  Simplified: a record is a structure here, with strings that are not NULL where C does not test
them, and the messages are made as in `SetsU`, so that only their addresses and values are kept.
-/

namespace Libo.EDoc
open Libo

/-- `osc_expr_typestrings` (`osc_expr.c` line 66): 257 strings, nearly all of them empty. -/
def typestrings : List Bytes :=
  [[], n! "number", n! "list", [], n! "string", [], [], [], n! "atom"] ++ List.replicate 7 [] ++ [n! "expression"] ++ List.replicate 15 [] ++
    [n! "OSC address"] ++ List.replicate 31 [] ++ [n! "boolean"] ++ List.replicate 63 [] ++ [n! "function"] ++ List.replicate 127 [] ++ [n! "timetag"]

/-- `OSC_EXPR_MAX_TYPESTRING_LEN` (`osc_expr.c` line 68). -/
def maxTypestring : Nat :=
  (([1, 2, 4, 8, 16, 32, 64] : List Nat).map fun i => (typestrings.getD i []).length).sum + 1 + 12

/-- One `if(types & mask)` of `osc_expr_formatTypes`; the state is the text so far and whether the format has its comma. -/
def typeStep (types : Nat) (s : Option (Bytes × Bool)) (mask : Nat) : Option (Bytes × Bool) :=
  s.bind fun s =>
    if types &&& mask ≠ 0 then typestrings[types &&& mask]?.map fun t => (s.1 ++ (if s.2 then [44, 32] else []) ++ t, true)
    else some s

/-- `osc_expr_formatTypes` (`osc_expr.c` lines 7147-7186) with a buffer of `OSC_EXPR_MAX_TYPESTRING_LEN` bytes that is then read as a string:
undefined if nothing was written or if text and NUL do not fit. -/
def typesText (types : Nat) : Option Bytes :=
  (([1, 2, 4, 8, 16, 32, 64, 128] : List Nat).foldl (typeStep types) (some ([], false))).bind fun s =>
    if s.2 then if s.1.length + 1 ≤ maxTypestring then some s.1 else none else none

/-- What is documented of a function (`osc_expr_rec.r`). -/
structure DRec where
  name : Bytes
  sig : Bytes
  doc : Bytes
  nreq : Int
  nopt : Int
  req : Option (List (Option Bytes))
  reqTypes : Option (List Nat)
  opt : Option (List (Option Bytes))
  optTypes : Option (List Nat)
  cats : List Bytes

inductive DVal where
  | str (s : Bytes)
  | int (n : Int)
deriving DecidableEq

abbrev DMsg := Bytes × List DVal

/-- A loop over the arguments (`osc_expr.c` lines 7095-7114 and 7115-7134): `n` more from `i` on; `pn` and `pt` are the formats without `%d`. -/
def docArgs (pn pt : Bytes) (names : Option (List (Option Bytes))) (types : Option (List Nat)) : Nat → Nat → Option (List DMsg)
  | 0, _ => some []
  | n + 1, i =>
    match names with
    | none => docArgs pn pt names types n (i + 1)
    | some ns =>
      match ns[i]? with
      | none => none
      | some none => docArgs pn pt names types n (i + 1)
      | some (some s) =>
        (types.bind (·[i]?)).bind fun t => (typesText t).bind fun tt => (docArgs pn pt names types n (i + 1)).map fun rest =>
          (pn ++ Text.dec (i + 1), [.str s]) :: (pt ++ Text.dec (i + 1), [.str tt]) :: rest

/-- The formats (`osc_expr.c` lines 7099, 7105, 7119 and 7125) without `%d`. -/
def pReqName : Bytes := n! "/doc/function/arg/required/name/"
def pReqTypes : Bytes := n! "/doc/function/arg/required/types/"
def pOptName : Bytes := n! "/doc/function/arg/optional/name/"
def pOptTypes : Bytes := n! "/doc/function/arg/optional/types/"

/-- `osc_expr_formatFunctionDoc` (`osc_expr.c` lines 7063-7145) for a record. -/
def formatDoc (r : DRec) : Option (List DMsg) :=
  (docArgs pReqName pReqTypes r.req r.reqTypes r.nreq.toNat 0).bind fun ra =>
    (docArgs pOptName pOptTypes r.opt r.optTypes r.nopt.natAbs 0).map fun oa =>
      [(n! "/doc/function/name", [.str r.name]), (n! "/doc/function/signature", [.str r.sig]), (n! "/doc/function/docstring", [.str r.doc]),
        (n! "/doc/function/num_required_args", [.int r.nreq]), (n! "/doc/function/num_optional_args", [.int r.nopt])] ++ ra ++ oa ++
        [(n! "/doc/function/categories", r.cats.map .str)]

/-- The address that `osc_expr_getFunctionsForCategory` looks up (`osc_expr.c` lines 7026-7039), in a buffer of 128 bytes. -/
def categoryAddr (cat : Bytes) : Option Bytes :=
  let a := if (n! "/doc/category").isPrefixOf cat then cat else n! "/doc/category" ++ cat
  if a.length + 1 ≤ 128 then some a else none

end Libo.EDoc
