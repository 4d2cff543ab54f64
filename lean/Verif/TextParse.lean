import Verif.TextScan
/-!
# Model of the parser for the text form of bundles (`osc_parser.y`)

bison makes a parser that accepts exactly the sentences of the grammar and runs the actions of their derivation.  The grammar has one
token of lookahead, and the model is the corresponding recursive descent; `TextSpec.lean` has the grammar itself, with its actions, and
`Props.C55` says that they are the same.  Not modelled: which bundle is left behind after a syntax error.
-/

namespace Libo.Text
open Libo

mutual
/-- `messages` (`osc_parser.y` lines 203-209). -/
def pMsgs (E : Env) : Nat → List Tok → Option (List UMsg × List Tok)
  | 0, _ => none
  | f + 1, ts =>
    match pMsg E f ts with
    | some (m, .chr 44 :: r) => (pMsgs E f r).map fun (ms, r) => (m :: ms, r)
    | some (m, r) => some ([m], r)
    | none => none
/-- `message` and `list` (`osc_parser.y` lines 211-243 and 264-268). -/
def pMsg (E : Env) : Nat → List Tok → Option (UMsg × List Tok)
  | 0, _ => none
  | f + 1, .addr a :: .chr 58 :: .chr 91 :: r =>
    match pData E f r with
    | some (as, .chr 93 :: r) => some (.mk (some a) as, r)
    | _ => none
  | f + 1, .addr a :: .chr 58 :: r => (pDatum E f r).map fun (x, r) => (.mk (some a) [x], r)
  | _ + 1, .addr a :: r => some (.mk (some a) [], r)
  | _ + 1, _ => none
/-- `data` (`osc_parser.y` lines 245-251). -/
def pData (E : Env) : Nat → List Tok → Option (List UAtom × List Tok)
  | 0, _ => none
  | f + 1, ts =>
    match pDatum E f ts with
    | some (x, .chr 44 :: r) => (pData E f r).map fun (xs, r) => (x :: xs, r)
    | some (x, r) => some ([x], r)
    | none => none
/-- `datum` and `subbundle` (`osc_parser.y` lines 190-201 and 254-262). -/
def pDatum (E : Env) : Nat → List Tok → Option (UAtom × List Tok)
  | 0, _ => none
  | _ + 1, .addr a :: r => some (strAtom E a, r)
  | _ + 1, .val x :: r => some (x, r)
  | _ + 1, .chr 123 :: .chr 125 :: r => some (UAtom.fresh.setBndlU E.ptr [], r)
  | f + 1, .chr 123 :: r =>
    match pMsgs E f r with
    | some (ms, .chr 125 :: r) => some (UAtom.fresh.setBndlU E.ptr ms, r)
    | _ => none
  | _ + 1, _ => none
end

/-- `bundle` (`osc_parser.y` lines 180-188): the messages and the end of the input. -/
def parse (E : Env) (ts : List Tok) : Option (List UMsg) :=
  match pMsgs E (4 * ts.length + 4) ts with
  | some (ms, []) => some ms
  | _ => none

/-- `osc_parser_parseString` (`osc_parser.y` lines 107-138): the bundle, or `none` for `OSC_ERR_PARSER`. -/
def parseString (E : Env) (s : Bytes) : Option (List UMsg) := (scan E 0 false none s).bind (parse E)

end Libo.Text
