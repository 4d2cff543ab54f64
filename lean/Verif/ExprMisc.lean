import Verif.ExprStr
import Verif.ExprCast
import Verif.IsoText
import Verif.Match
/-!
# Model of the functions `readstring`, `strtotime`, `floattotime`, `match` and `bundle` of the expression language

From `osc_expr.c`, with `osc_message_u_allocWithAddress`, `osc_message_u_allocWithString` and `osc_message_u_appendString` of
`osc_message_u.c`.  An argument that is not there (`argv[0]` without arguments) is `none`.
-/

namespace Libo.Expr
open Libo

/-- `osc_atom_u_getStringPtr` of an atom with the tag `'s'`; `some none` for other atoms and for NULL. -/
def strPtrOf : Option UAtom → Option (Option Bytes)
  | some (.mk tag _ w) =>
    if tag = 115 then
      match w with
      | .str _ s => some (some s)
      | _ => none
    else some none
  | none => some none

/-- `osc_expr_readstring` (`osc_expr.c` lines 6218-6237). -/
def readstring : List Ar → Res
  | [a] =>
    if len a > 1 then some (1, none)
    else (strPtrOf (at? a 0)).bind fun
      | none => some (1, none)
      | some s => some (0, some [setString .fresh s])
  | [] => none
  | _ => some (1, none)

/-- `osc_expr_strtotime` (`osc_expr.c` lines 6239-6259): a wrong number of arguments is only reported. -/
def strtotime : List Ar → Res
  | a :: _ =>
    if len a > 1 then some (1, none)
    else (strPtrOf (at? a 0)).bind fun
      | none => some (1, none)
      | some s => (Iso.fromISO8601 s).bind fun t => (UAtom.fresh.setTimetag t).map fun u => (0, some [u])
  | [] => none

/-- `osc_expr_floattotime` (`osc_expr.c` lines 6261-6280): a wrong number of arguments is only reported. -/
def floattotime : List Ar → Res
  | a :: _ =>
    if len a > 1 then some (1, none)
    else
      match at? a 0 with
      | none => some (1, none)
      | some x =>
        if x.tag ≠ 102 ∧ x.tag ≠ 100 then some (1, none)
        else (getFp x).bind fun d => (fpToTime d).bind fun t => (UAtom.fresh.setTimetag t).map fun u => (0, some [u])
  | [] => none

/-! ### `match` -/

/-- Where an address goes. -/
inductive Verdict where
  | full | partly | not
  deriving DecidableEq

/-- The decision for one address (`osc_expr.c` lines 6306-6316). -/
def matchOne (pat addr : Bytes) : Option Verdict :=
  (Match.oscMatch pat addr).bind fun r =>
    if r.code &&& 1 ≠ 0 ∧ r.code &&& 2 ≠ 0 then some .full
    else if r.po > 0 then (Match.ch pat r.po).map fun c => if c = 47 then .partly else .not
    else some .not

/-- The loop over the addresses: `full`, `partial` and `matches` (`osc_expr.c` lines 6299-6317). -/
def matchLoop (pat : Bytes) : List UAtom → Option (List UAtom × List UAtom × List Bool)
  | [] => some ([], [], [])
  | a :: as => (strPtrOf (some a)).bind fun
    | none => (matchLoop pat as).map fun (f, p, m) => (f, p, false :: m)
    | some s => (matchOne pat s).bind fun v => (matchLoop pat as).map fun (f, p, m) =>
      match v with
      | .full => (setString .fresh s :: f, p, true :: m)
      | .partly => (f, setString .fresh s :: p, true :: m)
      | .not => (f, p, false :: m)

/-- The second loop over the addresses: `unmatched` (`osc_expr.c` lines 6318-6327). -/
def unmatchedLoop : List UAtom → List Bool → Option (List UAtom)
  | a :: as, m :: ms =>
    if m then unmatchedLoop as ms
    else (strPtrOf (some a)).bind fun
      | none => unmatchedLoop as ms
      | some s => (unmatchedLoop as ms).map (setString .fresh s :: ·)
  | _, _ => some []

/-- The bundle for one pattern (`osc_expr.c` lines 6292-6332).  Without addresses there would be an array of no elements on the stack
(`none`). -/
def matchBundle (pat : Bytes) (addrs : List UAtom) : Option (List UMsg) :=
  if addrs.isEmpty then none
  else (matchLoop pat addrs).bind fun (f, p, m) => (unmatchedLoop addrs m).map fun u =>
    [.mk (newAddress [47, 112, 97, 116, 116, 101, 114, 110]) [setString .fresh pat],
     .mk (newAddress [47, 102, 117, 108, 108]) f,
     .mk (newAddress [47, 112, 97, 114, 116, 105, 97, 108]) p,
     .mk (newAddress [47, 117, 110, 109, 97, 116, 99, 104, 101, 100]) u]

/-- The element for one pattern: patterns that are not strings are left out, their element stays as it is (`osc_expr.c` lines 6291-6333). -/
def matchElem (addrs : List UAtom) (x : UAtom) : Option UAtom :=
  (strPtrOf (some x)).bind fun
    | none => some UAtom.fresh
    | some pat => (matchBundle pat addrs).map fun ms => UAtom.fresh.setBndlU newPtr ms

/-- `osc_expr_match` (`osc_expr.c` lines 6282-6336).  A wrong number of arguments is only reported. -/
def matchFn : List Ar → Res
  | a :: b :: _ => ((a.getD []).mapM (matchElem (b.getD []))).map fun out => (0, some out)
  | _ => none

/-! ### `bundle` -/

/-- The bytes of a list (`osc_expr.c` lines 6412-6420), padded with zeros. -/
def bundleBytes (as : List UAtom) : Option Bytes :=
  (as.mapM fun (a : UAtom) => a.getInt32.map fun n => UInt8.ofNat (n % 256).toNat).map fun b => b ++ zeros ((4 - b.length % 4) % 4)

/-- The loop over the arguments (`osc_expr.c` lines 6427-6442): addresses and lists take turns; `some none` if an address is not a string. -/
def bundleLoop : List Ar → Option (Option (List UMsg))
  | [] => some (some [])
  | [a] => (strPtrOf (at? a 0)).map fun s => s.map fun s => [.mk (newAddress s) []]
  | a :: b :: rest => (strPtrOf (at? a 0)).bind fun
    | none => some none
    | some s => ((b.getD []).mapM copyAtom).bind fun args => (bundleLoop rest).map fun ms => ms.map fun ms => .mk (newAddress s) args :: ms

/-- `osc_expr_bundle` (`osc_expr.c` lines 6384-6449).  An empty list would be an array of no bytes on the stack (`none`). -/
def bundleFn : List Ar → Res
  | [a] =>
    match a.getD [] with
    | [] => none
    | [.mk tag al w] =>
      if tag = 98 then
        (getBlobCopy tag w).bind fun b =>
          (deserBundle (b.length + 1) (b.length - 4) b).map fun ms => (0, some [UAtom.fresh.setBndlU newPtr ms])
      else (strPtrOf (some (.mk tag al w))).bind fun
        | none => some (1, some (mk 1))
        | some s => some (0, some [UAtom.fresh.setBndlU newPtr [.mk (newAddress s) []]])
    | as => (bundleBytes as).bind fun b => (deserialize b).map fun ms => (0, some [UAtom.fresh.setBndlU newPtr ms])
  | argv => (bundleLoop argv).map fun
    | none => (1, none)
    | some ms => (0, some [UAtom.fresh.setBndlU newPtr ms])

end Libo.Expr
