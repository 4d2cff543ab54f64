import Verif.MemEdit
import Verif.Match
/-!
# Exploding addresses into nested bundles (`osc_bundle_u_explode`, `osc_message_u_explode`)

Simplifications: the iterators are not blocks; the elements of the message array that `osc_bundle_u_lookupAddress` makes are
blocks of their own and freed one by one; `maxlevel` and the lengths are unbounded; the recursion may be `f` calls deep (a call
that needs more crashes).
-/

namespace Libo.Mem
open Libo

/-- `osc_match(pattern, address) == (OSC_MATCH_ADDRESS_COMPLETE | OSC_MATCH_PATTERN_COMPLETE)` for the address at `q`
(`osc_bundle_u.c` lines 145-149 and 231-235). -/
def fullMatch (pat : Bytes) (q : Nat) : M Bool := do
  let t ← strAt q
  let r ← ofOpt (Match.oscMatch pat t)
  pure (decide (r.code = 3))

/-- `osc_bundle_u_addressExists` with `fullmatch` (`osc_bundle_u.c` lines 134-160) from the message `p` on. -/
def addressExists (s : Bytes) : Nat → Ptr → M Bool
  | _, none => pure false
  | 0, some _ => crash
  | f + 1, some p => msgAt p >>= fun c =>
    match c.addr with
    | none => addressExists s f c.next
    | some q => fullMatch s q >>= fun b => if b then pure true else addressExists s f c.next

/-- `osc_bundle_u_lookupAddress` with `fullmatch` (`osc_bundle_u.c` lines 212-248) from the message `p` on: copies of all messages
that match. -/
def lookupLoop (s : Bytes) : Nat → Ptr → M (List Nat)
  | _, none => pure []
  | 0, some _ => crash
  | f + 1, some p => msgAt p >>= fun c => deref c.addr >>= fun q => fullMatch s q >>= fun b =>
    if b then do
      let x ← deepCopy none p
      let l ← lookupLoop s f c.next
      pure (x :: l)
    else lookupLoop s f c.next

/-- The loop of `osc_message_array_u_free` (`osc_message_u.c` lines 1159-1167), with the element itself. -/
def msgElemsFree : List Nat → M Unit
  | [] => pure ()
  | x :: xs => do
    clearArgs x
    let c ← msgAt x
    whenSome c.addr free
    free x
    msgElemsFree xs

/-- `osc_message_array_u_free` (`osc_message_u.c` lines 1154-1170). -/
def msgArrFree (r : Nat) : M Unit := do
  let l ← arrAt r
  msgElemsFree l
  free r

/-- `osc_message_u_appendBndl_u` (`osc_message_u.c` lines 483-489). -/
def appendBndl (p b : Nat) : M Unit := do
  let a ← atomAlloc
  setBndlU a b
  appendAtom p a

/-- The loop `while(i < alen){ i++; if(a[i] == *s) break; }` (`osc_message_u.c` lines 858-863). -/
def cutLoop (c : UInt8) (a : Bytes) : Nat → Nat → Nat
  | 0, i => i
  | n + 1, i => if i < a.length then if a[i + 1]? = some c then i + 1 else cutLoop c a n (i + 1) else i

/-- Where the first part of the address ends (`osc_message_u.c` lines 854-863). -/
def cut (c : UInt8) (a : Bytes) : Nat := cutLoop c a a.length (if a.head? = some c then 1 else 0)

/-- The address without its first part (`osc_message_u.c` lines 903-913 and 940-950). -/
def restAddr (a : Bytes) (i : Nat) : Bytes :=
  if a[i]? = some 47 then a.drop i
  else if a[i + 1]? = some 47 then a.drop (i + 1)
  else 47 :: a.drop i

/-- The bundle of a message that has just one, otherwise a new one; the arguments of the message are cleared
(`osc_message_u.c` lines 880-902). -/
def openOnly (p : Nat) : M Nat := msgAt p >>= fun c =>
  if c.argc ≠ 1 then do
    clearArgs p
    bndlAlloc
  else getArg p 0 >>= fun x => deref x >>= fun a => atomAt a >>= fun y =>
    if y.tag ≠ 46 then do
      clearArgs p
      bndlAlloc
    else do
      let b ← getPtr a 46
      let b ← deref b
      let bb ← bndlCopy b
      clearArgs p
      pure bb

/-- The message for the first part of the address if there is one already, without arguments, and its bundle
(`osc_message_u.c` lines 875-902). -/
def reopen (d : Nat) (s : Bytes) : M (Nat × Nat) := do
  let c ← bndlAt d
  let k ← fuel
  let l ← lookupLoop s k c.head
  let r ← new (.arr l)
  let x ← ofOpt l.head?
  let p ← deepCopy none x
  msgArrFree r
  let b ← openOnly p
  pure (p, b)

/-- A new message for the first part of the address and a new bundle (`osc_message_u.c` lines 937-939). -/
def afresh (s : Bytes) : M (Nat × Nat) := do
  let b ← bndlAlloc
  let p ← msgAlloc
  setAddress p (some s)
  pure (p, b)

/-- `osc_message_u_explode_impl` (`osc_message_u.c` lines 845-968); `sep` is the first character of the separator, or a slash. -/
def explodeImpl (maxlevel : Int) (sep : UInt8) : Nat → Int → Nat → Nat → M Unit
  | 0, _, _, _ => crash
  | f + 1, level, d, p =>
    if level ≥ maxlevel ∧ maxlevel ≥ 0 then addMsg d p
    else msgAt p >>= fun c => deref c.addr >>= fun q => strAt q >>= fun a => bndlAt d >>= fun b => fuel >>= fun k =>
      addressExists (a.take (cut sep a)) k b.head >>= fun ex =>
      if a.drop (cut sep a) = [] then
        if ex then addMsgWithoutDups d p else addMsg d p
      else (if ex then reopen d (a.take (cut sep a)) else afresh (a.take (cut sep a))) >>= fun x => do
        setAddress p (some (restAddr a (cut sep a)))
        explodeImpl maxlevel sep f (level + 1) x.2 p
        appendBndl x.1 x.2
        addMsgWithoutDups d x.1

/-- `osc_message_u_explode` (`osc_message_u.c` lines 970-976). -/
def explodeMsg (maxlevel : Int) (sep : UInt8) (f : Nat) (d src : Nat) : M Unit := do
  let p ← deepCopy none src
  explodeImpl maxlevel sep f 0 d p

/-- The loop of `osc_bundle_u_explode` (`osc_bundle_u.c` lines 529-537). -/
def explodeLoop (maxlevel : Int) (sep : UInt8) (f : Nat) (d : Nat) : Nat → Ptr → M Unit
  | _, none => pure ()
  | 0, some _ => crash
  | k + 1, some p => do
    explodeMsg maxlevel sep f d p
    let c ← msgAt p
    explodeLoop maxlevel sep f d k c.next

/-- `osc_bundle_u_explode` (`osc_bundle_u.c` lines 518-540) for a source that is not NULL. -/
def explode (maxlevel : Int) (sep : UInt8) (f : Nat) (dest : Ptr) (src : Nat) : M Nat := do
  let d ← destOr dest bndlAlloc
  let c ← bndlAt src
  let k ← fuel
  explodeLoop maxlevel sep f d k c.head
  pure d

end Libo.Mem
