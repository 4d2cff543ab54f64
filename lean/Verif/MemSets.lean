import Verif.MemExplode
/-!
# Union and intersection of bundles in memory (`osc_bundle_u_union`, `osc_bundle_u_intersection`) and the bound test

Simplifications: the iterators are not blocks; the argument count is unbounded; a message without an address in one of the two sources is a
crash (the code hands NULL to `osc_match`, if there is a message to compare with).
-/

namespace Libo.Mem
open Libo

/-- `osc_bundle_u_getMsgCount` (`osc_bundle_u.c` lines 107-113). -/
def msgCountU : Ptr → M Int
  | none => pure 0
  | some b => bndlAt b >>= fun c => pure c.count

/-- `osc_bundle_u_addressExists` with `fullmatch` for the bundle at `b` (`osc_bundle_u.c` lines 134-160). -/
def existsIn (b : Nat) (s : Bytes) : M Bool := bndlAt b >>= fun c => fuel >>= fun f => addressExists s f c.head

/-- Copy and append, unless the address is there already (`osc_bundle_u.c` lines 558-563 and 588-593). -/
def addIfNew (o : Nat) (s : Bytes) (p : Nat) : M Unit := existsIn o s >>= fun b =>
  if b then pure () else deepCopy none p >>= fun x => addMsg o x

/-- The inner loop of `osc_bundle_u_union` (`osc_bundle_u.c` lines 554-564). -/
def unionLoop (o : Nat) : Nat → Ptr → M Unit
  | _, none => pure ()
  | 0, some _ => crash
  | f + 1, some p => msgAt p >>= fun c => deref c.addr >>= fun q => strAt q >>= fun s => addIfNew o s p >>= fun _ =>
    msgAt p >>= fun c => unionLoop o f c.next

/-- The two rounds of the outer loop of `osc_bundle_u_union` (`osc_bundle_u.c` lines 552-566); a NULL bundle has no messages. -/
def unionFrom (o : Nat) : Ptr → M Unit
  | none => pure ()
  | some b => bndlAt b >>= fun c => fuel >>= fun f => unionLoop o f c.head

/-- `osc_bundle_u_union` (`osc_bundle_u.c` lines 541-568). -/
def unionU (p1 p2 out : Ptr) : M Nat := destOr out bndlAlloc >>= fun o =>
  msgCountU p1 >>= fun n1 => msgCountU p2 >>= fun n2 =>
    if n1 = 0 ∧ n2 = 0 then pure o else unionFrom o p1 >>= fun _ => unionFrom o p2 >>= fun _ => pure o

/-- The loop of `osc_bundle_u_intersection` (`osc_bundle_u.c` lines 581-595). -/
def interLoop (o b2 : Nat) : Nat → Ptr → M Unit
  | _, none => pure ()
  | 0, some _ => crash
  | f + 1, some p => msgAt p >>= fun c => deref c.addr >>= fun q => strAt q >>= fun s => existsIn b2 s >>= fun b =>
    (if b then addIfNew o s p else pure ()) >>= fun _ => msgAt p >>= fun c => interLoop o b2 f c.next

/-- `osc_bundle_u_intersection` (`osc_bundle_u.c` lines 570-598). -/
def interU (p1 p2 out : Ptr) : M Nat := destOr out bndlAlloc >>= fun o =>
  msgCountU p1 >>= fun n1 => msgCountU p2 >>= fun n2 =>
    if n1 = 0 ∨ n2 = 0 then pure o else
      match p1, p2 with
      | some b1, some b2 => bndlAt b1 >>= fun c => fuel >>= fun f => interLoop o b2 f c.head >>= fun _ => pure o
      | _, _ => pure o

/-- The loop of `osc_bundle_u_addressIsBound` with `fullmatch` (`osc_bundle_u.c` lines 162-188) from the message `p` on. -/
def boundLoop (s : Bytes) : Nat → Ptr → M Bool
  | _, none => pure false
  | 0, some _ => crash
  | f + 1, some p => msgAt p >>= fun c =>
    match c.addr with
    | none => boundLoop s f c.next
    | some q => fullMatch s q >>= fun b => if b then pure (decide (c.argc > 0)) else boundLoop s f c.next

/-- `osc_bundle_u_addressIsBound` with `fullmatch` (`osc_bundle_u.c` lines 162-188). -/
def isBoundU (b : Nat) (s : Bytes) : M Bool := bndlAt b >>= fun c => fuel >>= fun f => boundLoop s f c.head

/-- The loop of `osc_bundle_u_getFirstFullMatch` (`osc_bundle_u.c` lines 190-210) from the message `p` on. -/
def firstLoop (s : Bytes) : Nat → Ptr → M Ptr
  | _, none => pure none
  | 0, some _ => crash
  | f + 1, some p => msgAt p >>= fun c =>
    match c.addr with
    | none => firstLoop s f c.next
    | some q => fullMatch s q >>= fun b => if b then pure (some p) else firstLoop s f c.next

/-- `osc_bundle_u_getFirstFullMatch` (`osc_bundle_u.c` lines 190-210). -/
def firstFullMatchU (b : Nat) (s : Bytes) : M Ptr := bndlAt b >>= fun c => fuel >>= fun f => firstLoop s f c.head

end Libo.Mem
