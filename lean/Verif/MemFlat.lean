import Verif.MemEdit
/-!
# Flattening nested bundles (`osc_bundle_u_flatten` in `osc_bundle_u.c`)

The atoms of the copied message are removed and freed while an iterator stands on them: after `osc_atom_u_free(a)` (line 488) the
iterator reads `a->next` (`osc_message_iterator_u.c` line 59), which is undefined.  The model has both: with `keep` the member
`next` of an atom that was just freed can still be read (nothing is allocated in between, and common allocators overwrite only the
first 16 bytes of a freed block, while `next` is at byte 40); without it this is a crash.  Simplifications: the iterators are not
blocks; the lengths of the addresses are unbounded (`int` in C).
-/

namespace Libo.Mem
open Libo

/-- The settings of a call that do not change in the recursion. -/
structure Flat where
  keep : Bool
  maxlevel : Int
  sep : Bytes
  remove : Bool

/-- `level < maxlevel || maxlevel <= 0` (`osc_bundle_u.c` line 451). -/
def Flat.deeper (o : Flat) (level : Int) : Bool := decide (level < o.maxlevel) || decide (o.maxlevel ≤ 0)

/-- `prefix`, separator and address (`osc_bundle_u.c` lines 466-468 and 495-497), or the address alone (line 481).
The address may be NULL only if there is no prefix. -/
def joinAddr (o : Flat) (pfx : Option Bytes) (p : Nat) : M (Option Bytes) := msgAt p >>= fun c =>
  match pfx with
  | none => optStr c.addr
  | some s => do
    let q ← deref c.addr
    let t ← strAt q
    pure (some (s ++ o.sep ++ t))

/-- `osc_atom_u_free(a)`, and then `a->next`. -/
def freeNext (o : Flat) (a : Nat) : M Ptr :=
  if o.keep then do
    let c ← atomAt a
    let f ← fuel
    atomFree f a
    pure c.next
  else do
    let f ← fuel
    atomFree f a
    let c ← atomAt a
    pure c.next

/-- The new address of a message (`osc_bundle_u.c` lines 494-499). -/
def rename (o : Flat) (pfx : Option Bytes) (p : Nat) : M Unit :=
  match pfx with
  | none => pure ()
  | some _ => do
    let s ← joinAddr o pfx p
    setAddress p s

/-- What happens to the copy of a message without its bundles (`osc_bundle_u.c` lines 493-503). -/
def settle (o : Flat) (d : Nat) (pfx : Option Bytes) (p : Nat) : M Unit := msgAt p >>= fun c =>
  if o.remove = false ∨ c.argc > 0 then do
    rename o pfx p
    addMsgWithoutDups d p
  else do
    let f ← fuel
    msgFree f p

mutual
/-- `osc_bundle_u_flatten_impl` (`osc_bundle_u.c` lines 432-507) from the message `p` of the source on. -/
def flatMsgs (o : Flat) (d : Nat) : Nat → Int → Option Bytes → Ptr → M Unit
  | _, _, _, none => pure ()
  | 0, _, _, some _ => crash
  | f + 1, level, pfx, some p => do
    let q ← deepCopy none p
    let c ← msgAt q
    cond (o.deeper level) (flatArgs o d f level pfx q c.head) (pure ())
    settle o d pfx q
    let c ← msgAt p
    flatMsgs o d f level pfx c.next
/-- The inner loop (lines 453-490) from the atom `a` of the copied message `q` on. -/
def flatArgs (o : Flat) (d : Nat) : Nat → Int → Option Bytes → Nat → Ptr → M Unit
  | _, _, _, _, none => pure ()
  | 0, _, _, _, some _ => crash
  | f + 1, level, pfx, q, some a => atomAt a >>= fun c =>
    if c.tag = 46 then do
      removeAtom q a
      let b ← getPtr a 46
      let s ← joinAddr o pfx q
      flatBndl o d f (level + 1) s b
      let nx ← freeNext o a
      flatArgs o d f level pfx q nx
    else flatArgs o d f level pfx q c.next
/-- The source of a nested call; nothing happens for NULL. -/
def flatBndl (o : Flat) (d : Nat) : Nat → Int → Option Bytes → Ptr → M Unit
  | _, _, _, none => pure ()
  | 0, _, _, some _ => crash
  | f + 1, level, pfx, some b => do
    let c ← bndlAt b
    flatMsgs o d f level pfx c.head
end

/-- `osc_bundle_u_flatten` (`osc_bundle_u.c` lines 509-516), the result (`*dest`) is created if it is NULL. -/
def flatten (o : Flat) (dest : Ptr) (src : Nat) : M Nat := do
  let d ← destOr dest bndlAlloc
  let f ← fuel
  flatBndl o d f 0 none (some src)
  pure d

end Libo.Mem
