import Verif.Basic
/-!
# Handles of serialized bundles and messages (`osc_bundle_s.c` lines 47-157, `osc_message_s.c` lines 36-126 and 254-270)

A `t_osc_bndl_s` is a block with a length and a pointer to bytes, a `t_osc_msg_s` one with pointers into the bytes and two arrays that it
may own.  A memory maps addresses to blocks; using a block that is not allocated, using it as something else, freeing a pointer that is
not the start of a block and reading a field that was never written are `none`; allocation always succeeds.  Simplified: of the pointers
of a message only `size` is kept (the others are computed from it, see `MsgView.wrap` in `BundleS.lean`), and of the arrays only how many
elements they have.
-/

namespace Libo.SH
open Libo

/-- A `char *`: NULL, never written, or a place in a block. -/
inductive SPtr where
  | null
  | undef
  | at (block off : Nat)
deriving DecidableEq

/-- A block. -/
inductive SCell where
  /-- `struct _osc_bundle_s` (`osc_bundle_s.r`). -/
  | bndl (len : Option Int) (ptr : SPtr)
  /-- `struct _osc_message_s` (`osc_message_s.r`): `size`, `cache_size`, `data_offset_cache` and `data_size_cache`. -/
  | msg (size : SPtr) (cached : Nat) (offs sizes : Option Nat)
  | bytes (b : Bytes)
  | ints (n : Nat)
deriving DecidableEq

structure SMem where
  cell : Nat → Option SCell
  brk : Nat

def SMem.set (m : SMem) (p : Nat) (c : Option SCell) : SMem := { m with cell := fun a => if a = p then c else m.cell a }

/-- `osc_mem_alloc` (`osc_mem.c` lines 36-40) and the first contents of the block. -/
def new (m : SMem) (c : SCell) : Nat × SMem := (m.brk, { (m.set m.brk (some c)) with brk := m.brk + 1 })

/-- `osc_mem_free` (`osc_mem.c` lines 52-56) of the start of a block. -/
def free (m : SMem) (p : Nat) : Option SMem := (m.cell p).map fun _ => m.set p none

/-- `if(p){ osc_mem_free(p); }` -/
def freeIf (m : SMem) : Option Nat → Option SMem
  | none => some m
  | some p => free m p

/-- `if(p){ osc_mem_free(p); }` for a `char *`. -/
def freePtr (m : SMem) : SPtr → Option SMem
  | .null => some m
  | .at p 0 => free m p
  | _ => none

/-! ## Bundles -/

/-- `osc_bundle_s_alloc` (`osc_bundle_s.c` lines 47-53). -/
def bndlAlloc (m : SMem) (len : Int) (ptr : SPtr) : Nat × SMem := new m (.bndl (some len) ptr)

/-- The test `if(!(bndl->ptr))` at the start of `osc_bundle_s_setBundleID_b` (`osc_bundle_s.c` lines 496-506); what follows is in
`AtomOps.lean`. -/
def testPtr (m : SMem) (p : Nat) : Option Bool :=
  match m.cell p with
  | some (.bndl _ .null) => some true
  | some (.bndl _ (.at _ _)) => some false
  | _ => none

/-- `osc_bundle_s_allocEmptyBundle` (`osc_bundle_s.c` lines 55-60) up to that test: the fields of the new block are not written. -/
def allocEmpty (m : SMem) : Option (Bool × Nat × SMem) :=
  let (p, m) := new m (.bndl none .undef)
  (testPtr m p).map fun b => (b, p, m)

/-- `osc_bundle_s_deepCopy` (`osc_bundle_s.c` lines 62-74) for a handle `src`; gives `*dest`. -/
def deepCopy (m : SMem) (dest : Option Nat) (src : Nat) : Option (Nat × SMem) :=
  match m.cell src with
  | some (.bndl (some len) (.at b off)) =>
    match m.cell b with
    | some (.bytes bs) =>
      if 0 ≤ len ∧ off + len.toNat ≤ bs.length then
        let (d, m) : Nat × SMem := match dest with
          | some d => (d, m)
          | none => new m (.bndl none .undef)
        let (q, m) := new m (.bytes ((bs.drop off).take len.toNat))
        match m.cell d with
        | some (.bndl _ _) => some (d, m.set d (some (.bndl (some len) (.at q 0))))
        | _ => none
      else none
    | _ => none
  | _ => none

/-- `osc_bundle_s_free` (`osc_bundle_s.c` lines 81-87). -/
def bndlFree (m : SMem) (p : Option Nat) : Option SMem := freeIf m p

/-- `osc_bundle_s_deepFree` (`osc_bundle_s.c` lines 89-97). -/
def bndlDeepFree (m : SMem) : Option Nat → Option SMem
  | none => some m
  | some p =>
    match m.cell p with
    | some (.bndl _ ptr) => do free (← freePtr m ptr) p
    | _ => none

/-! ## Messages -/

/-- `osc_message_s_alloc` with `osc_message_s_initMsg` (`osc_message_s.c` lines 36-41 and 73-79). -/
def msgAlloc (m : SMem) : Nat × SMem := new m (.msg .null 0 none none)

/-- `osc_message_s_wrap` (`osc_message_s.c` lines 89-126): the pointer to the size; the arrays stay. -/
def msgWrap (m : SMem) (p : Nat) (bytes : SPtr) : Option SMem :=
  match m.cell p with
  | some (.msg _ n o s) => some (m.set p (some (.msg bytes n o s)))
  | _ => none

/-- `osc_message_s_cacheDataOffsets` (`osc_message_s.c` lines 254-270) for a message with `n` arguments. -/
def msgCache (m : SMem) (p n : Nat) : Option SMem :=
  match m.cell p with
  | some (.msg size _ _ _) =>
    let (o, m) := new m (.ints n)
    let (s, m) := new m (.ints n)
    some (m.set p (some (.msg size n (some o) (some s))))
  | _ => none

/-- `osc_message_s_copy` (`osc_message_s.c` lines 81-87); gives `*dest`. -/
def msgCopy (m : SMem) (dest : Option Nat) (src : Nat) : Option (Nat × SMem) :=
  let (d, m) : Nat × SMem := match dest with
    | some d => (d, m)
    | none => msgAlloc m
  match m.cell d, m.cell src with
  | some (.msg _ _ _ _), some (.msg size n o s) => some (d, m.set d (some (.msg size n o s)))
  | _, _ => none

/-- `osc_message_s_free` (`osc_message_s.c` lines 48-60). -/
def msgFree (m : SMem) : Option Nat → Option SMem
  | none => some m
  | some p =>
    match m.cell p with
    | some (.msg _ _ o s) => do free (← freeIf (← freeIf m o) s) p
    | _ => none

/-- `osc_message_s_deepFree` (`osc_message_s.c` lines 62-71). -/
def msgDeepFree (m : SMem) : Option Nat → Option SMem
  | none => some m
  | some p =>
    match m.cell p with
    | some (.msg size _ _ _) => do msgFree (← freePtr m size) (some p)
    | _ => none

/-- `osc_bundle_s_getFirstMsg` (`osc_bundle_s.c` lines 145-157) for a handle; the header has 16 bytes (`osc.h` line 40). -/
def firstMsg (m : SMem) (p : Nat) : Option (Option Nat × SMem) :=
  match m.cell p with
  | some (.bndl _ .null) => some (none, m)
  | some (.bndl (some len) (.at b off)) =>
    if len > 16 then
      let (d, m) := msgAlloc m
      (msgWrap m d (.at b (off + 16))).map fun m => (some d, m)
    else some (none, m)
  | _ => none

end Libo.SH
