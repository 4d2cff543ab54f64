import Verif.AtomS
/-!
# Unserialised atoms, messages and bundles in memory (`osc_atom_u.c`, `osc_message_u.c`, `osc_bundle_u.c`)

`AtomU.lean` models bundles as trees, where nothing can be shared.  Here they are what they are in C: blocks of memory that
point to each other.  A memory maps addresses to blocks; a block is one `struct` or one character buffer.  Using an address that
is not allocated (or was freed), or a block as something it is not, is `none`.  Allocation always succeeds and gives an
address that was never used; `realloc` always moves the block.  Simplifications: `argc` and `msgcount` are unbounded; the
member `size` of a message, which nothing reads, is left out; the word of an atom is either plain bits or a pointer.
Serialising inside `osc_bundle_u_copy` is reading the tree off the memory and using the model of `AtomU.lean`; deserialising
is building the tree that `AtomS.lean` computes, by the same calls.
-/

namespace Libo.Mem
open Libo

abbrev Ptr := Option Nat

/-- The union `w` of an atom (`osc_atom_u.r` lines 41-59): bits, or a pointer to a block.  `bits 0` is NULL. -/
inductive Word where
  | bits (b : Nat)
  | ptr (p : Nat)
deriving DecidableEq

/-- `struct _osc_atom_u` (`osc_atom_u.r` lines 40-64). -/
structure ACell where
  tag : UInt8
  alloc : Bool
  w : Word
  next : Ptr
  prev : Ptr
deriving DecidableEq

/-- `struct _osc_message_u` (`osc_message_u.r` lines 41-47). -/
structure MCell where
  addr : Ptr
  argc : Int
  head : Ptr
  tail : Ptr
  next : Ptr
  prev : Ptr
deriving DecidableEq

/-- `struct _osc_bundle_u` (`osc_bundle_u.r`). -/
structure BCell where
  count : Int
  head : Ptr
  tail : Ptr
deriving DecidableEq

/-- A block of memory.  An array of atoms (`t_osc_array`, `osc_array.r`) has one address for each of its atoms. -/
inductive Cell where
  | atom (a : ACell)
  | msg (m : MCell)
  | bndl (b : BCell)
  | buf (b : Bytes)
  | arr (elems : List Nat)
deriving DecidableEq

/-- The memory: the blocks, and the first address that was never given out. -/
structure Memory where
  cell : Nat → Option Cell
  brk : Nat

def Memory.set (m : Memory) (p : Nat) (c : Option Cell) : Memory := { m with cell := fun a => if a = p then c else m.cell a }

/-- Programs: they may stop in undefined behaviour. -/
abbrev M := StateT Memory Option

/-- Undefined behaviour. -/
def crash {α : Type} : M α := fun _ => none

def readCell (p : Nat) : M Cell := fun m => (m.cell p).map fun c => (c, m)

/-- Overwrite a block. -/
def setCell (p : Nat) (c : Cell) : M Unit := fun m => (m.cell p).map fun _ => ((), m.set p (some c))

/-- `osc_mem_alloc` (`osc_mem.c` lines 36-40). -/
def new (c : Cell) : M Nat := fun m => some (m.brk, { (m.set m.brk (some c)) with brk := m.brk + 1 })

/-- `osc_mem_free` (`osc_mem.c` lines 52-56). -/
def free (p : Nat) : M Unit := fun m => (m.cell p).map fun _ => ((), m.set p none)

/-- More steps than any walk through the memory can take without coming back to a block. -/
def fuel : M Nat := fun m => some (3 * m.brk + 3, m)

def atomAt (p : Nat) : M ACell := do
  match ← readCell p with
  | .atom a => pure a
  | _ => crash

def msgAt (p : Nat) : M MCell := do
  match ← readCell p with
  | .msg a => pure a
  | _ => crash

def bndlAt (p : Nat) : M BCell := do
  match ← readCell p with
  | .bndl a => pure a
  | _ => crash

def bufAt (p : Nat) : M Bytes := do
  match ← readCell p with
  | .buf b => pure b
  | _ => crash

def arrAt (p : Nat) : M (List Nat) := do
  match ← readCell p with
  | .arr l => pure l
  | _ => crash

/-- Something that must have succeeded. -/
def ofOpt {α : Type} : Option α → M α
  | some x => pure x
  | none => crash

/-- The C string in a buffer. -/
def strAt (p : Nat) : M Bytes := do
  let b ← bufAt p
  ofOpt (cstr b 0)

/-- Follow a pointer that must not be NULL. -/
def deref (p : Ptr) : M Nat := ofOpt p

def setAtom (p : Nat) (f : ACell → ACell) : M Unit := do
  let a ← atomAt p
  setCell p (.atom (f a))

def setMsg (p : Nat) (f : MCell → MCell) : M Unit := do
  let a ← msgAt p
  setCell p (.msg (f a))

def setBndl (p : Nat) (f : BCell → BCell) : M Unit := do
  let a ← bndlAt p
  setCell p (.bndl (f a))

/-- `if(p){ p->… = … }` -/
def whenSome (p : Ptr) (f : Nat → M Unit) : M Unit :=
  match p with
  | some a => f a
  | none => pure ()

/-! ## Creating and freeing -/

/-- `osc_atom_u_alloc` (`osc_atom_u.c` lines 38-43). -/
def atomAlloc : M Nat := new (.atom ⟨0, false, .bits 0, none, none⟩)

/-- `osc_message_u_alloc` (`osc_message_u.c` lines 37-45). -/
def msgAlloc : M Nat := new (.msg ⟨none, 0, none, none, none, none⟩)

/-- `osc_bundle_u_alloc` (`osc_bundle_u.c` lines 41-46). -/
def bndlAlloc : M Nat := new (.bndl ⟨0, none, none⟩)

mutual
/-- `osc_atom_u_free` (`osc_atom_u.c` lines 50-71). -/
def atomFree : Nat → Nat → M Unit
  | 0, _ => crash
  | f + 1, a => do
    let c ← atomAt a
    wordFree f c.tag c.w
    free a
/-- The part of `osc_atom_u_free` that frees what the atom points to (lines 55-69). -/
def wordFree : Nat → UInt8 → Word → M Unit
  | 0, _, _ => crash
  | f + 1, tag, w =>
    if tag = 115 ∨ tag = 98 then
      match w with
      | .ptr p => free p
      | .bits b => if b = 0 then pure () else crash
    else if tag = 46 then
      match w with
      | .ptr p => bndlFree f p
      | .bits b => if b = 0 then pure () else crash
    else pure ()
/-- The loop over the atoms in `osc_message_u_free` (`osc_message_u.c` lines 60-65). -/
def atomsFree : Nat → Ptr → M Unit
  | _, none => pure ()
  | 0, some _ => crash
  | f + 1, some a => do
    let c ← atomAt a
    atomFree f a
    atomsFree f c.next
/-- `osc_message_u_free` (`osc_message_u.c` lines 52-67). -/
def msgFree : Nat → Nat → M Unit
  | 0, _ => crash
  | f + 1, p => do
    let c ← msgAt p
    whenSome c.addr free
    atomsFree f c.head
    free p
/-- The loop over the messages in `osc_bundle_u_free` (`osc_bundle_u.c` lines 58-63). -/
def msgsFree : Nat → Ptr → M Unit
  | _, none => pure ()
  | 0, some _ => crash
  | f + 1, some p => do
    let c ← msgAt p
    msgFree f p
    msgsFree f c.next
/-- `osc_bundle_u_free` (`osc_bundle_u.c` lines 53-65). -/
def bndlFree : Nat → Nat → M Unit
  | 0, _ => crash
  | f + 1, b => do
    let c ← bndlAt b
    msgsFree f c.head
    free b
end

/-- Free what an atom points to and forget the pointer (`osc_atom_u.c` lines 130-139). -/
def clearWord (a : Nat) (c : ACell) (f : Nat) : M Unit :=
  if c.alloc = true ∧ c.tag = 115 ∧ c.w ≠ .bits 0 then
    match c.w with
    | .ptr p => do
      free p
      setAtom a fun c => { c with w := .bits 0 }
    | .bits _ => crash
  else if c.tag = 46 then
    match c.w with
    | .ptr p => do
      bndlFree f p
      setAtom a fun c => { c with w := .bits 0 }
    | .bits b => if b = 0 then setAtom a fun c => { c with w := .bits 0 } else crash
  else if c.alloc = true ∧ c.tag = 98 ∧ c.w ≠ .bits 0 then crash
  else pure ()

/-- `osc_atom_u_clear` (`osc_atom_u.c` lines 125-141).  An owned blob is passed to `osc_bundle_u_free`, which is UB. -/
def atomClear (a : Nat) : M Unit := do
  let c ← atomAt a
  let f ← fuel
  clearWord a c f
  setAtom a fun c => { c with alloc := false }

/-- `osc_message_u_clearArgs` (`osc_message_u.c` lines 77-90). -/
def clearArgs (p : Nat) : M Unit := do
  setMsg p fun c => { c with argc := 0 }
  let c ← msgAt p
  let f ← fuel
  atomsFree f c.head
  setMsg p fun c => { c with head := none, tail := none }

/-- `osc_bundle_u_clear` (`osc_bundle_u.c` lines 67-81). -/
def bndlClear (b : Nat) : M Unit := do
  setBndl b fun c => { c with count := 0 }
  let c ← bndlAt b
  let f ← fuel
  msgsFree f c.head
  setBndl b fun c => { c with head := none, tail := none }

/-! ## The lists -/

/-- `osc_message_u_appendAtom` (`osc_message_u.c` lines 240-253). -/
def appendAtom (p a : Nat) : M Unit := do
  setMsg p fun c => { c with argc := c.argc + 1 }
  let c ← msgAt p
  match c.head with
  | none => do
    setAtom a fun x => { x with next := none, prev := none }
    setMsg p fun c => { c with head := some a, tail := some a }
  | some _ => do
    let t ← deref c.tail
    setAtom t fun x => { x with next := some a }
    setAtom a fun x => { x with prev := some t, next := none }
    setMsg p fun c => { c with tail := some a }

/-- `osc_message_u_prependAtom` (`osc_message_u.c` lines 255-268). -/
def prependAtom (p a : Nat) : M Unit := do
  setMsg p fun c => { c with argc := c.argc + 1 }
  let c ← msgAt p
  match c.head with
  | none => do
    setAtom a fun x => { x with next := none, prev := none }
    setMsg p fun c => { c with head := some a, tail := some a }
  | some h => do
    setAtom a fun x => { x with next := some h }
    setAtom h fun x => { x with prev := some a }
    setMsg p fun c => { c with head := some a }
    setAtom a fun x => { x with prev := none }

/-- `for(i = 0; i < n; i++){ aa = aa->next; }` -/
def forward : Nat → Ptr → M Ptr
  | 0, p => pure p
  | n + 1, p => do
    let a ← deref p
    let c ← atomAt a
    forward n c.next

/-- The same with `prev`. -/
def backward : Nat → Ptr → M Ptr
  | 0, p => pure p
  | n + 1, p => do
    let a ← deref p
    let c ← atomAt a
    backward n c.prev

/-- Where `osc_message_u_insertAtom` puts the atom (`osc_message_u.c` lines 272-312). -/
def insertAt (p a : Nat) (pos : Int) (near : Bool) (c : MCell) : M Unit :=
  match c.head with
  | none => do
    setMsg p fun c => { c with head := some a, tail := some a }
    setAtom a fun x => { x with next := none, prev := none }
  | some h =>
    if pos ≥ c.argc then do
      whenSome c.tail fun t => setAtom t fun x => { x with next := some a }
      setAtom a fun x => { x with prev := c.tail }
      setMsg p fun c => { c with tail := some a }
    else if pos = 0 then do
      setAtom a fun x => { x with next := some h }
      setAtom h fun x => { x with prev := some a }
      setAtom a fun x => { x with prev := none }
      setMsg p fun c => { c with head := some a }
    else do
      let q ← bif near then forward pos.toNat c.head else backward (c.argc - (pos + 1)).toNat c.tail
      let aa ← deref q
      let x ← atomAt aa
      whenSome x.prev fun t => setAtom t fun x => { x with next := some a }
      let x ← atomAt aa
      setAtom a fun y => { y with prev := x.prev, next := some aa }
      setAtom aa fun x => { x with prev := some a }

/-- `osc_message_u_insertAtom` (`osc_message_u.c` lines 270-316); `near` is the outcome of the comparison on line 295. -/
def insertAtom (p a : Nat) (pos : Int) (near : Bool) : M Unit := do
  let c ← msgAt p
  insertAt p a pos near c
  setMsg p fun c => { c with argc := c.argc + 1 }

/-- `osc_message_u_removeAtom` (`osc_message_u.c` lines 318-336). -/
def removeAtom (p a : Nat) : M Unit := do
  let x ← atomAt a
  whenSome x.next fun n => setAtom n fun y => { y with prev := x.prev }
  let x ← atomAt a
  whenSome x.prev fun n => setAtom n fun y => { y with next := x.next }
  let x ← atomAt a
  setMsg p fun c => { c with
    head := if some a = c.head then x.next else c.head
    tail := if some a = c.tail then x.prev else c.tail
    argc := c.argc - 1 }

/-- `osc_message_u_getArg` (`osc_message_u.c` lines 212-238). -/
def getArg (p : Nat) (n : Int) : M Ptr := msgAt p >>= fun c =>
  if c.argc ≤ n then pure none
  else if n = 0 then pure c.head
  else if n < 0 ∨ 2 * c.argc < n then forward n.toNat c.head
  else backward (c.argc - 1 - n).toNat c.tail

/-- The end of `osc_bundle_u_addMsg_impl` (`osc_bundle_u.c` lines 301-318) and all of `osc_bundle_u_addMsg`
(lines 321-324). -/
def addMsg (b p : Nat) : M Unit := do
  setBndl b fun c => { c with count := c.count + 1 }
  let c ← bndlAt b
  match c.head with
  | none => do
    setBndl b fun c => { c with head := some p, tail := none }
    setMsg p fun x => { x with next := none, prev := none }
  | some h =>
    match c.tail with
    | none => do
      setMsg h fun x => { x with next := some p }
      setMsg p fun x => { x with prev := some h, next := none }
      setBndl b fun c => { c with tail := some p }
    | some t => do
      setMsg p fun x => { x with prev := some t, next := none }
      setMsg t fun x => { x with next := some p }
      setBndl b fun c => { c with tail := some p }

/-- `osc_bundle_u_removeMsg` (`osc_bundle_u.c` lines 396-414). -/
def removeMsg (b p : Nat) : M Unit := do
  let x ← msgAt p
  whenSome x.next fun n => setMsg n fun y => { y with prev := x.prev }
  let x ← msgAt p
  whenSome x.prev fun n => setMsg n fun y => { y with next := x.next }
  let x ← msgAt p
  setBndl b fun c => { c with
    head := if some p = c.head then x.next else c.head
    tail := if some p = c.tail then x.prev else c.tail }

/-! ## Copies -/

mutual
/-- The tree the serialiser sees when it walks through the memory: what an atom's word points to. -/
def readW (m : Memory) : Nat → UInt8 → Word → Option W
  | 0, _, _ => none
  | f + 1, tag, w =>
    match w with
    | .bits b => some (.bits b)
    | .ptr p =>
      if tag = 115 then
        match m.cell p with
        | some (.buf b) => (cstr b 0).map (.str p)
        | _ => none
      else if tag = 98 then
        match m.cell p with
        | some (.buf b) => some (.blob p b)
        | _ => none
      else if tag = 46 then (readBndl m f p).map (.bndl p)
      else some (.bits p)
/-- The atoms from `p` on. -/
def readArgs (m : Memory) : Nat → Ptr → Option (List UAtom)
  | _, none => some []
  | 0, some _ => none
  | f + 1, some p =>
    match m.cell p with
    | some (.atom c) => (readW m f c.tag c.w).bind fun w => (readArgs m f c.next).map (UAtom.mk c.tag c.alloc w :: ·)
    | _ => none
/-- The messages from `p` on. -/
def readMsgs (m : Memory) : Nat → Ptr → Option (List UMsg)
  | _, none => some []
  | 0, some _ => none
  | f + 1, some p =>
    match m.cell p with
    | some (.msg c) =>
      (match c.addr with
        | none => some none
        | some q =>
          match m.cell q with
          | some (.buf b) => (cstr b 0).map some
          | _ => none).bind fun a => (readArgs m f c.head).bind fun as => (readMsgs m f c.next).map (UMsg.mk a as :: ·)
    | _ => none
/-- The bundle at `p`. -/
def readBndl (m : Memory) : Nat → Nat → Option (List UMsg)
  | 0, _ => none
  | f + 1, p =>
    match m.cell p with
    | some (.bndl c) => readMsgs m f c.head
    | _ => none
end

/-- A new copy of an address, if there is one. -/
def giveAddr (p : Nat) : Option Bytes → M Unit
  | none => pure ()
  | some s => do
    let q ← new (.buf (s ++ [0]))
    setMsg p fun c => { c with addr := some q }

mutual
/-- What `osc_atom_s_deserializeInto` (`osc_atom_s.c` lines 931-1009) stores: blocks for strings, blobs and bundles. -/
def buildW (tag : UInt8) : W → M Word
  | .bits b => pure (.bits b)
  | .str p s => if tag = 115 then (do
      let q ← new (.buf (s ++ [0]))
      pure (.ptr q)) else pure (.bits p)
  | .blob p b => if tag = 98 then (do
      let q ← new (.buf b)
      pure (.ptr q)) else pure (.bits p)
  | .bndl p ms => if tag = 46 then (do
      let b ← bndlAlloc
      buildMsgs b ms
      pure (.ptr b)) else pure (.bits p)
/-- The loop of `osc_message_s_deserialize` (`osc_message_s.c` lines 277-281). -/
def buildArgs (p : Nat) : List UAtom → M Unit
  | [] => pure ()
  | .mk tag alloc w :: as => do
    let a ← atomAlloc
    let w' ← buildW tag w
    setAtom a fun x => { x with tag := tag, alloc := alloc, w := w' }
    appendAtom p a
    buildArgs p as
/-- The loop of `osc_bundle_s_deserialize` (`osc_bundle_s.c` lines 597-601), with the rest of `osc_message_s_deserialize`. -/
def buildMsgs (b : Nat) : List UMsg → M Unit
  | [] => pure ()
  | .mk addr args :: ms => do
    let p ← msgAlloc
    giveAddr p addr
    buildArgs p args
    addMsg b p
    buildMsgs b ms
end

/-- `osc_bundle_s_deserialize` (`osc_bundle_s.c` lines 593-604). -/
def deserInto (bytes : Bytes) : M Nat := do
  let us ← ofOpt (deserialize bytes)
  let b ← bndlAlloc
  buildMsgs b us
  pure b

/-- `osc_bundle_u_copy` (`osc_bundle_u.c` lines 83-89). -/
def bndlCopy (src : Nat) : M Nat := do
  let f ← fuel
  let ms ← (fun m => (readBndl m f src).map fun r => (r, m) : M (List UMsg))
  let bytes ← ofOpt (serialize ms)
  deserInto bytes

/-- What `osc_atom_u_copyInto` stores in the word of the copy (`osc_atom_u.c` lines 85-107).  A blob gets a block of its own
of the padded size; copying a NULL bundle gives an empty one. -/
def copyWord (s : ACell) : M Word :=
  if s.tag = 115 then
    match s.w with
    | .ptr p => do
      let str ← strAt p
      let q ← new (.buf (str ++ [0]))
      pure (.ptr q)
    | .bits _ => crash
  else if s.tag = 46 then
    match s.w with
    | .ptr p => do
      let q ← bndlCopy p
      pure (.ptr q)
    | .bits b => if b = 0 then (do
        let q ← bndlAlloc
        pure (.ptr q))
      else crash
  else if s.tag = 98 then
    match s.w with
    | .ptr p => do
      let blk ← bufAt p
      let len ← ofOpt (rdI32 blk 0)
      let b ← ofOpt (slice blk 0 (len + 4))
      let q ← new (.buf (b ++ zeros (padN len.toNat - len.toNat)))
      pure (.ptr q)
    | .bits _ => crash
  else pure s.w

/-- `if(!(*dest)) *dest = …;` -/
def destOr (dest : Ptr) (mk : M Nat) : M Nat :=
  match dest with
  | some d => pure d
  | none => mk

/-- `osc_atom_u_copyInto` (`osc_atom_u.c` lines 73-109) for a source that is not NULL. -/
def copyInto (dest : Ptr) (src : Nat) : M Nat := do
  let aa ← destOr dest atomAlloc
  let s ← atomAt src
  let w ← copyWord s
  setAtom aa fun _ => ⟨s.tag, s.alloc, w, none, none⟩
  pure aa

/-- `osc_message_u_copy` (`osc_message_u.c` lines 92-101): the members, not what they point to. -/
def msgCopy (dest : Ptr) (src : Nat) : M Nat := do
  let d ← destOr dest msgAlloc
  let s ← msgAt src
  setMsg d fun _ => s
  pure d

/-- The loop of `osc_message_u_deepCopy` (`osc_message_u.c` lines 120-125). -/
def copyArgs (d : Nat) : Nat → Ptr → M Unit
  | _, none => pure ()
  | 0, some _ => crash
  | f + 1, some a => do
    let x ← copyInto none a
    appendAtom d x
    let c ← atomAt a
    copyArgs d f c.next

/-- The string a pointer points to, if it is not NULL. -/
def optStr : Ptr → M (Option Bytes)
  | none => pure none
  | some p => do
    let s ← strAt p
    pure (some s)

/-- `osc_message_u_deepCopy` (`osc_message_u.c` lines 103-130). -/
def deepCopy (dest : Ptr) (src : Nat) : M Nat := do
  let d ← destOr dest msgAlloc
  setMsg d fun c => { c with argc := 0, head := none, tail := none }
  let s ← msgAt src
  let str ← optStr s.addr
  giveAddr d str
  let f ← fuel
  copyArgs d f s.head
  setMsg d fun c => { c with next := none, prev := none }
  pure d

/-- `osc_atom_array_u_alloc` (`osc_atom_array_u.c` lines 36-39), cleared (`osc.h` line 55). -/
def newAtoms : Nat → M (List Nat)
  | 0 => pure []
  | n + 1 => do
    let a ← atomAlloc
    let l ← newAtoms n
    pure (a :: l)

def arrAlloc (n : Nat) : M Nat := do
  let l ← newAtoms n
  new (.arr l)

/-- The loop of `osc_atom_array_u_copy` (`osc_atom_array_u.c` lines 203-207). -/
def copyElems : List Nat → List Nat → M Unit
  | s :: ss, d :: ds => do
    let _ ← copyInto (some d) s
    copyElems ss ds
  | _, _ => pure ()

/-- `osc_atom_array_u_copy` (`osc_atom_array_u.c` lines 194-209). -/
def arrCopy (src : Nat) : M Nat := do
  let l ← arrAt src
  let r ← arrAlloc l.length
  let l' ← arrAt r
  copyElems l l'
  pure r

end Libo.Mem
