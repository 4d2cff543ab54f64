import Verif.Mem
/-!
# Editing atoms, messages and bundles in memory (`osc_atom_u.c`, `osc_message_u.c`, `osc_bundle_u.c`)

The rest of the editing interface on the memory of `Mem.lean`, and a client: any program that uses the blocks it was given
or allocated through this interface, in any order.
-/

namespace Libo.Mem
open Libo

/-- The setters for numbers and time tags (`osc_atom_u_setFloat`, `…setDouble`, `…setInt8` to `…setUInt64`, `…setTimetag`,
`osc_atom_u.c` lines 1010-1108 and 1214-1222); `v` is what the word becomes. -/
def setBits (a : Nat) (tag : UInt8) (v : Nat) : M Unit :=
  if tag = 115 ∨ tag = 98 ∨ tag = 46 then crash
  else do
    atomClear a
    setAtom a fun c => { c with tag := tag, w := .bits v }

/-- `osc_atom_u_setTrue`, `…setFalse`, `…setNil` (`osc_atom_u.c` lines 1158-1183): the word is left alone. -/
def setBare (a : Nat) (tag : UInt8) : M Unit :=
  if tag = 115 ∨ tag = 98 ∨ tag = 46 then crash
  else do
    atomClear a
    setAtom a fun c => { c with tag := tag }

/-- `osc_atom_u_setString` (`osc_atom_u.c` lines 1110-1133); `none` is a NULL string. -/
def setString (a : Nat) (v : Option Bytes) : M Unit := atomAt a >>= fun c =>
  if c.w ≠ .bits 0 ∧ c.tag = 115 ∧ c.alloc = true then
    match v, c.w with
    | some s, .ptr p => do
      free p
      let q ← new (.buf (s ++ [0]))
      setAtom a fun c => { c with w := .ptr q }
    | some _, .bits _ => crash
    | none, _ => setAtom a fun c => { c with w := .bits 0 }
  else
    match v with
    | some s => do
      let q ← new (.buf (s ++ [0]))
      setAtom a fun c => { c with w := .ptr q, tag := 115, alloc := true }
    | none => setAtom a fun c => { c with w := .bits 0 }

/-- `osc_atom_u_setStringPtr` (`osc_atom_u.c` lines 1135-1143). -/
def setStringPtr (a p : Nat) : M Unit := do
  atomClear a
  setAtom a fun c => { c with w := .ptr p, tag := 115 }

/-- `osc_atom_u_setBlobPtr` (`osc_atom_u.c` lines 1242-1250). -/
def setBlobPtr (a p : Nat) : M Unit := do
  atomClear a
  setAtom a fun c => { c with w := .ptr p, tag := 98 }

/-- `osc_atom_u_setBlob` (`osc_atom_u.c` lines 1224-1240). -/
def setBlob (a : Nat) (blob : Bytes) : M Unit := do
  atomClear a
  let l ← ofOpt (rdI32 blob 0)
  let b ← ofOpt (slice blob 0 (l + 4))
  let q ← new (.buf (b ++ zeros (padN l.toNat - l.toNat)))
  setAtom a fun c => { c with w := .ptr q, tag := 98 }

/-- `osc_atom_u_setBndl_u` (`osc_atom_u.c` lines 1208-1212): the old contents are not freed. -/
def setBndlU (a b : Nat) : M Unit := setAtom a fun c => { c with w := .ptr b, tag := 46 }

/-- `osc_atom_u_setBndl_s` (`osc_atom_u.c` lines 1190-1206). -/
def setBndlS (a : Nat) (bytes : Bytes) : M Unit := do
  atomClear a
  let b ← deserInto bytes
  setBndlU a b

/-- `osc_atom_u_setShouldFreePtr` (`osc_atom_u.c` lines 118-123). -/
def setShouldFree (a : Nat) (b : Bool) : M Unit := setAtom a fun c => { c with alloc := b }

/-- `osc_atom_u_getBndl`, `osc_atom_u_getStringPtr`, `osc_atom_u_getBlob` (`osc_atom_u.c` lines 866-876, 706-716, 916-925): the
pointer, if the atom has this type tag. -/
def getPtr (a : Nat) (tag : UInt8) : M Ptr := atomAt a >>= fun c =>
  if c.tag = tag ∧ (tag = 115 ∨ tag = 98 ∨ tag = 46) then
    match c.w with
    | .ptr p => pure (some p)
    | .bits b => if b = 0 then pure none else crash
  else pure none

/-- Writing through a `char *`. -/
def bufWrite (p : Nat) (b : Bytes) : M Unit := do
  let _ ← bufAt p
  setCell p (.buf b)

/-- `osc_message_u_setAddress` (`osc_message_u.c` lines 168-193); `none` is a NULL address. -/
def setAddress (p : Nat) (s : Option Bytes) : M Unit :=
  match s with
  | none => setMsg p fun c => { c with addr := none }
  | some s =>
    if s.head? ≠ some 47 then pure ()
    else msgAt p >>= fun c =>
      match c.addr with
      | none => giveAddr p (some s)
      | some q => strAt q >>= fun old =>
        if old.length < s.length then do
          free q
          giveAddr p (some s)
        else do
          let b ← bufAt q
          setCell q (.buf (s ++ 0 :: b.drop (s.length + 1)))

/-- `osc_message_u_setAddressPtr` (`osc_message_u.c` lines 195-202): gives back the old one. -/
def setAddressPtr (p q : Nat) : M Ptr := do
  let c ← msgAt p
  setMsg p fun c => { c with addr := some q }
  pure c.addr

/-- The loop of `osc_bundle_u_addMsg_impl` with `remove_dups == 1` (`osc_bundle_u.c` lines 259-268) and of
`osc_bundle_u_removeMessage` (lines 419-428), which does not test for a NULL address. -/
def removeLoop (skipNull : Bool) (b : Nat) (s : Bytes) : Nat → Ptr → M Unit
  | _, none => pure ()
  | 0, some _ => crash
  | f + 1, some p => msgAt p >>= fun c =>
    match c.addr with
    | none => if skipNull then removeLoop skipNull b s f c.next else crash
    | some q => strAt q >>= fun t =>
      if s = t then do
        removeMsg b p
        let k ← fuel
        msgFree k p
        setBndl b fun c => { c with count := c.count - 1 }
        removeLoop skipNull b s f c.next
      else removeLoop skipNull b s f c.next

/-- `osc_bundle_u_removeMessage` (`osc_bundle_u.c` lines 416-430). -/
def removeMessage (b : Nat) (s : Bytes) : M Unit := do
  let c ← bndlAt b
  let f ← fuel
  removeLoop false b s f c.head

/-- `osc_bundle_u_addMsgWithoutDups` (`osc_bundle_u.c` lines 255-270 and 326-329). -/
def addMsgWithoutDups (b p : Nat) : M Unit := msgAt p >>= fun x =>
  match x.addr with
  | none => addMsg b p
  | some q => do
    let s ← strAt q
    let c ← bndlAt b
    let f ← fuel
    removeLoop true b s f c.head
    addMsg b p

/-- The loop of `osc_bundle_u_addMsg_impl` with `remove_dups == 2` (`osc_bundle_u.c` lines 276-298); `true` if a message was
overwritten. -/
def replaceLoop (p : Nat) (s : Bytes) : Nat → Ptr → M Bool
  | _, none => pure false
  | 0, some _ => crash
  | f + 1, some q => do
    let c ← msgAt q
    let r ← deref c.addr
    let t ← strAt r
    cond (s == t)
      (do
        clearArgs q
        let _ ← deepCopy (some q) p
        setMsg q fun x => { x with next := c.next, prev := c.prev }
        let k ← fuel
        msgFree k p
        pure true)
      (replaceLoop p s f c.next)

/-- `osc_bundle_u_replaceMessage` (`osc_bundle_u.c` lines 271-300 and 331-335). -/
def replaceMessage (b p : Nat) : M Unit := msgAt p >>= fun x =>
  match x.addr with
  | none => addMsg b p
  | some q => do
    let s ← strAt q
    let c ← bndlAt b
    let f ← fuel
    let r ← replaceLoop p s f c.head
    cond r (pure ()) (addMsg b p)

/-- The loop of `osc_bundle_u_addMsgList` (`osc_bundle_u.c` lines 386-390): number of messages and the last one. -/
def listEnd : Nat → Nat → Ptr → Ptr → M (Nat × Ptr)
  | _, n, last, none => pure (n, last)
  | 0, _, _, some _ => crash
  | f + 1, n, _, some p => do
    let c ← msgAt p
    listEnd f (n + 1) (some p) c.next

/-- `osc_bundle_u_addMsgList` (`osc_bundle_u.c` lines 378-394). -/
def addMsgList (b p : Nat) : M Unit := do
  setBndl b fun c => { c with head := some p }
  let f ← fuel
  let r ← listEnd f 0 (some p) (some p)
  setBndl b fun c => { c with count := r.1, tail := r.2 }

/-- The loops `while(a1->next) a1 = a1->next;` of `osc_atom_u_append` and `osc_message_u_append`. -/
def lastAtom : Nat → Nat → M Nat
  | 0, _ => crash
  | f + 1, a => atomAt a >>= fun c =>
    match c.next with
    | none => pure a
    | some n => lastAtom f n

def lastMsg : Nat → Nat → M Nat
  | 0, _ => crash
  | f + 1, a => msgAt a >>= fun c =>
    match c.next with
    | none => pure a
    | some n => lastMsg f n

/-- `osc_atom_u_append` (`osc_atom_u.c` lines 143-152). -/
def atomAppend (a b : Nat) : M Unit := do
  let f ← fuel
  let l ← lastAtom f a
  setAtom l fun c => { c with next := some b }

/-- `osc_message_u_append` (`osc_message_u.c` lines 149-158). -/
def msgAppend (a b : Nat) : M Unit := do
  let f ← fuel
  let l ← lastMsg f a
  setMsg l fun c => { c with next := some b }

/-- The loop of `osc_message_u_setArgArrayCopy` (`osc_message_u.c` lines 1190-1196). -/
def appendCopies (p : Nat) : List Nat → M Unit
  | [] => pure ()
  | a :: as => do
    let x ← copyInto none a
    appendAtom p x
    appendCopies p as

/-- `osc_message_u_setArgArrayCopy` (`osc_message_u.c` lines 1187-1198). -/
def setArgArrayCopy (p arr : Nat) : M Unit := do
  let l ← arrAt arr
  appendCopies p l

/-- The part of `osc_atom_array_u_free` that frees what the atoms point to (`osc_atom_array_u.c` lines 43-56): neither blobs
nor strings that are not marked as owned.  The atoms are freed with the array. -/
def elemFree (f : Nat) (c : ACell) : M Unit :=
  if c.alloc = true ∧ c.tag = 115 ∨ c.tag = 46 then wordFree f c.tag c.w else pure ()

/-- The loop of `osc_atom_array_u_free`. -/
def elemsFree (f : Nat) : List Nat → M Unit
  | [] => pure ()
  | a :: as => do
    let c ← atomAt a
    elemFree f c
    free a
    elemsFree f as

/-- `osc_atom_array_u_free` (`osc_atom_array_u.c` lines 41-60). -/
def arrFree (r : Nat) : M Unit := do
  let l ← arrAt r
  let f ← fuel
  elemsFree f l
  free r

/-- What a client can do.  The arguments called `src` are only read from. -/
inductive Op where
  | newAtom
  | newMsg
  | newBndl
  | newBuf (b : Bytes)
  | newArr (n : Nat)
  | atomFree (a : Nat)
  | atomClear (a : Nat)
  | setBits (a : Nat) (tag : UInt8) (v : Nat)
  | setBare (a : Nat) (tag : UInt8)
  | setString (a : Nat) (s : Option Bytes)
  | setStringPtr (a p : Nat)
  | setBlob (a : Nat) (b : Bytes)
  | setBlobPtr (a p : Nat)
  | setBndlU (a b : Nat)
  | setBndlS (a : Nat) (bytes : Bytes)
  | setShouldFree (a : Nat) (b : Bool)
  | getPtr (a : Nat) (tag : UInt8)
  | atomNext (a : Nat)
  | atomAppend (a b : Nat)
  | bufWrite (p : Nat) (b : Bytes)
  | atomCopy (src : Nat)
  | copyInto (a src : Nat)
  | msgFree (p : Nat)
  | clearArgs (p : Nat)
  | setAddress (p : Nat) (s : Option Bytes)
  | setAddressPtr (p q : Nat)
  | getAddress (p : Nat)
  | appendAtom (p a : Nat)
  | prependAtom (p a : Nat)
  | insertAtom (p a : Nat) (pos : Int) (near : Bool)
  | removeAtom (p a : Nat)
  | getArg (p : Nat) (n : Int)
  | msgNext (p : Nat)
  | msgAppend (p q : Nat)
  | msgDeepCopy (src : Nat)
  | deepCopyInto (p src : Nat)
  | shallowCopyOwn (p q : Nat)
  | setArgArrayCopy (p src : Nat)
  | bndlFree (b : Nat)
  | bndlClear (b : Nat)
  | bndlCopy (src : Nat)
  | bndlHead (b : Nat)
  | addMsg (b p : Nat)
  | addMsgWithoutDups (b p : Nat)
  | replaceMessage (b p : Nat)
  | addMsgCopy (b src : Nat)
  | addMsgWithoutDupsCopy (b src : Nat)
  | addMsgList (b p : Nat)
  | removeMsg (b p : Nat)
  | removeMessage (b : Nat) (s : Bytes)
  | arrCopy (src : Nat)
  | arrGet (r i : Nat)
  | arrFree (r : Nat)

/-- The blocks an operation is told to work on. -/
def Op.uses : Op → List Nat
  | .newAtom | .newMsg | .newBndl | .newBuf _ | .newArr _ => []
  | .atomFree a | .atomClear a | .setBits a _ _ | .setBare a _ | .setString a _ | .setBlob a _ | .setBndlS a _
  | .setShouldFree a _ | .getPtr a _ | .atomNext a | .bufWrite a _ | .copyInto a _ => [a]
  | .setStringPtr a p | .setBlobPtr a p | .setBndlU a p | .atomAppend a p => [a, p]
  | .atomCopy _ | .msgDeepCopy _ | .bndlCopy _ | .arrCopy _ => []
  | .msgFree p | .clearArgs p | .setAddress p _ | .getAddress p | .getArg p _ | .msgNext p | .deepCopyInto p _
  | .setArgArrayCopy p _ => [p]
  | .setAddressPtr p q | .appendAtom p q | .prependAtom p q | .insertAtom p q _ _ | .removeAtom p q | .msgAppend p q
  | .shallowCopyOwn p q => [p, q]
  | .bndlFree b | .bndlClear b | .bndlHead b | .addMsgCopy b _ | .addMsgWithoutDupsCopy b _ | .removeMessage b _ => [b]
  | .addMsg b p | .addMsgWithoutDups b p | .replaceMessage b p | .addMsgList b p | .removeMsg b p => [b, p]
  | .arrGet r _ | .arrFree r => [r]

/-- Nothing to hand out. -/
def unit (x : M Unit) : M (List Nat) := do
  x
  pure []

/-- A block is handed out. -/
def one (x : M Nat) : M (List Nat) := do
  let p ← x
  pure [p]

/-- A block is handed out unless the pointer is NULL. -/
def maybe (x : M Ptr) : M (List Nat) := do
  let p ← x
  pure p.toList

/-- Carry out an operation; the result are the blocks handed out to the client. -/
def Op.exec : Op → M (List Nat)
  | .newAtom => one atomAlloc
  | .newMsg => one msgAlloc
  | .newBndl => one bndlAlloc
  | .newBuf b => one (new (.buf b))
  | .newArr n => one (arrAlloc n)
  | .atomFree a => unit (do let f ← fuel; Mem.atomFree f a)
  | .atomClear a => unit (Mem.atomClear a)
  | .setBits a t v => unit (Mem.setBits a t v)
  | .setBare a t => unit (Mem.setBare a t)
  | .setString a s => unit (Mem.setString a s)
  | .setStringPtr a p => unit (Mem.setStringPtr a p)
  | .setBlob a b => unit (Mem.setBlob a b)
  | .setBlobPtr a p => unit (Mem.setBlobPtr a p)
  | .setBndlU a b => unit (Mem.setBndlU a b)
  | .setBndlS a b => unit (Mem.setBndlS a b)
  | .setShouldFree a b => unit (Mem.setShouldFree a b)
  | .getPtr a t => maybe (Mem.getPtr a t)
  | .atomNext a => maybe (do let c ← atomAt a; pure c.next)
  | .atomAppend a b => unit (Mem.atomAppend a b)
  | .bufWrite p b => unit (Mem.bufWrite p b)
  | .atomCopy src => one (Mem.copyInto none src)
  | .copyInto a src => one (Mem.copyInto (some a) src)
  | .msgFree p => unit (do let f ← fuel; Mem.msgFree f p)
  | .clearArgs p => unit (Mem.clearArgs p)
  | .setAddress p s => unit (Mem.setAddress p s)
  | .setAddressPtr p q => maybe (Mem.setAddressPtr p q)
  | .getAddress p => maybe (do let c ← msgAt p; pure c.addr)
  | .appendAtom p a => unit (Mem.appendAtom p a)
  | .prependAtom p a => unit (Mem.prependAtom p a)
  | .insertAtom p a n b => unit (Mem.insertAtom p a n b)
  | .removeAtom p a => unit (Mem.removeAtom p a)
  | .getArg p n => maybe (Mem.getArg p n)
  | .msgNext p => maybe (do let c ← msgAt p; pure c.next)
  | .msgAppend p q => unit (Mem.msgAppend p q)
  | .msgDeepCopy src => one (deepCopy none src)
  | .deepCopyInto p src => one (deepCopy (some p) src)
  | .shallowCopyOwn p q => one (msgCopy (some p) q)
  | .setArgArrayCopy p src => unit (Mem.setArgArrayCopy p src)
  | .bndlFree b => unit (do let f ← fuel; Mem.bndlFree f b)
  | .bndlClear b => unit (Mem.bndlClear b)
  | .bndlCopy src => one (Mem.bndlCopy src)
  | .bndlHead b => maybe (do let c ← bndlAt b; pure c.head)
  | .addMsg b p => unit (Mem.addMsg b p)
  | .addMsgWithoutDups b p => unit (Mem.addMsgWithoutDups b p)
  | .replaceMessage b p => unit (Mem.replaceMessage b p)
  | .addMsgCopy b src => unit (do let p ← deepCopy none src; Mem.addMsg b p)
  | .addMsgWithoutDupsCopy b src => unit (do let p ← deepCopy none src; Mem.addMsgWithoutDups b p)
  | .addMsgList b p => unit (Mem.addMsgList b p)
  | .removeMsg b p => unit (Mem.removeMsg b p)
  | .removeMessage b s => unit (Mem.removeMessage b s)
  | .arrCopy src => one (Mem.arrCopy src)
  | .arrGet r i => do let l ← arrAt r; pure (l[i]?).toList
  | .arrFree r => unit (Mem.arrFree r)

/-- What a client can bring about: it works on the blocks it knows, and gets to know those that are handed out to it. -/
inductive Edits : Memory → List Nat → Memory → List Nat → Prop where
  | done (m : Memory) (known : List Nat) : Edits m known m known
  | op {m m1 m2 : Memory} {known known2 r : List Nat} (o : Op) (h : ∀ a ∈ o.uses, a ∈ known) (e : o.exec m = some (r, m1))
      (rest : Edits m1 (known ++ r) m2 known2) : Edits m known m2 known2

end Libo.Mem
