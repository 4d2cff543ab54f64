import Verif.LinkedListLemmas
/-!
# The message list of an unserialised bundle (osc_bundle_u.c)

The members of `t_osc_bndl_u` (`msgcount`, `msghead`, `msgtail`) and the `next`/`prev` members of its messages; the address
and the arguments of a message are the payload.  Simplifications: `msgcount` is unbounded; addresses are byte strings
without NUL, so `strcmp` is equality; copying the arguments of a message copies the payload, and the old address string that
`replaceMessage` leaks is not tracked.
-/

namespace Libo.BU
open Libo Libo.Heap

variable {β : Type}

/-- `t_osc_msg_u` (osc_message_u.r) without its links: the address may be NULL. -/
structure Msg (β : Type) where
  address : Option Bytes
  args : β

/-- `t_osc_bndl_u` (osc_bundle_u.r) and the memory its messages live in. -/
structure BU (β : Type) where
  heap : Heap (Msg β)
  fresh : Nat
  head : Option Nat
  tail : Option Nat
  count : Int

/-- `osc_bundle_u_alloc` (osc_bundle_u.c:41-46). -/
def new : BU β := ⟨fun _ => none, 0, none, none, 0⟩

/-- `osc_message_u_alloc` and filling in the payload. -/
def newMsg (b : BU β) (x : Msg β) : BU β × Nat :=
  ({ b with heap := upd b.heap b.fresh (some ⟨x, none, none⟩), fresh := b.fresh + 1 }, b.fresh)

/-- `osc_message_u_free` (osc_message_u.c): the links are not looked at. -/
def freeMsg (b : BU β) (m : Nat) : Option (BU β) := (Heap.free b.heap m).map fun h => { b with heap := h }

/-- `osc_bundle_u_removeMsg` (osc_bundle_u.c:396-414).  The count is left alone. -/
def removeMsg (b : BU β) (m : Nat) : Option (BU β) := do
  let n ← b.heap m
  let h1 ← setPrevIf b.heap n.next n.prev
  let n1 ← h1 m
  let h2 ← setNextIf h1 n1.prev n1.next
  let n2 ← h2 m
  let head := if some m = b.head then n2.next else b.head
  let tail := if some m = b.tail then n2.prev else b.tail
  some ⟨h2, b.fresh, head, tail, b.count⟩

/-- The loop of `osc_bundle_u_addMsg_impl` with `remove_dups == 1` (osc_bundle_u.c:259-268) and of
`osc_bundle_u_removeMessage` (lines 419-428): remove and free every message with this address.  `skipNull` says whether a NULL
address is tested for before `strcmp`. -/
def removeLoop (skipNull : Bool) (address : Bytes) : Nat → BU β → Option Nat → Option (BU β)
  | _, b, none => some b
  | 0, _, some _ => none
  | fuel + 1, b, some m => do
    let n ← b.heap m
    match n.data.address with
    | none => if skipNull then removeLoop skipNull address fuel b n.next else none
    | some a =>
      if address = a then do
        let b1 ← removeMsg b m
        let b2 ← freeMsg b1 m
        removeLoop skipNull address fuel { b2 with count := b2.count - 1 } n.next
      else removeLoop skipNull address fuel b n.next

/-- The loop with `remove_dups == 2` (osc_bundle_u.c:276-298): look for the first message with this address and overwrite its
contents, keeping its links; the given message is freed.  The result says whether that happened. -/
def replaceLoop (address : Bytes) (msg : Nat) : Nat → BU β → Option Nat → Option (BU β × Bool)
  | _, b, none => some (b, false)
  | 0, _, some _ => none
  | fuel + 1, b, some m => do
    let n ← b.heap m
    match n.data.address with
    | none => none
    | some a =>
      if address = a then do
        let src ← b.heap msg
        let b1 ← freeMsg { b with heap := upd b.heap m (some { n with data := src.data }) } msg
        some (b1, true)
      else replaceLoop address msg fuel b n.next

/-- The end of `osc_bundle_u_addMsg_impl` (osc_bundle_u.c:301-318): append. -/
def link (b : BU β) (m : Nat) : Option (BU β) :=
  match b.head with
  | none => do
    let h1 ← setNext b.heap m none
    let h2 ← setPrev h1 m none
    some ⟨h2, b.fresh, some m, none, b.count + 1⟩
  | some hd =>
    match b.tail with
    | none => do
      let h1 ← setNext b.heap hd (some m)
      let h2 ← setPrev h1 m (some hd)
      let h3 ← setNext h2 m none
      some ⟨h3, b.fresh, b.head, some m, b.count + 1⟩
    | some tl => do
      let h1 ← setPrev b.heap m (some tl)
      let h2 ← setNext h1 m none
      let h3 ← setNext h2 tl (some m)
      some ⟨h3, b.fresh, b.head, some m, b.count + 1⟩

/-- `osc_bundle_u_addMsg` (osc_bundle_u.c:321-324). -/
def addMsg (b : BU β) (m : Nat) : Option (BU β) := link b m

/-- `osc_bundle_u_addMsgWithoutDups` (osc_bundle_u.c:326-329). -/
def addMsgWithoutDups (b : BU β) (m : Nat) : Option (BU β) := do
  let n ← b.heap m
  match n.data.address with
  | some a => do
    let b1 ← removeLoop true a (b.fresh + 1) b b.head
    link b1 m
  | none => link b m

/-- `osc_bundle_u_replaceMessage` (osc_bundle_u.c:331-335). -/
def replaceMessage (b : BU β) (m : Nat) : Option (BU β) := do
  let n ← b.heap m
  match n.data.address with
  | some a => do
    let r ← replaceLoop a m (b.fresh + 1) b b.head
    if r.2 then some r.1 else link r.1 m
  | none => link b m

/-- `osc_bundle_u_removeMessage` (osc_bundle_u.c:416-430). -/
def removeMessage (b : BU β) (address : Bytes) : Option (BU β) := removeLoop false address (b.fresh + 1) b b.head

/-- The loop of `osc_bundle_u_clear`. -/
def clearLoop : Nat → BU β → Option Nat → Option (BU β)
  | _, b, none => some b
  | 0, _, some _ => none
  | fuel + 1, b, some m => do
    let n ← b.heap m
    let b1 ← freeMsg b m
    clearLoop fuel b1 n.next

/-- `osc_bundle_u_clear` (osc_bundle_u.c:67-81). -/
def clear (b : BU β) : Option (BU β) := do
  let b1 ← clearLoop (b.fresh + 1) b b.head
  some ⟨b1.heap, b1.fresh, none, none, 0⟩

/-- The iterator (osc_bundle_iterator_u.c:36-90): the messages met by `while(hasNext) next`. -/
def iterate (b : BU β) : Option (List (Nat × Msg β)) := walkNext b.heap b.fresh b.head

/-- Operations a client performs on a bundle with new messages. -/
inductive Op (β : Type) where
  | add (x : Msg β)
  | addWithoutDups (x : Msg β)
  | replace (x : Msg β)
  | removeMessage (address : Bytes)
  | clear

def step (b : BU β) : Op β → Option (BU β)
  | .add x => addMsg (newMsg b x).1 (newMsg b x).2
  | .addWithoutDups x => addMsgWithoutDups (newMsg b x).1 (newMsg b x).2
  | .replace x => replaceMessage (newMsg b x).1 (newMsg b x).2
  | .removeMessage a => removeMessage b a
  | .clear => clear b

def run (b : BU β) : List (Op β) → Option (BU β)
  | [] => some b
  | o :: os => (step b o).bind fun b => run b os

end Libo.BU
