import Verif.LinkedListLemmas
/-!
# The argument list of a message (osc_message_u.c)

The list-keeping members of `t_osc_msg_u` (`argc`, `arghead`, `argtail`) and the `next`/`prev` members of its atoms; the rest
of an atom is the payload.  Simplification: `argc` is unbounded.
-/

namespace Libo.Args
open Libo Libo.Heap

variable {α : Type}

/-- `t_osc_msg_u` (osc_message_u.r): `count` is `argc`, `head` is `arghead`, `tail` is `argtail`; `heap` is where the atoms
live. -/
abbrev Args (α : Type) := LL.LL α

/-- `osc_atom_u_alloc` (osc_atom_u.c:38-43): a new atom with NULL links. -/
def newAtom (m : Args α) (x : α) : Args α × Nat :=
  ({ m with heap := upd m.heap m.fresh (some ⟨x, none, none⟩), fresh := m.fresh + 1 }, m.fresh)

/-- `osc_atom_u_free` (osc_atom_u.c:50-73). -/
def freeAtom (m : Args α) (a : Nat) : Option (Args α) := (Heap.free m.heap a).map fun h => { m with heap := h }

/-- `osc_message_u_appendAtom` (osc_message_u.c:240-253). -/
def appendAtom (m : Args α) (a : Nat) : Option (Args α) :=
  match m.head with
  | none => do
    let h1 ← setNext m.heap a none
    let h2 ← setPrev h1 a none
    some ⟨h2, m.fresh, some a, some a, m.count + 1⟩
  | some _ =>
    match m.tail with
    | none => none
    | some tl => do
      let h1 ← setNext m.heap tl (some a)
      let h2 ← setPrev h1 a (some tl)
      let h3 ← setNext h2 a none
      some ⟨h3, m.fresh, m.head, some a, m.count + 1⟩

/-- `osc_message_u_prependAtom` (osc_message_u.c:255-268). -/
def prependAtom (m : Args α) (a : Nat) : Option (Args α) :=
  match m.head with
  | none => do
    let h1 ← setNext m.heap a none
    let h2 ← setPrev h1 a none
    some ⟨h2, m.fresh, some a, some a, m.count + 1⟩
  | some hd => do
    let h1 ← setNext m.heap a (some hd)
    let h2 ← setPrev h1 hd (some a)
    let h3 ← setPrev h2 a none
    some ⟨h3, m.fresh, some a, m.tail, m.count + 1⟩

/-- `for(i = 0; i < n; i++){ p = p->next; }` -/
def forward (h : Heap α) : Nat → Option Nat → Option (Option Nat)
  | 0, p => some p
  | _ + 1, none => none
  | n + 1, some a => match h a with
    | some nd => forward h n nd.next
    | none => none

/-- `for(i = 0; i < n; i++){ p = p->prev; }` -/
def backward (h : Heap α) : Nat → Option Nat → Option (Option Nat)
  | 0, p => some p
  | _ + 1, none => none
  | n + 1, some a => match h a with
    | some nd => backward h n nd.prev
    | none => none

/-- `osc_message_u_insertAtom` (osc_message_u.c:270-316).  `near` is the outcome of the floating point comparison on line 295,
which decides from which end the position is looked for; nothing is assumed about it.  A negative position is neither 0 nor
past the end; the forward loop then does not run. -/
def insertAtom (m : Args α) (a : Nat) (pos : Int) (near : Bool) : Option (Args α) :=
  match m.head with
  | none => do
    let h1 ← setPrev m.heap a none
    let h2 ← setNext h1 a none
    some ⟨h2, m.fresh, some a, some a, m.count + 1⟩
  | some hd =>
    if pos ≥ m.count then do
      let h1 ← setNextIf m.heap m.tail (some a)
      let h2 ← setPrev h1 a m.tail
      some ⟨h2, m.fresh, m.head, some a, m.count + 1⟩
    else if pos = 0 then do
      let h1 ← setNext m.heap a (some hd)
      let h2 ← setPrev h1 hd (some a)
      let h3 ← setPrev h2 a none
      some ⟨h3, m.fresh, some a, m.tail, m.count + 1⟩
    else do
      let p ← (if near then forward m.heap pos.toNat m.head
        else backward m.heap ((m.count : Int) - (pos + 1)).toNat m.tail : Option (Option Nat))
      match p with
      | none => none
      | some aa => do
        let n ← m.heap aa
        let h1 ← setNextIf m.heap n.prev (some a)
        let n1 ← h1 aa
        let h2 ← setPrev h1 a n1.prev
        let h3 ← setNext h2 a (some aa)
        let h4 ← setPrev h3 aa (some a)
        some ⟨h4, m.fresh, m.head, m.tail, m.count + 1⟩

/-- `osc_message_u_removeAtom` (osc_message_u.c:318-336).  The atom keeps its own links. -/
def removeAtom (m : Args α) (a : Nat) : Option (Args α) := do
  let n ← m.heap a
  let h1 ← setPrevIf m.heap n.next n.prev
  let n1 ← h1 a
  let h2 ← setNextIf h1 n1.prev n1.next
  let n2 ← h2 a
  let head := if some a = m.head then n2.next else m.head
  let tail := if some a = m.tail then n2.prev else m.tail
  some ⟨h2, m.fresh, head, tail, m.count - 1⟩

/-- `osc_message_u_getArg` (osc_message_u.c:212-238).  `argc / n < .5` holds exactly when `n` is negative or more than twice
`argc`. -/
def getArg (m : Args α) (n : Int) : Option (Option Nat) :=
  if (m.count : Int) ≤ n then some none
  else if n = 0 then some m.head
  else if n < 0 ∨ 2 * (m.count : Int) < n then forward m.heap n.toNat m.head
  else backward m.heap ((m.count : Int) - 1 - n).toNat m.tail

/-- The iterator (osc_message_iterator_u.c:35-66): `start.next` is the head, `next` follows `next` pointers, `hasNext` tests
them: the atoms met by `while(hasNext) next`. -/
def iterate (m : Args α) : Option (List (Nat × α)) := walkNext m.heap m.fresh m.head

/-- Editing operations a client performs.  New atoms are appended, prepended or inserted at a position; an atom at an index is
removed and freed, or removed and put back somewhere else. -/
inductive Op (α : Type) where
  | append (x : α)
  | prepend (x : α)
  | insert (x : α) (pos : Int) (near : Bool)
  | remove (i : Nat)
  | moveToEnd (i : Nat)
  | moveToFront (i : Nat)
  | moveTo (i : Nat) (pos : Int) (near : Bool)

/-- Fetch the atom at an index with `getArg`, remove it, and go on with it; an index past the end does nothing. -/
def withRemoved (m : Args α) (i : Nat) (f : Args α → Nat → Option (Args α)) : Option (Args α) := do
  let p ← getArg m i
  match p with
  | none => some m
  | some a => do
    let m1 ← removeAtom m a
    f m1 a

def step (m : Args α) : Op α → Option (Args α)
  | .append x => appendAtom (newAtom m x).1 (newAtom m x).2
  | .prepend x => prependAtom (newAtom m x).1 (newAtom m x).2
  | .insert x pos near => insertAtom (newAtom m x).1 (newAtom m x).2 pos near
  | .remove i => withRemoved m i freeAtom
  | .moveToEnd i => withRemoved m i appendAtom
  | .moveToFront i => withRemoved m i prependAtom
  | .moveTo i pos near => withRemoved m i fun m a => insertAtom m a pos near

def run (m : Args α) : List (Op α) → Option (Args α)
  | [] => some m
  | o :: os => (step m o).bind fun m => run m os

end Libo.Args
