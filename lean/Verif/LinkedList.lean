import Verif.DLL
/-!
# The linked list (osc_linkedlist.c)

The list pointer itself is never NULL here.  Element payloads are `void *`; a payload argument may be NULL (`none`), a stored
one never is.  Allocation always succeeds and always yields a new address (`fresh`).  Simplification: `count` and the `int`
loop counters are unbounded, so lists of more than 2^31 elements are out of scope.
-/

namespace Libo.LL
open Libo Libo.Heap

variable {α : Type}

/-- `t_osc_linkedlist` (osc_linkedlist.r) with the memory its elements live in. -/
structure LL (α : Type) where
  heap : Heap α
  /-- the next address the allocator will return -/
  fresh : Nat
  head : Option Nat
  tail : Option Nat
  count : Nat

/-- `osc_linkedlist_new`, `osc_linkedlist_init` (osc_linkedlist.c:38-54). -/
def new : LL α := ⟨fun _ => none, 0, none, none, 0⟩

/-- `osc_linkedlist_prepend` (osc_linkedlist.c:127-142) with `osc_linkedlist_elem_alloc` (110-118). -/
def prepend (s : LL α) (d : Option α) : Option (LL α) :=
  match d with
  | none => some s
  | some x =>
    let e := s.fresh
    let h0 := upd s.heap e (some ⟨x, none, none⟩)
    match s.head with
    | some hd => do
      let h1 ← setPrev h0 hd (some e)
      let h2 ← setNext h1 e (some hd)
      let h3 ← setPrev h2 e none
      some ⟨h3, e + 1, some e, s.tail, s.count + 1⟩
    | none => some ⟨h0, e + 1, some e, some e, s.count + 1⟩

/-- `osc_linkedlist_append` (osc_linkedlist.c:144-159). -/
def append (s : LL α) (d : Option α) : Option (LL α) :=
  match d with
  | none => some s
  | some x =>
    let e := s.fresh
    let h0 := upd s.heap e (some ⟨x, none, none⟩)
    match s.tail with
    | some tl => do
      let h1 ← setNext h0 tl (some e)
      let h2 ← setNext h1 e none
      let h3 ← setPrev h2 e (some tl)
      some ⟨h3, e + 1, s.head, some e, s.count + 1⟩
    | none => some ⟨h0, e + 1, some e, some e, s.count + 1⟩

/-- `osc_linkedlist_unlink` (osc_linkedlist.c:161-190). -/
def unlink (s : LL α) (e : Nat) : Option (LL α) := do
  let n ← s.heap e
  let head := if s.head = some e then n.next else s.head
  let tail := if s.tail = some e then n.prev else s.tail
  let h1 ← setPrevIf s.heap n.next n.prev
  let n1 ← h1 e
  let h2 ← setNextIf h1 n1.prev n1.next
  let h3 ← setPrev h2 e none
  let h4 ← setNext h3 e none
  some ⟨h4, s.fresh, head, tail, s.count - 1⟩

/-- The common tail of the pop functions: unlink, read the payload, free (osc_linkedlist.c:278-281). -/
def take (s : LL α) (e : Nat) : Option (LL α × α) := do
  let s1 ← unlink s e
  let n ← s1.heap e
  let h ← free s1.heap e
  some ({ s1 with heap := h }, n.data)

/-- `osc_linkedlist_popHead` (osc_linkedlist.c:271-285). -/
def popHead (s : LL α) : Option (LL α × Option α) :=
  match s.head with
  | none => some (s, none)
  | some e => (take s e).map fun r => (r.1, some r.2)

/-- `osc_linkedlist_popTail` (osc_linkedlist.c:287-302). -/
def popTail (s : LL α) : Option (LL α × Option α) :=
  match s.tail with
  | none => some (s, none)
  | some e => (take s e).map fun r => (r.1, some r.2)

/-- The forward loop of `peekNth`/`popNth` (osc_linkedlist.c:248-256, 319-328): the element at which `i == n`, if any.
Running out of fuel means the chain is cyclic and the loop may never end. -/
def findFwd (h : Heap α) (n : Int) : Nat → Option Nat → Int → Option (Option Nat)
  | _, none, _ => some none
  | 0, some _, _ => none
  | fuel + 1, some a, i =>
    if i = n then some (some a)
    else
      match h a with
      | some nd => findFwd h n fuel nd.next (i + 1)
      | none => none

/-- The backward loop (osc_linkedlist.c:258-266, 330-339). -/
def findBwd (h : Heap α) (n : Int) : Nat → Option Nat → Int → Option (Option Nat)
  | _, none, _ => some none
  | 0, some _, _ => none
  | fuel + 1, some a, i =>
    if i = n then some (some a)
    else
      match h a with
      | some nd => findBwd h n fuel nd.prev (i - 1)
      | none => none

/-- The element `peekNth`/`popNth` select (osc_linkedlist.c:239-267, 309-340).  `n` is an `int`, `count` an `unsigned long`: in
`n == count - 1` and `n < count / 2` a negative `n` is converted to a huge unsigned number. -/
def select (s : LL α) (n : Int) : Option (Option Nat) :=
  if n = 0 then some s.head
  else if n = (s.count : Int) - 1 ∨ n = -1 then some s.tail
  else if 0 ≤ n ∧ n < (s.count / 2 : Nat) then findFwd s.heap n s.fresh s.head 0
  else findBwd s.heap n s.fresh s.tail ((s.count : Int) - 1)

/-- `osc_linkedlist_popNth` (osc_linkedlist.c:304-349). -/
def popNth (s : LL α) (n : Int) : Option (LL α × Option α) :=
  match select s n with
  | none => none
  | some none => some (s, none)
  | some (some e) => (take s e).map fun r => (r.1, some r.2)

/-- `osc_linkedlist_peekNth` (osc_linkedlist.c:234-269); `peekHead` (208-219) is `n = 0`, `peekTail` (221-232) `n = -1`. -/
def peekNth (s : LL α) (n : Int) : Option (Option α) :=
  match select s n with
  | none => none
  | some none => some none
  | some (some e) => (s.heap e).map fun nd => some nd.data

/-- The loop of `osc_linkedlist_clear` (osc_linkedlist.c:59-76): every element is freed; the payloads are handed to the
destructor in this order. -/
def clearLoop : Nat → Heap α → Option Nat → Option (Heap α × List α)
  | _, h, none => some (h, [])
  | 0, _, some _ => none
  | fuel + 1, h, some a =>
    match h a with
    | none => none
    | some nd => do
      let h' ← free h a
      let r ← clearLoop fuel h' nd.next
      some (r.1, nd.data :: r.2)

/-- `osc_linkedlist_clear` (osc_linkedlist.c:56-80). -/
def clear (s : LL α) : Option (LL α × List α) := do
  let r ← clearLoop s.fresh s.heap s.head
  some (⟨r.1, s.fresh, none, none, 0⟩, r.2)

/-- `osc_linkedlist_iterate` (osc_linkedlist.c:352-368): the calls `cb(context, index, data)` it makes. -/
def iterate (s : LL α) : Option (List (Int × Option α)) :=
  (walkNext s.heap s.fresh s.head).map fun l =>
    ((l.map Prod.snd).zipIdx.map fun p => ((p.2 : Int), some p.1)) ++ [(-1, none)]

/-- The calls of the clone callback (osc_linkedlist.c:82-90). -/
def cloneLoop (copy : α → α) : LL α → List (Int × Option α) → Option (LL α)
  | c, [] => some c
  | c, (i, d) :: rest =>
    match d with
    | some x => if 0 ≤ i then (append c (some (copy x))).bind (cloneLoop copy · rest) else cloneLoop copy c rest
    | none => cloneLoop copy c rest

/-- `osc_linkedlist_clone` (osc_linkedlist.c:92-100).  Simplification: the clone gets its own memory. -/
def clone (s : LL α) (copy : α → α) : Option (LL α) := do
  let calls ← iterate s
  cloneLoop copy new calls

/-- The operations of the API. -/
inductive Op (α : Type) where
  | prepend (d : Option α)
  | append (d : Option α)
  | popHead
  | popTail
  | popNth (n : Int)
  | clear

/-- What an operation hands back. -/
inductive Out (α : Type) where
  | unit
  | elem (d : Option α)
  | destroyed (ds : List α)
deriving DecidableEq

def step (s : LL α) : Op α → Option (LL α × Out α)
  | .prepend d => (prepend s d).map fun s => (s, .unit)
  | .append d => (append s d).map fun s => (s, .unit)
  | .popHead => (popHead s).map fun r => (r.1, .elem r.2)
  | .popTail => (popTail s).map fun r => (r.1, .elem r.2)
  | .popNth n => (popNth s n).map fun r => (r.1, .elem r.2)
  | .clear => (clear s).map fun r => (r.1, .destroyed r.2)

def run (s : LL α) : List (Op α) → Option (LL α × List (Out α))
  | [] => some (s, [])
  | o :: os => do
    let r ← step s o
    let r' ← run r.1 os
    some (r'.1, r.2 :: r'.2)

end Libo.LL
