import Verif.Hashtab
/-!
# Sets of results in memory

`Query.lean` has the list of results of a set as a list.  Here the results are blocks of memory that are linked in both directions, as in
`/repo/osc_rset.r`, with the iterator over them and with freeing.
Simplified: a bundle of matches is the list of its messages (its bytes are in `Query.lean`), so it has no block of its own, nor has a selector; they are freed
together with their result (`osc_rset_result_free`).  Allocation gives a new block at the end of memory and does not fail.
-/

namespace Libo.RMem
open Libo HT

/-- `t_osc_rset_result` (`osc_rset.r` lines 36-42). -/
structure Cell where
  sel : Bytes
  full : List Bytes
  part : List Bytes
  next : Option Nat
  prev : Option Nat
deriving DecidableEq

/-- `t_osc_rset` (`osc_rset.r` lines 44-50), and the blocks of results; a block that has been freed is `none`. -/
structure RS where
  ht : HT Nat
  cells : List (Option Cell)
  selectors : Option Nat
  current : Option Nat
  numselectors : Nat
  unmatched : List Bytes

/-- `osc_rset_alloc` (`osc_rset.c` lines 50-61). -/
def alloc : Option RS := (HT.new 0).map fun ht => ⟨ht, [], none, none, 0, []⟩

/-- The block of a result; it must not have been freed. -/
def cell (l : List (Option Cell)) (p : Nat) : Option Cell := (l[p]?).bind id

/-- `while(r->next){ r = r->next; }` (`osc_rset.c` lines 114-116).  The first argument bounds the number of rounds by the number of blocks. -/
def last (l : List (Option Cell)) : Nat → Nat → Option Nat
  | 0, _ => none
  | f + 1, r => (cell l r).bind fun c => match c.next with
    | none => some r
    | some n => last l f n

/-- `r->next = res; res->prev = r;` (`osc_rset.c` lines 117-118). -/
def link (l : List (Option Cell)) (r res : Nat) : Option (List (Option Cell)) :=
  (cell l r).bind fun c =>
    let l := l.set r (some { c with next := some res })
    (cell l res).map fun d => l.set res (some { d with prev := some r })

/-- `osc_rset_result_alloc` (`osc_rset.c` lines 237-249) followed by `osc_rset_appendResult` (lines 107-123). -/
def append (m : RS) (sel : Bytes) : Option (RS × Nat) :=
  let res := m.cells.length
  let l := m.cells ++ [some ⟨sel, [], [], none, none⟩]
  (match m.selectors with
    | none => some (l, some res)
    | some r => ((last l l.length r).bind fun r => link l r res).map fun l => (l, some r)).bind fun (q : List (Option Cell) × Option Nat) =>
  (HT.store m.ht sel.length sel res).map fun (r : HT Nat × List (Bytes × Nat)) => ({ m with ht := r.1, cells := q.1, selectors := q.2, numselectors := m.numselectors + 1 }, res)

/-- `osc_rset_select` (`osc_rset.c` lines 125-132), and the new result if there is none (lines 137-141, 152-156). -/
def resultFor (m : RS) (sel : Bytes) : Option (RS × Nat) :=
  (HT.lookup m.ht sel.length sel).bind fun r => match r with
    | some p => some (m, p)
    | none => append m sel

/-- `osc_rset_addCompleteMatch` (`osc_rset.c` lines 134-147, 267-275). -/
def addFull (m : RS) (sel msg : Bytes) : Option RS :=
  (resultFor m sel).bind fun r => (cell r.1.cells r.2).map fun c => { r.1 with cells := r.1.cells.set r.2 (some { c with full := c.full ++ [msg] }) }

/-- `osc_rset_addPartialMatch` (`osc_rset.c` lines 149-162, 277-285). -/
def addPart (m : RS) (sel msg : Bytes) : Option RS :=
  (resultFor m sel).bind fun r => (cell r.1.cells r.2).map fun c => { r.1 with cells := r.1.cells.set r.2 (some { c with part := c.part ++ [msg] }) }

/-- `osc_rset_addUnmatched` (`osc_rset.c` lines 164-172). -/
def addUnmatched (m : RS) (msg : Bytes) : RS := { m with unmatched := m.unmatched ++ [msg] }

/-- `osc_rset_initIterator` (`osc_rset.c` lines 72-77). -/
def initIterator (m : RS) : RS := { m with current := m.selectors }

/-- `osc_rset_hasNext` (`osc_rset.c` lines 79-90). -/
def hasNext (m : RS) : Bool := m.current.isSome

/-- `osc_rset_next` (`osc_rset.c` lines 92-105). -/
def next (m : RS) : Option (RS × Option Nat) :=
  match m.current with
  | none => some (m, none)
  | some p => (cell m.cells p).map fun c => ({ m with current := c.next }, some p)

/-- `osc_rset_hashtab_dtor` (`osc_rset.c` lines 287-292) with `osc_rset_result_free` (lines 251-265): the block must not have been freed. -/
def freeResult (l : List (Option Cell)) (p : Nat) : Option (List (Option Cell)) := (cell l p).map fun _ => l.set p none

/-- `osc_rset_free` (`osc_rset.c` lines 63-70) with `osc_hashtab_destroy` (`osc_hashtab.c` lines 278-307): the blocks of results that remain. -/
def free (m : RS) : Option (List (Option Cell)) := ((HT.clear m.ht).2.map (·.2)).foldlM freeResult m.cells

end Libo.RMem
