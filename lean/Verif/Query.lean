import Verif.MsgS
import Verif.Hashtab
/-!
# Model of queries and dispatch (`osc_query.c`, `osc_rset.c`, `osc_vtable.c`, `osc_dispatch.c`)

Compiled without `NEST`, as in the source.  Memory exhaustion and the freeing of memory are not modelled.  Handlers are
recorded as calls; they are taken not to touch the table or the bundle.
-/

namespace Libo.Query
open Libo Libo.Match Libo.HT

/-- A `t_osc_bndl_s *`: NULL, or length and data pointer. -/
abbrev BPtr := Option (Int × Option Bytes)

/-- `osc_bundle_s_appendMessage_b` (`osc_bundle_s.c` lines 479-485). -/
def appendMessageB (b : BPtr) (msg : Option Bytes) : Option BPtr :=
  (appendMessage (b.getD (0, none)).1 (b.getD (0, none)).2 msg).map some

/-- What the test of a message against a selector says. -/
inductive Verdict where
  | full
  | part (po ao : Nat)
  | miss
deriving DecidableEq, Repr

/-- The test shared by `osc_query_select_impl` (`osc_query.c` lines 68-76, 108, 115) and `osc_dispatch_msg`
(`osc_dispatch.c` lines 67-74, 106, 110): the message's address is the pattern. -/
def verdict (addr sel : Bytes) : Option Verdict := do
  let r ← oscMatch addr sel
  let c ← ch addr r.po
  let star ← (if c = 42 then (ch addr (r.po + 1)).map (· == 0) else some false : Option Bool)
  if r.code &&& 1 ≠ 0 ∧ r.code &&& 2 ≠ 0 then some .full
  else if 0 < r.po ∧ (c = 47 ∨ star = true) then some (.part r.po r.ao)
  else some .miss

/-- The renamed copy of a partially matched message (`osc_query.c` lines 118-122, `osc_dispatch.c` lines 113-117), with the
address cut at offset `off`.  When `osc_message_s_renameCopy` refuses the name, the buffer is used uninitialised: UB.  An
offset behind the end of the address is UB too (the length passed would be negative). -/
def stripped (buf : Bytes) (v : View) (addr : Bytes) (off : Nat) : Option Bytes := do
  let size ← rdI32 buf v.size
  if addr.length < off then none
  else do
    let r ← MsgS.renameCopy buf v (addr.drop off) (addr.length - off)
    match r.2 with
    | none => none
    | some w => if (w.length : Int) ≤ size + 4 then some w else none

/-! ## Result sets -/

/-- `t_osc_rset_result` (`osc_rset.r`): selector, complete and partial matches. -/
structure RRes where
  sel : Bytes
  full : BPtr
  part : BPtr
deriving DecidableEq

/-- `t_osc_rset` (`osc_rset.r`): the linked list of results is a list, the values in the table are positions in it. -/
structure RSet where
  ht : HT Nat
  results : List RRes
  unmatched : BPtr

/-- `osc_rset_alloc` (`osc_rset.c` lines 50-61). -/
def RSet.alloc : Option RSet := (HT.new 0).map fun ht => ⟨ht, [], none⟩

/-- `osc_rset_appendResult` (`osc_rset.c` lines 107-123). -/
def RSet.appendResult (rs : RSet) (r : RRes) : Option RSet := do
  let (ht, _) ← HT.store rs.ht r.sel.length r.sel rs.results.length
  some { rs with ht := ht, results := rs.results ++ [r] }

/-- `osc_rset_select` (`osc_rset.c` lines 125-132). -/
def RSet.select (rs : RSet) (sel : Bytes) : Option (Option Nat) := HT.lookup rs.ht sel.length sel

/-- The common part of `osc_rset_addCompleteMatch` and `osc_rset_addPartialMatch` (`osc_rset.c` lines 134-162): find the
result for the selector or add an empty one (`osc_rset_result_alloc`, lines 237-249). -/
def RSet.resultFor (rs : RSet) (sel : Bytes) : Option (RSet × Nat) := do
  match ← rs.select sel with
  | some i => some (rs, i)
  | none => do
    let rs' ← rs.appendResult ⟨sel, none, none⟩
    some (rs', rs.results.length)

/-- `osc_rset_addCompleteMatch` (`osc_rset.c` lines 134-147, 267-275). -/
def RSet.addFull (rs : RSet) (sel : Bytes) (msg : Bytes) : Option RSet := do
  let (rs, i) ← rs.resultFor sel
  let r ← rs.results[i]?
  let b ← appendMessageB r.full (some msg)
  some { rs with results := rs.results.set i { r with full := b } }

/-- `osc_rset_addPartialMatch` (`osc_rset.c` lines 149-162, 277-285). -/
def RSet.addPart (rs : RSet) (sel : Bytes) (msg : Bytes) : Option RSet := do
  let (rs, i) ← rs.resultFor sel
  let r ← rs.results[i]?
  let b ← appendMessageB r.part (some msg)
  some { rs with results := rs.results.set i { r with part := b } }

/-- `osc_rset_addUnmatched` (`osc_rset.c` lines 164-172). -/
def RSet.addUnmatched (rs : RSet) (msg : Option Bytes) : Option RSet :=
  (appendMessageB rs.unmatched msg).map fun b => { rs with unmatched := b }

/-! ## Queries -/

/-- One round of the loop over the selectors (`osc_query.c` lines 63-135); the number counts the matches. -/
def trySelector (strip : Bool) (buf : Bytes) (v : View) (a : Bytes) (st : RSet × Nat) (sel : Option Bytes) :
    Option (RSet × Nat) :=
  match sel with
  | none => some st
  | some s => do
    match ← verdict a s with
    | .full => (st.1.addFull s (buf.drop v.size)).map fun rs => (rs, st.2 + 1)
    | .part po _ => do
      let m ← (if strip then stripped buf v a po else some (buf.drop v.size) : Option Bytes)
      (st.1.addPart s m).map fun rs => (rs, st.2 + 1)
    | .miss => some st

/-- One round of the loop over the messages (`osc_query.c` lines 59-140). -/
def selectMsg (strip : Bool) (buf : Bytes) (sels : List (Option Bytes)) (rs : RSet) (v : View) : Option RSet := do
  let a ← View.addr buf v
  let (rs, k) ← sels.foldlM (trySelector strip buf v a) (rs, 0)
  if k = 0 then rs.addUnmatched (some (buf.drop v.size)) else some rs

/-- `osc_query_select` (`osc_query.c` lines 149-175) with `osc_query_select_impl` (lines 49-147).  `rset = none` is a NULL
result set.  Result: error code and the result set. -/
def querySelect (sels : List (Option Bytes)) (len : Int) (bndl : Option Bytes) (strip : Bool) (rset : Option RSet) :
    Option (Nat × Option RSet) :=
  match bndl with
  | none => some (0x10, rset)
  | some buf => do
    let rs ← (match rset with | some rs => some rs | none => RSet.alloc : Option RSet)
    if len = 16 then (rs.addUnmatched none).map fun rs => (0, some rs)
    else do
      let vs ← Libo.iterate len buf
      let rs ← vs.foldlM (selectMsg strip buf sels) rs
      some (0, some rs)

/-! ## Tables of handlers -/

/-- `t_osc_vtable_entry` (`osc_vtable.r`); methods and contexts are names. -/
structure Entry where
  sel : Bytes
  method : Nat
  ctx : Nat
deriving DecidableEq, Repr

/-- `t_osc_vtable` (`osc_vtable.r`).  A pointer to an entry is a pair of the number of times the array had been reallocated
when the pointer was taken and the index; using it after another reallocation is UB. -/
structure VTab where
  entries : List Entry
  slots : Nat
  gen : Nat
  ht : HT (Nat × Nat)
  delegate : Option (Nat × Nat)

/-- `osc_vtable_alloc` (`osc_vtable.c` lines 38-52). -/
def VTab.alloc (n : Nat) : Option VTab := (HT.new n).map fun ht => ⟨[], n, 0, ht, none⟩

/-- `osc_vtable_setDelegationMethod` (`osc_vtable.c` lines 70-76). -/
def VTab.setDelegate (t : VTab) (method ctx : Nat) : VTab := { t with delegate := some (method, ctx) }

/-- `osc_vtable_getEntryBySelector` (`osc_vtable.c` lines 132-134). -/
def VTab.entryBySelector (t : VTab) (sel : Bytes) : Option (Option (Nat × Nat)) := HT.lookup t.ht sel.length sel

/-- Use of a pointer to an entry: its index (`osc_vtable_getIndexForEntry`, `osc_vtable.c` lines 136-141). -/
def VTab.index (t : VTab) (p : Nat × Nat) : Option Nat := if p.1 = t.gen ∧ p.2 < t.entries.length then some p.2 else none

/-- The growth step at the start of `osc_vtable_addEntry` (`osc_vtable.c` lines 83-88): `osc_mem_resize` may move the
array. -/
def VTab.grow (t : VTab) : VTab :=
  if t.slots ≤ t.entries.length then { t with slots := t.slots + 1, gen := t.gen + 1 } else t

/-- `osc_vtable_addEntry` (`osc_vtable.c` lines 78-115). -/
def VTab.addEntry (t : VTab) (sel : Bytes) (method ctx : Nat) : Option VTab := do
  let t := t.grow
  match ← t.entryBySelector sel with
  | some p => do
    let i ← t.index p
    let e ← t.entries[i]?
    some { t with entries := t.entries.set i { e with method := method, ctx := ctx } }
  | none => do
    let (ht, _) ← HT.store t.ht sel.length sel (t.gen, t.entries.length)
    some { t with ht := ht, entries := t.entries ++ [⟨sel, method, ctx⟩] }

/-! ## Dispatch -/

/-- A call made by the dispatcher. -/
inductive Call where
  | handler (method ctx : Nat) (part full : BPtr)
  | delegate (method ctx : Nat) (unmatched : BPtr)
deriving DecidableEq

/-- `osc_dispatch_msg` (`osc_dispatch.c` lines 61-131): whether it matched, and the two bundles. -/
def dispatchMsg (strip : Bool) (buf : Bytes) (v : View) (sel : Bytes) (part full : BPtr) : Option (Nat × BPtr × BPtr) := do
  let a ← View.addr buf v
  match ← verdict a sel with
  | .full => (appendMessageB full (some (buf.drop v.size))).map fun b => (1, part, b)
  | .part _ ao => do
    let m ← (if strip then stripped buf v a ao else some (buf.drop v.size) : Option Bytes)
    (appendMessageB part (some m)).map fun b => (1, b, full)
  | .miss => some (0, part, full)

/-- The loop over the entries (`osc_dispatch.c` lines 168-175): the two arrays of bundles are one list of pairs. -/
def dispatchEntries (strip : Bool) (buf : Bytes) (v : View) : List Entry → List (BPtr × BPtr) → Option (Nat × List (BPtr × BPtr))
  | [], bs => some (0, bs)
  | _ :: _, [] => none
  | e :: es, b :: bs => do
    let (k, p, f) ← dispatchMsg strip buf v e.sel b.1 b.2
    let (n, rest) ← dispatchEntries strip buf v es bs
    some (k + n, (p, f) :: rest)

/-- One round of the loop over the messages (`osc_dispatch.c` lines 163-179). -/
def dispatchRound (strip : Bool) (buf : Bytes) (es : List Entry) (st : List (BPtr × BPtr) × BPtr) (v : View) :
    Option (List (BPtr × BPtr) × BPtr) := do
  let (k, bs) ← dispatchEntries strip buf v es st.1
  if k = 0 then (appendMessageB st.2 (some (buf.drop v.size))).map fun u => (bs, u)
  else some (bs, st.2)

/-- `osc_dispatch_impl` (`osc_dispatch.c` lines 152-182) on arrays of NULL pointers: partial and complete matches for every
entry, and the unmatched messages. -/
def dispatchImpl (t : VTab) (len : Int) (buf : Bytes) (strip : Bool) : Option (List (BPtr × BPtr) × BPtr) := do
  let vs ← Libo.iterate len buf
  vs.foldlM (dispatchRound strip buf t.entries) (List.replicate t.entries.length (none, none), none)

/-- `osc_vtable_delegate` (`osc_vtable.c` lines 216-219); a NULL method is a crash. -/
def VTab.callDelegate (t : VTab) (u : BPtr) : Option Call := t.delegate.map fun d => .delegate d.1 d.2 u

/-- `osc_vtable_callWithEntry` (`osc_vtable.c` lines 191-200). -/
def callEntry (e : Entry) (b : BPtr × BPtr) : Call := .handler e.method e.ctx b.1 b.2

/-- `if(unmatched){ osc_vtable_delegate(...); }` (`osc_dispatch.c` lines 219-221, 274-276). -/
def delegateIf (t : VTab) (u : BPtr) : Option (List Call) :=
  match u with
  | none => some []
  | some b => (t.callDelegate (some b)).map fun c => [c]

/-- `osc_dispatch` (`osc_dispatch.c` lines 184-235): error code and the calls made. -/
def dispatch (t : VTab) (len : Int) (bndl : Option Bytes) (strip : Bool) : Option (Nat × List Call) :=
  match bndl with
  | none => some (0x10, [])
  | some buf =>
    if len = 16 then (t.callDelegate (some (len, some buf))).map fun c => (0, [c])
    else do
      let (bs, u) ← dispatchImpl t len buf strip
      let ds ← delegateIf t u
      some (0, ds ++ List.zipWith callEntry t.entries bs)

/-- The loop over the selectors of `osc_dispatch_selectors` (`osc_dispatch.c` lines 279-286). -/
def callSelectors (t : VTab) (bs : List (BPtr × BPtr)) : List Bytes → Option (List Call)
  | [] => some []
  | s :: ss => do
    match ← t.entryBySelector s with
    | none => callSelectors t bs ss
    | some p => do
      let i ← t.index p
      let e ← t.entries[i]?
      let b ← bs[i]?
      let cs ← callSelectors t bs ss
      some (callEntry e b :: cs)

/-- `osc_dispatch_selectors` (`osc_dispatch.c` lines 237-297). -/
def dispatchSelectors (t : VTab) (sels : List Bytes) (len : Int) (bndl : Option Bytes) (strip : Bool) :
    Option (Nat × List Call) :=
  match bndl with
  | none => some (0x10, [])
  | some buf =>
    if len = 16 then (t.callDelegate (some (len, some buf))).map fun c => (0, [c])
    else do
      let (bs, u) ← dispatchImpl t len buf strip
      let ds ← delegateIf t u
      let cs ← callSelectors t bs sels
      some (0, ds ++ cs)

end Libo.Query
