import Verif.Hashtab
/-!
# Model of rebinding and renaming in tables of handlers (`osc_vtable.c`, `osc_hashtab.c`)

The hash table inside a table of handlers refers to the keys it is given and does not copy them.  Renaming an entry writes to
such a key, so here strings are blocks of a heap, and the hash table holds the names of the blocks.
-/

namespace Libo.VT
open Libo

/-- The contents of the blocks; `none` for a block that was freed. -/
abbrev Heap := List (Option Bytes)

def block (h : Heap) (b : Nat) : Option Bytes := h[b]?.join

/-- The string in a block; without a terminator, reading it is undefined. -/
def text (c : Bytes) : Option Bytes := if 0 ∈ c then some (c.takeWhile (· != 0)) else none

/-- The string a pointer to the start of a block denotes. -/
def str (h : Heap) (b : Nat) : Option Bytes := (block h b).bind text

/-- `t_osc_vtable_entry` (`osc_vtable.r`): the block of the selector, method and context. -/
structure Entry where
  sel : Nat
  method : Nat
  ctx : Nat
deriving DecidableEq, Repr

/-- A pointer to an entry: how often the array had been reallocated when it was taken, and the index. -/
abbrev EPtr := Nat × Nat

/-- `t_osc_vtable` (`osc_vtable.r`) with its hash table (`osc_hashtab.r`), whose chains hold blocks of keys and pointers. -/
structure Tab where
  entries : List Entry
  slots : Nat
  gen : Nat
  chains : List (List (Nat × EPtr))

/-- `osc_hash(keylen, key)` (`osc_hashtab.c` lines 55-71) reads the first `keylen` bytes. -/
def hashOf (keylen : Nat) (c : Bytes) : Option Nat := if c.length < keylen then none else HT.hash keylen (c.take keylen)

/-- `ht->slots[h % ht->nslots]` (`osc_hashtab.c` lines 143, 225, 241). -/
def slotFor (t : Tab) (keylen : Nat) (c : Bytes) : Option (Nat × List (Nat × EPtr)) := do
  let h ← hashOf keylen c
  let l ← t.chains[h % t.chains.length]?
  some (h % t.chains.length, l)

/-- The loop of `osc_hashtab_lookup` (`osc_hashtab.c` lines 226-231). -/
def lookIn (h : Heap) (k : Bytes) : List (Nat × EPtr) → Option (Option EPtr)
  | [] => some none
  | e :: es => do
    let s ← str h e.1
    if s = k then some (some e.2) else lookIn h k es

/-- `osc_hashtab_lookup(ht, strlen(key), key)` (`osc_hashtab.c` lines 220-233) as `osc_vtable_getEntryBySelector`
(`osc_vtable.c` lines 132-134) calls it; the argument is the block of the key. -/
def lookup (h : Heap) (t : Tab) (b : Nat) : Option (Option EPtr) := do
  let c ← block h b
  let k ← text c
  let (_, l) ← slotFor t k.length c
  lookIn h k l

/-- The search loop of `osc_hashtab_store_elem` (`osc_hashtab.c` lines 144-157): the inner `none` if the key is not there. -/
def replaceIn (h : Heap) (k : Bytes) (x : Nat × EPtr) : List (Nat × EPtr) → Option (Option (List (Nat × EPtr)))
  | [] => some none
  | e :: es => do
    let s ← str h e.1
    if s = k then some (some (x :: es)) else (replaceIn h k x es).map fun r => r.map (e :: ·)

/-- `osc_hashtab_store(ht, strlen(key), key, val)` (`osc_hashtab.c` lines 138-162, 184-211). -/
def store (h : Heap) (t : Tab) (b : Nat) (p : EPtr) : Option Tab := do
  let c ← block h b
  let k ← text c
  let (i, l) ← slotFor t k.length c
  match ← replaceIn h k (b, p) l with
  | some l' => some { t with chains := t.chains.set i l' }
  | none => some { t with chains := t.chains.set i ((b, p) :: l) }

/-- The loop of `osc_hashtab_remove` (`osc_hashtab.c` lines 243-260). -/
def removeIn (h : Heap) (k : Bytes) : List (Nat × EPtr) → Option (List (Nat × EPtr))
  | [] => some []
  | e :: es => do
    let s ← str h e.1
    let r ← removeIn h k es
    if k = s then some r else some (e :: r)

/-- `osc_hashtab_remove(ht, keylen, key, NULL)` (`osc_hashtab.c` lines 235-261). -/
def remove (h : Heap) (t : Tab) (keylen b : Nat) : Option Tab := do
  let c ← block h b
  let k ← text c
  let (i, l) ← slotFor t keylen c
  let l' ← removeIn h k l
  some { t with chains := t.chains.set i l' }

/-- `osc_vtable_alloc` (`osc_vtable.c` lines 38-52). -/
def alloc (n : Nat) : Option Tab :=
  (HT.new n : Option (HT.HT Nat)).map fun ht => ⟨[], n, 0, List.replicate ht.nslots []⟩

/-- Use of a pointer to an entry. -/
def index (t : Tab) (p : EPtr) : Option Nat := if p.1 = t.gen ∧ p.2 < t.entries.length then some p.2 else none

/-- The growth step at the start of `osc_vtable_addEntry` (`osc_vtable.c` lines 83-88). -/
def grow (t : Tab) : Tab :=
  if t.slots ≤ t.entries.length then { t with slots := t.slots + 1, gen := t.gen + 1 } else t

/-- `osc_vtable_addEntry` (`osc_vtable.c` lines 78-115); the selector is copied to a new block. -/
def addEntry (h : Heap) (t : Tab) (b method ctx : Nat) : Option (Heap × Tab) := do
  let t := grow t
  match ← lookup h t b with
  | some p => do
    let i ← index t p
    let e ← t.entries[i]?
    some (h, { t with entries := t.entries.set i { e with method := method, ctx := ctx } })
  | none => do
    let k ← str h b
    let h' := h ++ [some (k ++ [0])]
    let t' ← store h' t h.length (t.gen, t.entries.length)
    some (h', { t' with entries := t.entries ++ [⟨h.length, method, ctx⟩] })

/-- `osc_vtable_rebindSelector` (`osc_vtable.c` lines 152-159) without a context, and `osc_vtable_rebindSelectorWithContext`
(lines 161-173) with one: error code (0x20 is `OSC_ERR_INVAL`) and the table. -/
def rebind (h : Heap) (t : Tab) (b method : Nat) (ctx : Option Nat) : Option (Nat × Tab) := do
  match ← lookup h t b with
  | none => some (0x20, t)
  | some p => do
    let i ← index t p
    let e ← t.entries[i]?
    some (0, { t with entries := t.entries.set i { e with method := method, ctx := ctx.getD e.ctx } })

/-- `osc_vtable_renameEntry` (`osc_vtable.c` lines 175-189).  `osc_mem_resize` may move the block: the old one is gone, the new
one holds what was in it.  `strncpy` to itself is undefined, and so is writing behind the block. -/
def rename (h : Heap) (t : Tab) (old new : Nat) : Option (Nat × Heap × Tab) := do
  match ← lookup h t old with
  | none => some (0x20, h, t)
  | some p => do
    let i ← index t p
    let e ← t.entries[i]?
    let o ← str h old
    let n ← str h new
    let c ← block h e.sel
    let (h, sel, c) := if o.length < n.length
      then (h.set e.sel none ++ [some (c ++ List.replicate (n.length + 1 - c.length) 0)], h.length,
        c ++ List.replicate (n.length + 1 - c.length) 0)
      else (h, e.sel, c)
    if c.length < n.length + 1 ∨ new = sel then none
    else do
      let h := h.set sel (some (n ++ 0 :: c.drop (n.length + 1)))
      let t ← remove h t o.length old
      let t ← store h t new p
      some (0, h, { t with entries := t.entries.set i { e with sel := sel } })

/-- `osc_vtable_free` (`osc_vtable.c` lines 54-68): the blocks of the selectors are freed, which must not have been freed before.  The array of entries and
the hash table are freed too; its keys are not read, as it has no destructor.  The block of the table itself is not freed by the code. -/
def free (h : Heap) (t : Tab) : Option Heap := t.entries.foldlM (fun h e => (block h e.sel).map fun _ => h.set e.sel none) h

/-- `osc_vtable_call` (`osc_vtable.c` lines 202-214) with `osc_vtable_callWithEntry` (lines 191-200): the number returned, and
method and context of the call made. -/
def call (h : Heap) (t : Tab) (b : Nat) : Option (Nat × Option (Nat × Nat)) := do
  match ← lookup h t b with
  | none => some (1, none)
  | some p => do
    let i ← index t p
    let e ← t.entries[i]?
    some (0, some (e.method, e.ctx))

end Libo.VT
