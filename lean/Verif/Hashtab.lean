import Verif.Basic
/-!
# The hash table (osc_hashtab.c)

The chains hanging off the slots are lists of entries (the elements' addresses are never visible to a caller).  Keys are the
contents of the caller's strings, which the table refers to without copying: callers must not change a key while it is in the
table, and here they do not.  A key is a NUL-free byte string; `keylen` is a separate argument of every function, as in the
code.  `live` counts the elements allocated and not yet freed.
-/

namespace Libo.HT
open Libo

variable {V : Type}

/-- `t_osc_hashtab` (osc_hashtab.r). -/
structure HT (V : Type) where
  slots : List (List (Bytes × V))
  nslots : Nat
  nentries : Int
  live : Nat
deriving DecidableEq

/-- `(*key)` where `char` is signed, converted to 64 bits. -/
def sext (c : UInt8) : UInt64 := if c < 128 then c.toUInt64 else c.toUInt64 + 0xFFFFFFFFFFFFFF00

/-- `osc_hash` (osc_hashtab.c:55-71), LP64: `OSC_HASHTYPE` has 64 bits, the result is cut to 32.  The string is read with its
terminator; reading behind that is undefined. -/
def hashLoop (key : Bytes) : Nat → Nat → UInt64 → Option UInt64
  | 0, _, h => some h
  | n + 1, i, h =>
    match (key ++ [0])[i]? with
    | none => none
    | some c =>
      let h := (h <<< 4) + sext c
      let x := h &&& 0xF0000000
      let h := if x ≠ 0 then h ^^^ (x >>> 24) else h
      hashLoop key n (i + 1) (h &&& ~~~ x)

def hash (keylen : Nat) (key : Bytes) : Option Nat := (hashLoop key keylen 0 0).map fun h => h.toUInt32.toNat

/-- `primes` (osc_hashtab.c:35-50). -/
def primes : List Nat := [17, 37, 67, 137, 271, 541, 1181, 2371, 4759, 9521, 19037, 38083, 76157, 152287]

/-- `osc_hashtab_getPrime` (osc_hashtab.c:83-91): the first prime above `n`; when there is none the code reads one past the end
of the table. -/
def getPrime (n : Nat) : Option Nat := primes.find? (n < ·)

/-- `osc_hashtab_new` (osc_hashtab.c:121-136), allocation succeeding. -/
def new (nslots : Int) : Option (HT V) :=
  let n := if nslots ≤ 0 then 541 else nslots.toNat
  (getPrime n).map fun p => ⟨List.replicate p [], p, 0, 0⟩

/-- The search loop of `osc_hashtab_store_elem` (osc_hashtab.c:144-157): when the key is found its key and value are
overwritten in place; the old pair goes to the destructor. -/
def replaceIn (k : Bytes) (v : V) : List (Bytes × V) → Option (List (Bytes × V) × (Bytes × V))
  | [] => none
  | e :: es => if e.1 = k then some ((k, v) :: es, e) else (replaceIn k v es).map fun r => (e :: r.1, r.2)

/-- The slot a key goes to, with its chain. -/
def chainOf (t : HT V) (keylen : Nat) (key : Bytes) : Option (Nat × List (Bytes × V)) := do
  let h ← hash keylen key
  let c ← t.slots[h % t.nslots]?
  some (h % t.nslots, c)

/-- `osc_hashtab_store` (osc_hashtab.c:138-162, 184-211).  The second component lists the pairs handed to the table's
destructor. -/
def store (t : HT V) (keylen : Nat) (key : Bytes) (v : V) : Option (HT V × List (Bytes × V)) := do
  let (i, c) ← chainOf t keylen key
  match replaceIn key v c with
  | some (c', old) => some ({ t with slots := t.slots.set i c' }, [old])
  | none => some (⟨t.slots.set i ((key, v) :: c), t.nslots, t.nentries + 1, t.live + 1⟩, [])

/-- `osc_hashtab_storeSafe` (osc_hashtab.c:164-182, 184-203, 213-218).  On a duplicate the new element is neither linked nor
freed. -/
def storeSafe (t : HT V) (keylen : Nat) (key : Bytes) (v : V) : Option (HT V) := do
  let (i, c) ← chainOf t keylen key
  if c.any (·.1 = key) then some { t with live := t.live + 1 }
  else some ⟨t.slots.set i ((key, v) :: c), t.nslots, t.nentries + 1, t.live + 1⟩

/-- The loop of `osc_hashtab_lookup` (osc_hashtab.c:226-231). -/
def lookIn (k : Bytes) : List (Bytes × V) → Option V
  | [] => none
  | e :: es => if e.1 = k then some e.2 else lookIn k es

/-- `osc_hashtab_lookup` (osc_hashtab.c:220-233); the inner `none` is NULL. -/
def lookup (t : HT V) (keylen : Nat) (key : Bytes) : Option (Option V) := do
  let (_, c) ← chainOf t keylen key
  some (lookIn key c)

/-- The loop of `osc_hashtab_remove` (osc_hashtab.c:243-260): the chain left over and the pairs handed to the destructor. -/
def removeIn (k : Bytes) : List (Bytes × V) → List (Bytes × V) × List (Bytes × V)
  | [] => ([], [])
  | e :: es =>
    let r := removeIn k es
    if k = e.1 then (r.1, e :: r.2) else (e :: r.1, r.2)

/-- `osc_hashtab_remove` (osc_hashtab.c:235-261). -/
def remove (t : HT V) (keylen : Nat) (key : Bytes) : Option (HT V × List (Bytes × V)) := do
  let (i, c) ← chainOf t keylen key
  let r := removeIn key c
  some (⟨t.slots.set i r.1, t.nslots, t.nentries - r.2.length, t.live - r.2.length⟩, r.2)

/-- `osc_hashtab_foreach` (osc_hashtab.c:263-276): the pairs the callback is called with. -/
def foreach (t : HT V) : List (Bytes × V) := (t.slots.take t.nslots).flatten

/-- `osc_hashtab_clear` (osc_hashtab.c:278-297); the pairs go to the destructor. -/
def clear (t : HT V) : HT V × List (Bytes × V) :=
  (⟨List.replicate t.nslots [], t.nslots, 0, t.live - (foreach t).length⟩, foreach t)

end Libo.HT
