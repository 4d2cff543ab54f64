import Verif.BundleS
import Verif.ByteOrder
/-!
# Model of serialised messages (`osc_message_s.c`, `osc_message_iterator_s.c`, part of `osc_error.c`)

A message is a `View` into a buffer plus the optional cache of argument offsets and sizes.  Pointers are offsets into the
buffer; forming a pointer outside it is undefined behaviour (`none`).
-/

namespace Libo

/-- `t_osc_msg_s` (osc_message_s.r).  `cache` holds `data_offset_cache` and `data_size_cache`; `none` is `cache_size == 0`. -/
structure MsgS where
  view : View
  cache : Option (List (Int × Int))

/-- `t_osc_atom_s` (osc_atom_s.r): type tag and data pointer. -/
structure AtomS where
  tag : UInt8
  ptr : Nat
deriving DecidableEq, Repr

/-- A `size_t` used as pointer displacement: `(size_t)-1` moves one back. -/
def disp (n : Nat) : Int := if n = SIZE_MAX then -1 else n

/-- Conversion to `int`: the low 32 bits, two's complement. -/
def wrapI32 (x : Int) : Int := toI32 (x % 4294967296).toNat

/-- `p + d`, inside the block or one past its end. -/
def ptrAdd (buf : Bytes) (p : Nat) (d : Int) : Option Nat :=
  if 0 ≤ (p : Int) + d ∧ (p : Int) + d ≤ buf.length then some ((p : Int) + d).toNat else none

namespace MsgS

/-- `osc_message_s_getArgCount` (`osc_message_s.c` lines 194-203): `-1` for an empty type tag string. -/
def argCount (buf : Bytes) (v : View) : Option Int :=
  match v.typetags with
  | none => some 0
  | some t => (cstrlen buf t).map fun (n : Nat) => (n : Int) - 1

/-- `osc_message_s_getTypetag` (`osc_message_s.c` lines 214-222). -/
def typetag (buf : Bytes) (v : View) (n : Int) : Option UInt8 := do
  let nn ← argCount buf v
  if nn ≤ n then some 0
  else match v.typetags with
    | none => none
    | some t => do
      let p ← ptrAdd buf t (n + 1)
      rd8 buf p

/-- `osc_sizeof(osc_message_s_getTypetag(m, i), p)` as a displacement. -/
def sizeAt (buf : Bytes) (v : View) (i : Nat) (p : Nat) : Option Int := do
  let t ← typetag buf v i
  let n ← oscSizeof t (some (buf, p))
  some (disp n)

/-- The loop of `osc_message_s_getArg` (`osc_message_s.c` lines 239-243): `offset` after `n` rounds. -/
def offsetLoop (buf : Bytes) (v : View) (data : Nat) : Nat → Option Int
  | 0 => some 0
  | i + 1 => do
    let off ← offsetLoop buf v data i
    let p ← ptrAdd buf data off
    let s ← sizeAt buf v i p
    some (wrapI32 (off + s))

/-- `osc_message_s_getArg` (`osc_message_s.c` lines 224-252); the inner `none` is "nothing stored". -/
def getArg (buf : Bytes) (m : MsgS) (n : Int) : Option (Option AtomS) := do
  let nn ← argCount buf m.view
  if nn ≤ n then some none
  else do
    let tt ← typetag buf m.view n
    let data ← m.view.data
    match m.cache with
    | some c =>
      if n < 0 then none
      else do
        let e ← c[n.toNat]?
        let p ← ptrAdd buf data e.1
        some (some ⟨tt, p⟩)
    | none => do
      let off ← offsetLoop buf m.view data n.toNat
      let p ← ptrAdd buf data off
      some (some ⟨tt, p⟩)

/-- The loop of `osc_message_s_cacheDataOffsets` from argument `i` on, `k` rounds. -/
def cacheLoop (buf : Bytes) (v : View) (data : Nat) (i : Nat) (off : Int) : Nat → Option (List (Int × Int))
  | 0 => some []
  | k + 1 => do
    let p ← ptrAdd buf data off
    let s ← sizeAt buf v i p
    let rest ← cacheLoop buf v data (i + 1) (wrapI32 (off + wrapI32 s)) k
    some ((off, wrapI32 s) :: rest)

/-- `osc_message_s_cacheDataOffsets` (`osc_message_s.c` lines 254-270).  A count of 0 leaves `cache_size` 0; a count of -1
allocates nothing sensible but stores nothing either. -/
def cacheDataOffsets (buf : Bytes) (m : MsgS) : Option MsgS := do
  let n ← argCount buf m.view
  if n = 0 then some { m with cache := none }
  else if n < 0 then some { m with cache := some [] }
  else do
    let data ← m.view.data
    let c ← cacheLoop buf m.view data 0 0 n.toNat
    some { m with cache := some c }

/-- `t_osc_msg_it_s`: index of the next argument and data pointer. -/
structure It where
  n : Nat
  ptr : Option Nat

/-- `osc_message_iterator_s_getIterator` and `_resetIterator` (`osc_message_iterator_s.c` lines 35-50). -/
def it (m : MsgS) : It := ⟨0, m.view.data⟩

/-- `osc_message_iterator_s_hasNext` (`osc_message_iterator_s.c` lines 70-75). -/
def hasNext (buf : Bytes) (m : MsgS) (i : It) : Option Bool := (typetag buf m.view i.n).map (· != 0)

/-- `osc_message_iterator_s_next` (`osc_message_iterator_s.c` lines 52-68). -/
def next (buf : Bytes) (m : MsgS) (i : It) : Option (It × Option AtomS) := do
  let tt ← typetag buf m.view i.n
  if tt = 0 then some (i, none)
  else do
    let p ← i.ptr
    let d ← (match m.cache with
      | some c => (c[i.n]?).map Prod.snd
      | none => sizeAt buf m.view i.n p : Option Int)
    let q ← ptrAdd buf p d
    some (⟨i.n + 1, some q⟩, some ⟨tt, p⟩)

/-- The client loop `while(osc_msg_it_s_hasNext(it)){ a = osc_msg_it_s_next(it); ... }`. -/
def iterLoop (buf : Bytes) (m : MsgS) : Nat → It → Option (List AtomS)
  | 0, _ => none
  | fuel + 1, i => do
    let h ← hasNext buf m i
    if h then do
      let r ← next buf m i
      match r.2 with
      | none => none
      | some a => do
        let as ← iterLoop buf m fuel r.1
        some (a :: as)
    else some []

/-- All arguments, from a fresh iterator.  There cannot be more than the buffer has bytes. -/
def iterate (buf : Bytes) (m : MsgS) : Option (List AtomS) := iterLoop buf m (buf.length + 1) (it m)

/-- `osc_error_validateAddress` (`osc_error.c` lines 178-202) for a non-NULL C string. -/
def validateAddress (a : Bytes) : Nat :=
  if a.head? ≠ some 47 then 8
  else if a.length < 2 then 8
  else if a.any (fun c => c = 35 || c = 32) then 0x24
  else 0

/-- `osc_message_s_renameCopy` (`osc_message_s.c` lines 128-155): returned size and the bytes written to `dest` (`none`: not
touched).  `newAddr` is the C string, `newLen` the separate length argument, taken to be at most the string's.  A message
without type tags makes it copy from NULL: UB. -/
def renameCopy (buf : Bytes) (m : View) (newAddr : Bytes) (newLen : Nat) : Option (Int × Option Bytes) := do
  if validateAddress newAddr ≠ 0 then some (0, none)
  else do
    let oldlen ← rdI32 buf m.size
    let alen ← cstrlen buf m.address
    let newlen := wrapI32 (oldlen - padStrLen alen + padN newLen)
    let tt ← m.typetags
    let rest ← slice buf tt (oldlen - ((tt : Int) - m.address))
    let written := 4 + newLen + 1
    let padding := (4 - written % 4) % 4
    some (newlen, some (be32 (newlen % 4294967296).toNat ++ newAddr.take newLen ++ [0] ++ zeros padding ++ rest))

end MsgS
end Libo
