import Verif.BundleSpec
import Verif.Match
/-!
# Model of serialised bundles (`osc_bundle_s.c`, `osc_bundle_iterator_s.c`, `osc_error.c`, `osc_message_s.c`)

A buffer is a list of bytes.  `none` is undefined behaviour (access outside the buffer, signed overflow) or an
infinite loop.  Every C `while(ptr - buf < len)` loop gets `len + 2` rounds of fuel: the loops that only move a pointer
cannot take more rounds than that without visiting the same pointer twice, i.e. without running forever.
-/

namespace Libo
open Libo.Match

/-- `OSC_HEADER_SIZE` (`osc.h` line 45 ff.: 8 bytes identifier, 8 bytes time tag). -/
def HEADER : Nat := 16

/-- Result of an `int` operation; overflow is undefined behaviour. -/
def i32 (x : Int) : Option Int := if -2147483648 ≤ x ∧ x < 2147483648 then some x else none

/-- `(int32_t)ntoh32(*((int32_t *)ptr))`. -/
def rdI32 (buf : Bytes) (pos : Nat) : Option Int := (rd32 buf pos).map toI32

/-- `ptr += size + 4`; a pointer before the start of the block is UB, as is overflow of the `int` sum. -/
def advance (pos : Nat) (size : Int) : Option Nat := do
  let d ← i32 (size + 4)
  if (pos : Int) + d < 0 then none else some ((pos : Int) + d).toNat

/-- `memcpy(_, buf + i, n)`: the bytes read. -/
def slice (buf : Bytes) (i : Nat) (n : Int) : Option Bytes :=
  if n < 0 ∨ (buf.length : Int) < i + n then none else some ((buf.drop i).take n.toNat)

/-- `memcpy(buf + i, src, _)`: the block afterwards. -/
def blit (buf : Bytes) (i : Nat) (src : Bytes) : Option Bytes :=
  if buf.length < i + src.length then none else some (buf.take i ++ src ++ buf.drop (i + src.length))

/-- `strncmp(buf, id, n) == 0` where `n` is the length of `id` (`osc_bundle_s.c` lines 520-523). -/
def strncmpId : Bytes → Bytes → Option Bool
  | _, [] => some true
  | [], _ :: _ => none
  | x :: xs, y :: ys => if x = y then (if x = 0 then some true else strncmpId xs ys) else some false

/-- `osc_error_msgSanityCheck`, `osc_error.c` lines 166-176. -/
def msgSanityCheck (buf : Bytes) (pos : Nat) : Option Nat := do
  let size ← rdI32 buf pos
  if size < 4 then return 4
  let c ← rd8 buf (pos + 4)
  if c ≠ 47 then return 8
  return 0

/-- The loop of `osc_error_bundleSanityCheck`, `osc_error.c` lines 150-162. -/
def sanityLoop (buf : Bytes) (len : Int) : Nat → Nat → Int → Option Nat
  | 0, _, _ => none
  | n + 1, pos, cum =>
    if (pos : Int) < len then do
      let cum1 ← i32 (cum + 4)
      let size ← rdI32 buf pos
      let cum2 ← i32 (cum1 + size)
      if cum2 > len then return 0x22
      let ret ← msgSanityCheck buf pos
      if ret ≠ 0 then return ret
      let pos' ← advance pos size
      sanityLoop buf len n pos' cum2
    else some 0

/-- `osc_error_bundleSanityCheck`, `osc_error.c` lines 137-164. `buf = none` is a NULL pointer. -/
def sanityCheck (len : Int) (buf : Option Bytes) : Option Nat :=
  match buf with
  | none => some 0x10
  | some buf =>
    if len < 16 then some 1
    else do
      let same ← strncmpId buf ident
      if !same then return 2
      sanityLoop buf len (len.toNat + 2) HEADER 16

/-- The loop skeleton shared by the bundle walkers of `osc_bundle_s.c`:
`msg = buf + OSC_HEADER_SIZE; while(msg - buf < len){ size = ntoh32(*msg); ...; msg += size + 4; }`.
The body returns the new state and whether it left the loop (`break`, `return`).  (Simplification: the size is read at the
start of every round, also where the C code reads it only when it moves on.) -/
def msgLoop {σ : Type} (buf : Bytes) (len : Int) (body : Nat → Int → σ → Option (σ × Bool)) : Nat → Nat → σ → Option σ
  | 0, _, _ => none
  | n + 1, pos, s =>
    if (pos : Int) < len then do
      let size ← rdI32 buf pos
      let r ← body pos size s
      if r.2 then return r.1
      let pos' ← advance pos size
      msgLoop buf len body n pos' r.1
    else some s

/-- `osc_bundle_s_getMsgCount`, `osc_bundle_s.c` lines 129-143: error code and count. -/
def getMsgCount (len : Int) (buf : Option Bytes) : Option (Nat × Nat) := do
  let ret ← sanityCheck len buf
  if ret ≠ 0 then return (ret, 0)
  match buf with
  | none => none
  | some buf =>
    let n ← msgLoop buf len (fun _ _ (c : Nat) => some (c + 1, false)) (len.toNat + 2) HEADER 0
    return (0, n)

/-- A wrapped message (`t_osc_msg_s`): offsets of its parts in the buffer. -/
structure View where
  size : Nat
  address : Nat
  typetags : Option Nat
  data : Option Nat
deriving DecidableEq, Repr

/-- `osc_message_s_wrap`, `osc_message_s.c` lines 89-126 (for a valid pointer).  (`data` is left alone by the C code when
there are no typetags; the model says `none`, the value after `osc_message_s_initMsg`.) -/
def wrap (buf : Bytes) (pos : Nat) : Option View := do
  let len ← rdI32 buf pos
  let alen ← cstrlen buf (pos + 4)
  let tt := pos + 4 + padStrLen alen
  if ((tt - pos : Nat) : Int) > len then
    return ⟨pos, pos + 4, none, none⟩
  let tlen ← cstrlen buf tt
  return ⟨pos, pos + 4, some tt, some (tt + padStrLen tlen)⟩

/-- `osc_message_s_getSize`, `osc_message_s.c` lines 157-168 (`none` view: all-zero struct). -/
def getSize (buf : Bytes) : Option View → Option Int
  | none => some 0
  | some v => rdI32 buf v.size

/-- Bundle iterator (`t_osc_bndl_it_s`): `msgptr` as offset from `bndl`, and the current message. -/
structure BIt where
  msgptr : Nat
  msg : Option View

/-- `osc_bundle_iterator_s_resetIterator`, `osc_bundle_iterator_s.c` lines 52-57. -/
def BIt.init : BIt := ⟨0, none⟩

/-- `osc_bundle_iterator_s_hasNext`, `osc_bundle_iterator_s.c` lines 88-100. -/
def BIt.hasNext (buf : Bytes) (len : Int) (it : BIt) : Option Bool := do
  if (it.msgptr : Int) ≥ len ∨ len = 16 then return false
  if it.msgptr = 0 ∧ len > 16 then return true
  let size ← getSize buf it.msg
  let p ← advance it.msgptr size
  if (p : Int) ≥ len then return false
  return true

/-- `osc_bundle_iterator_s_next`, `osc_bundle_iterator_s.c` lines 59-86. -/
def BIt.next (buf : Bytes) (len : Int) (it : BIt) : Option (BIt × Option View) := do
  if it.msgptr = 0 then
    let v ← wrap buf HEADER
    return (⟨HEADER, some v⟩, some v)
  if (it.msgptr : Int) < len then
    let size ← getSize buf it.msg
    let p ← advance it.msgptr size
    if (p : Int) < len then
      let v ← wrap buf p
      return (⟨p, some v⟩, some v)
    else
      return (⟨p, none⟩, none)
  else
    return (⟨it.msgptr, none⟩, none)

/-- The usual client loop `while(osc_bndl_it_s_hasNext(it)){ m = osc_bndl_it_s_next(it); ... }`
(e.g. `osc_bundle_s.c` lines 165-170, 596-601): the messages handed out. -/
def iterLoop (buf : Bytes) (len : Int) : Nat → BIt → Option (List View)
  | 0, _ => none
  | n + 1, it => do
    let h ← it.hasNext buf len
    if h then
      let r ← it.next buf len
      match r.2 with
      | none => none
      | some v =>
        let vs ← iterLoop buf len n r.1
        return v :: vs
    else return []

/-- Iterate over a bundle from a fresh iterator. -/
def iterate (len : Int) (buf : Bytes) : Option (List View) := iterLoop buf len (len.toNat + 2) BIt.init

/-- The size field and body a view denotes. -/
def View.bytes (buf : Bytes) (v : View) : Option Bytes := do
  let n ← rdI32 buf v.size
  slice buf v.size (n + 4)

/-- The address string a view denotes (`osc_message_s_getAddress`, `osc_message_s.c` lines 170-176). -/
def View.addr (buf : Bytes) (v : View) : Option Bytes := cstr buf v.address

/-- The match test of the lookup functions (`osc_bundle_s.c` lines 187-197, 222-232, 254-262): `q` is the query.
`po` is read back as an index into the query string, including its NUL. -/
def accepts (q : Bytes) (fullmatch : Bool) (r : Res) : Option Bool :=
  if fullmatch then some (r.code == 3)
  else if r.code = 0 then some false
  else if r.code &&& 2 = 0 then do
    let c ← ch q r.po
    return c == 47
  else some true

/-- `osc_bundle_s_addressExists`, `osc_bundle_s.c` lines 211-238. -/
def addressExists (len : Int) (buf : Bytes) (q : Bytes) (fullmatch : Bool) : Option Bool :=
  msgLoop buf len (fun pos _ (_ : Bool) => do
      let a ← cstr buf (pos + 4)
      let r ← oscMatch q a
      let ok ← accepts q fullmatch r
      if ok then return (true, true) else return (false, false))
    (len.toNat + 2) HEADER false

/-- `osc_bundle_s_addressIsBound`, `osc_bundle_s.c` lines 174-209.  Note line 199: the padded length of the *query* is
used to find the type tags. -/
def addressIsBound (len : Int) (buf : Bytes) (q : Bytes) (fullmatch : Bool) : Option Bool :=
  msgLoop buf len (fun pos size (_ : Bool) => do
      let a ← cstr buf (pos + 4)
      let r ← oscMatch q a
      let ok ← accepts q fullmatch r
      if !ok then return (false, false)
      else
        let tt := pos + 4 + padStrLen q.length
        if ((tt - pos : Nat) : Int) < size + 4 then
          let c ← rd8 buf (tt + 1)
          if c ≠ 0 then return (true, true) else return (false, false)
        else return (false, false))
    (len.toNat + 2) HEADER false

/-- `osc_bundle_s_lookupAddress`, `osc_bundle_s.c` lines 240-293.  The result array is a list of views; its growth in
steps of 16 (lines 264-278) is `osc_array_resize` and not repeated here.  A NULL result is the empty list. -/
def lookupAddress (len : Int) (buf : Bytes) (q : Bytes) (fullmatch : Bool) : Option (List View) :=
  msgLoop buf len (fun pos _ (vs : List View) => do
      let a ← cstr buf (pos + 4)
      let r ← oscMatch q a
      let ok ← accepts q fullmatch r
      if ok then
        let v ← wrap buf pos
        return (vs ++ [v], false)
      else return (vs, false))
    (len.toNat + 2) HEADER []

/-- `osc_bundle_s_getFirstFullMatch`, `osc_bundle_s.c` lines 300-314: offset of the message or NULL. -/
def getFirstFullMatch (len : Int) (buf : Bytes) (q : Bytes) : Option (Option Nat) :=
  msgLoop buf len (fun pos _ (_ : Option Nat) => do
      let a ← cstr buf (pos + 4)
      let r ← oscMatch q a
      if r.code = 3 then return (some pos, true) else return (none, false))
    (len.toNat + 2) HEADER none

/-- `osc_bundle_s_getFirstEqualAddr`, `osc_bundle_s.c` lines 316-329. -/
def getFirstEqualAddr (len : Int) (buf : Bytes) (q : Bytes) : Option (Option Nat) :=
  msgLoop buf len (fun pos _ (_ : Option Nat) => do
      let a ← cstr buf (pos + 4)
      if q = a then return (some pos, true) else return (none, false))
    (len.toNat + 2) HEADER none

/-- State of the loop of `osc_bundle_s_removeMessage`: what has been copied to `tmp`, and `p2`, `p3`. -/
structure RmSt where
  out : Bytes
  p2 : Nat
  p3 : Nat

/-- `memcpy(p1, p2, p3 - p2); p1 += p3 - p2;` when `p2 != p3`, with `tmp` of `len` bytes
(`osc_bundle_s.c` lines 375-378, 385-388). -/
def rmFlush (buf : Bytes) (len : Int) (s : RmSt) : Option RmSt :=
  if s.p2 ≠ s.p3 then do
    let bs ← slice buf s.p2 ((s.p3 : Int) - s.p2)
    if len < s.out.length + bs.length then none
    else return { s with out := s.out ++ bs }
  else some s

/-- `osc_bundle_s_removeMessage`, `osc_bundle_s.c` lines 348-392: the new length and the buffer afterwards. -/
def removeMessage (pat : Bytes) (len : Int) (buf : Bytes) : Option (Nat × Bytes) := do
  let hdr ← slice buf 0 16
  if len < 16 then none
  let s ← msgLoop buf len (fun pos size (s : RmSt) => do
      let a ← cstr buf (pos + 4)
      let p3' ← advance pos size
      if a = pat then
        let s ← rmFlush buf len s
        return ({ s with p2 := p3', p3 := p3' }, false)
      else return ({ s with p3 := p3' }, false))
    (len.toNat + 2) HEADER ⟨hdr, HEADER, HEADER⟩
  let s ← rmFlush buf len s
  let buf' ← blit buf 0 s.out
  return (s.out.length, buf')

/-- `osc_bundle_s_replaceMessage`, `osc_bundle_s.c` lines 394-444.  `bufpos` is the length in use, `bndl` the allocated
block (`*buflen` its size), `om` the offset of the old message in it, `nm` the block with the new message.
Result: error code, new `*bufpos`, block. -/
def replaceMessage (bufpos : Int) (bndl : Bytes) (om : Nat) (nm : Bytes) : Option (Nat × Int × Bytes) := do
  let oldSize ← rdI32 bndl om
  let newSize ← rdI32 nm 0
  let o4 ← i32 (oldSize + 4)
  let n4 ← i32 (newSize + 4)
  let newbuflen := bufpos - o4 + n4
  if newbuflen < 0 then return (0x20, bufpos, bndl)
  -- the copy is assembled in a fresh block of `newbuflen` bytes
  let a ← slice bndl 0 om
  let m ← slice nm 0 n4
  let oldptr := (om : Int) + o4
  if oldptr < 0 then none
  let r := bufpos - oldptr
  let c ← (if r > 0 then slice bndl oldptr.toNat r else some [] : Option Bytes)
  let copy := a ++ m ++ c
  if newbuflen < copy.length then none
  -- (bytes of the copy beyond what was written are uninitialised: UB to copy on; they do not exist when r ≥ 0)
  if (copy.length : Int) < newbuflen then none
  if newbuflen > bndl.length then
    -- realloc, then memcpy over the whole block
    return (0, newbuflen, copy)
  else
    let b ← blit bndl 0 copy
    return (0, newbuflen, b)

/-- `osc_bundle_s_appendMessage`, `osc_bundle_s.c` lines 449-477.  `bndl = none` is a NULL bundle, `msg = none` a NULL
message; a message is the block it points to.  Result: `*len` and `*bndl`.  (Memory exhaustion is not modelled.) -/
def appendMessage (len : Int) (bndl : Option Bytes) (msg : Option Bytes) : Option (Int × Option Bytes) :=
  match msg with
  | none => some (len, bndl)
  | some m => do
    let msglen ← rdI32 m 0
    let n4 ← i32 (msglen + 4)
    let src ← slice m 0 n4
    match bndl with
    | some b =>
      -- realloc to len + msglen + 4: keeps the first bytes
      if len < 0 ∨ (b.length : Int) < len then none
      return (len + n4, some (b.take len.toNat ++ src))
    | none =>
      return (16 + n4, some (ident ++ zeros 8 ++ src))

/-- `osc_bundle_s_wrapMessage`, `osc_bundle_s.c` lines 331-346, with `*bndl == NULL` and a message body of `len` bytes:
the 8 time tag bytes are whatever the allocation contained (`junk`). -/
def wrapMessage (msg : Bytes) (junk : Bytes) : Bytes :=
  ident ++ junk.take 8 ++ be32 msg.length ++ msg

/-- `osc_bundle_s_concat`, `osc_bundle_s.c` lines 850-865: the bytes written to the output. -/
def concat (b1 b2 : Option Bytes) : Option Bytes :=
  match b1, b2 with
  | none, none => some []
  | none, some b2 => some b2
  | some b1, none => some b1
  | some b1, some b2 => do
    let t ← slice b2 16 ((b2.length : Int) - 16)
    return b1 ++ t

/-- Appending to the output of the set operations: `memcpy(bndl + len, m, l); len += l;` with capacity `cap`. -/
def outAppend (cap : Nat) (out bs : Bytes) : Option Bytes :=
  if cap < out.length + bs.length then none else some (out ++ bs)

/-- `osc_bundle_s_union`, `osc_bundle_s.c` lines 687-751, for two non-NULL buffers; `junk` is the uninitialised time tag
when both are empty.  The output is the list of bytes in use (the block has `len1 + len2` bytes). -/
def union (b1 b2 : Bytes) (junk : Bytes) : Option Bytes :=
  if (b1.length = 0 ∧ b2.length = 0) ∨ (b1.length = 16 ∧ b2.length = 16) then
    some (ident ++ junk.take 8)
  else
    msgLoop b2 b2.length (fun pos size (out : Bytes) => do
        let a ← cstr b2 (pos + 4)
        let res ← addressExists out.length out a true
        if res then return (out, false)
        else
          let bs ← slice b2 pos (size + 4)
          let out' ← outAppend (b1.length + b2.length) out bs
          return (out', false))
      (b2.length + 2) HEADER b1

/-- `osc_bundle_s_intersection`, `osc_bundle_s.c` lines 753-796, for two non-NULL buffers and `*bndl_out == NULL`. -/
def intersection (b1 b2 : Bytes) (junk : Bytes) : Option Bytes :=
  if b1.length = 0 ∨ b2.length = 0 ∨ b1.length = 16 ∨ b2.length = 16 then
    some (ident ++ junk.take 8)
  else do
    let hdr ← slice b1 0 16
    let vs ← iterate b1.length b1
    vs.foldlM (fun (out : Bytes) v => do
        let a ← v.addr b1
        let res ← addressExists b2.length b2 a true
        if res then
          let res2 ← addressExists out.length out a true
          if res2 then return out
          else
            let bs ← v.bytes b1
            outAppend (b1.length + b2.length) out bs
        else return out) hdr

/-- One round of the outer loop of `osc_bundle_s_difference`, `osc_bundle_s.c` lines 826-844. -/
def diffHalf (cap : Nat) (b1 b2 : Bytes) (out : Bytes) : Option Bytes := do
  let vs ← iterate b1.length b1
  vs.foldlM (fun (out : Bytes) v => do
      let a ← v.addr b1
      let res ← addressExists b2.length b2 a true
      if res then return out
      else
        let res2 ← addressExists out.length out a true
        if res2 then return out
        else
          let bs ← v.bytes b1
          outAppend cap out bs) out

/-- `osc_bundle_s_difference`, `osc_bundle_s.c` lines 798-848, for two non-NULL buffers and `*bndl_out == NULL`. -/
def difference (b1 b2 : Bytes) (junk : Bytes) : Option Bytes :=
  if (b1.length = 0 ∧ b2.length = 0) ∨ (b1.length = 16 ∧ b2.length = 16) then
    some (ident ++ junk.take 8)
  else do
    let hdr ← slice b1 0 16
    let out ← diffHalf (b1.length + b2.length) b1 b2 hdr
    diffHalf (b1.length + b2.length) b2 b1 out

end Libo
