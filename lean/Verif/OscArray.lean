import Verif.Basic
/-!
# Arrays (osc_array.c)

Array elements are blocks of `membersize` bytes in one allocation.  The file is compiled with `OSC_ARRAY_CLEAR_ON_ALLOC`
(osc.h:55), so new memory is always zeroed.  Simplifications: sizes do not overflow; allocation succeeds; `memset`/`memcpy` of
zero bytes at a NULL pointer do nothing; the new length passed to `resize` is not negative.
-/

namespace Libo.Arr
open Libo

/-- `struct _osc_array` (osc_array.r:26-30).  `ar` is the allocation, `none` for NULL. -/
structure Arr where
  ar : Option Bytes
  len : Int
  membersize : Nat
deriving DecidableEq

/-- `osc_array_allocWithSize` (osc_array.c:36-54); a negative length asks for an absurd amount of memory. -/
def alloc (len : Int) (membersize : Nat) : Option Arr :=
  if len < 0 then none
  else some ⟨if len = 0 ∨ membersize = 0 then none else some (zeros (len.toNat * membersize)), len, membersize⟩

/-- `osc_array_get` (osc_array.c:71-79): the offset of the returned pointer from the start of the allocation, `none` for the
NULL it returns past the end.  (Negative indices are not checked.) -/
def get (a : Arr) (idx : Int) : Option Int := if a.len ≤ idx then none else some (idx * a.membersize)

/-- Reading `n` bytes through a pointer at offset `off` into the allocation of `a`. -/
def deref (a : Arr) (off : Int) (n : Nat) : Option Bytes :=
  match a.ar with
  | none => if n = 0 then some [] else none
  | some b => if 0 ≤ off ∧ off + n ≤ b.length then some ((b.drop off.toNat).take n) else none

/-- Writing through such a pointer; also `memcpy(a->ar + off, src, strlen(src))`. -/
def assign (a : Arr) (off : Int) (src : Bytes) : Option Arr :=
  match a.ar with
  | none => if src = [] then some a else none
  | some b =>
    if 0 ≤ off ∧ off + src.length ≤ b.length then
      some { a with ar := some (b.take off.toNat ++ src ++ b.drop (off.toNat + src.length)) }
    else none

/-- `osc_array_copy` (osc_array.c:89-97). -/
def copy (a : Arr) : Option Arr := do
  let cp ← alloc a.len a.membersize
  let src ← deref a 0 (a.len.toNat * a.membersize)
  assign cp 0 src

/-- `osc_mem_resize` (osc_mem.c:43-51): contents kept as far as they fit; `realloc` to size zero frees and returns NULL. -/
def realloc (b : Option Bytes) (n : Nat) (junk : Bytes) : Option Bytes :=
  match b with
  | none => some (junk.take n ++ zeros (n - junk.length))
  | some b => if n = 0 then none else some (b.take n ++ (junk ++ zeros n).take (n - b.length))

/-- `osc_array_copyInto` (osc_array.c:99-121) for a non-NULL source.  An existing destination is only resized when `offset` is
negative, and its length member is never touched. -/
def copyInto (dest : Option Arr) (src : Arr) (offset : Int) (junk : Bytes) : Option Arr := do
  let srclenBytes := src.len * src.membersize
  let destlen := src.len + offset
  let destlenBytes := destlen * src.membersize
  let d ← (match dest with
    | none => alloc destlen src.membersize
    | some d =>
      if destlenBytes < srclenBytes then
        if destlenBytes < 0 then none else some { d with ar := realloc d.ar destlenBytes.toNat junk }
      else some d : Option Arr)
  let bytes ← deref src 0 srclenBytes.toNat
  assign d (offset * src.membersize) bytes

/-- `osc_array_resize` (osc_array.c:123-141); `true` is OSC_ERR_NONE.  `junk` is whatever the grown memory contains. -/
def resize (a : Arr) (newlen : Nat) (junk : Bytes) : Option (Arr × Bool) :=
  match realloc a.ar (newlen * a.membersize) junk with
  | none => some ({ a with ar := none, len := 0 }, false)
  | some b =>
    let a1 : Arr := { a with ar := some b }
    if newlen > a.len then
      (assign a1 (a.len * a.membersize) (zeros ((newlen - a.len.toNat) * a.membersize))).map
        fun a2 => ({ a2 with len := newlen }, true)
    else some ({ a1 with len := newlen }, true)

/-- `osc_array_clear` (osc_array.c:64-69): `memset` of the whole array to zero. -/
def clear (a : Arr) : Option Arr := assign a 0 (zeros (a.len * a.membersize).toNat)

/-- `osc_array_set` (osc_array.c:143-150): the array takes over a block of the caller; its old block is not freed. -/
def setBlock (_a : Arr) (block : Option Bytes) (len : Int) (membersize : Nat) : Arr := ⟨block, len, membersize⟩

end Libo.Arr
