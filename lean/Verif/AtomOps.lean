import Verif.ExprStr
import Verif.ExprCast
/-!
# Model of further functions on atoms, arrays of atoms and bundle headers

Negation of atoms in both forms, the typed arrays and the joined text of an array of atoms, the size of an atom, copies of blobs and bundles out
of a message, and the functions that write the header of a bundle.
-/

namespace Libo
open Libo.Text Libo.Expr

/-- Unary minus of a `float` (`double`) with the given bits: the sign bit is changed (also for NaN, as the hardware does; C leaves the sign of
a NaN open). -/
def neg32 (b : Nat) : Nat := if b < 2147483648 then b + 2147483648 else b - 2147483648
def neg64 (b : Nat) : Nat := if b < 9223372036854775808 then b + 9223372036854775808 else b - 9223372036854775808

/-- `osc_atom_u_negate` (`osc_atom_u.c` lines 1270-1307).  Negation is done in `int` for 8 and 16 bits, so only the least `int32_t` and the
least `int64_t` overflow; an unsigned number is negated in its own type and stored as a signed one. -/
def UAtom.negate (a : UAtom) : Option UAtom :=
  if a.tag = 99 then a.getInt8.bind fun v => a.setInt8 (-v)
  else if a.tag = 117 then a.getInt16.bind fun v => a.setInt16 (-v)
  else if a.tag = 105 then a.getInt32.bind fun v => if v = -2147483648 then none else a.setInt32 (-v)
  else if a.tag = 104 then a.getInt64.bind fun v => if v = -9223372036854775808 then none else a.setInt64 (-v)
  else if a.tag = 67 then a.getUInt8.bind fun v => a.setInt8 (castS M8 (-v))
  else if a.tag = 85 then a.getUInt16.bind fun v => a.setInt16 (castS M16 (-v))
  else if a.tag = 73 then a.getUInt32.bind fun v => a.setInt32 (castS M32 (-v))
  else if a.tag = 72 then a.getUInt64.bind fun v => a.setInt64 (castS M64 (-v))
  else if a.tag = 102 then a.setFloat (neg32 (a.w.raw % M32))
  else if a.tag = 100 then a.setDouble (neg64 (a.w.raw % M64))
  else some a

/-- `osc_atom_s_negate` (`osc_atom_s.c` lines 884-921) with the setters (lines 711-783): the new type tag of the atom and the buffer in which
its data lies.  The atom has data (a NULL pointer is dereferenced by the getters). -/
def AtomS.negate (buf : Bytes) (a : AtomS) : Option (UInt8 × Bytes) :=
  let st (r : UInt8 × Bytes) : Option (UInt8 × Bytes) := (wrB buf a.ptr r.2).map fun b => (r.1, b)
  if a.tag = 99 then (a.getInt8 buf).bind fun v => st (setInt8 (castS M8 (-v)))
  else if a.tag = 117 then (a.getInt16 buf).bind fun v => st (setInt16 (castS M16 (-v)))
  else if a.tag = 105 then (a.getInt32 buf).bind fun v => if v = -2147483648 then none else st (setInt32 (-v))
  else if a.tag = 104 then (a.getInt64 buf).bind fun v => if v = -9223372036854775808 then none else st (setInt64 (-v))
  else if a.tag = 67 then (a.getUInt8 buf).bind fun v => st (setInt8 (castS M8 (-v)))
  else if a.tag = 85 then (a.getUInt16 buf).bind fun v => st (setInt16 (castS M16 (-v)))
  else if a.tag = 73 then (a.getUInt32 buf).bind fun v => st (setInt32 (castS M32 (-v)))
  else if a.tag = 72 then (a.getUInt64 buf).bind fun v => st (setInt64 (castS M64 (-v)))
  else if a.tag = 102 then (rd32 buf a.ptr).bind fun b => st (102, be32 (neg32 b))
  else if a.tag = 100 then (rd64 buf a.ptr).bind fun b => st (100, be64 (neg64 b))
  else some (a.tag, buf)

/-! ## Arrays of atoms -/

/-- The body of the typed array functions (`osc_atom_array_u.c` lines 61-150, `osc_atom_array_s.c` lines 39-121): `g` is the getter of the
element.  `out` is `*out`: NULL, or a block of so many elements.  Elements of a new block that are not written stay uninitialised (`none`);
the result is the block. -/
def typedArray {α β : Type} (g : α → Option β) (ar : List α) (out : Option (List (Option β))) : Option (List (Option β)) :=
  let blk := match out with
    | none => List.replicate ar.length none
    | some b => b
  forN ar.length (fun i blk => (ar[i]?).bind fun a => (g a).bind fun v => if i < blk.length then some (blk.set i (some v)) else none) blk

/-- `osc_atom_array_u_getDoubleArray` (`osc_atom_array_u.c` lines 61-72). -/
def doubleArrayU := typedArray Expr.getFp
/-- `osc_atom_array_u_getFloatArray` (`osc_atom_array_u.c` lines 74-85). -/
def floatArrayU := typedArray Expr.getFp32
/-- `osc_atom_array_u_getInt32Array` (`osc_atom_array_u.c` lines 87-98). -/
def int32ArrayU := typedArray UAtom.getInt32
/-- `osc_atom_array_u_getInt64Array` (`osc_atom_array_u.c` lines 100-111). -/
def int64ArrayU := typedArray UAtom.getInt64
/-- `osc_atom_array_u_getUInt32Array` (`osc_atom_array_u.c` lines 113-124). -/
def uint32ArrayU := typedArray UAtom.getUInt32
/-- `osc_atom_array_u_getUInt64Array` (`osc_atom_array_u.c` lines 126-137). -/
def uint64ArrayU := typedArray UAtom.getUInt64
/-- `osc_atom_array_u_getBoolArray` (`osc_atom_array_u.c` lines 139-150). -/
def boolArrayU := typedArray fun a => some (Expr.getBool (some a))

/-- `osc_atom_s_getBool` (`osc_atom_s.c` lines 578-617). -/
def AtomS.getBool (buf : Bytes) (a : AtomS) : Option Bool :=
  if a.tag = 84 then some true
  else if a.tag = 70 ∨ a.tag = 78 then some false
  else if a.tag = 99 ∨ a.tag = 67 ∨ a.tag = 117 ∨ a.tag = 85 ∨ a.tag = 105 ∨ a.tag = 73 then (rd32 buf a.ptr).map fun n => !(n == 0)
  else if a.tag = 104 ∨ a.tag = 72 then (rd64 buf a.ptr).map fun n => !(n == 0)
  else if a.tag = 102 then (rd32 buf a.ptr).map fun n => !(n % 2147483648 == 0)
  else if a.tag = 100 then (rd64 buf a.ptr).map fun n => !(n % 9223372036854775808 == 0)
  else some false

/-- `osc_atom_array_s_getInt32Array` and the others for integers and booleans (`osc_atom_array_s.c` lines 63-121); all atoms of the array
lie in one buffer. -/
def int32ArrayS (buf : Bytes) := typedArray (AtomS.getInt32 buf)
def int64ArrayS (buf : Bytes) := typedArray (AtomS.getInt64 buf)
def uint32ArrayS (buf : Bytes) := typedArray (AtomS.getUInt32 buf)
def uint64ArrayS (buf : Bytes) := typedArray (AtomS.getUInt64 buf)
def boolArrayS (buf : Bytes) := typedArray (AtomS.getBool buf)

/-- `osc_atom_u_getStringLen` (`osc_atom_u.c` lines 718-758). -/
def strLenU (P : Printf) : UAtom → Option Nat
  | .mk tag _ w =>
    if tag = 115 then
      match w with
      | .str _ s => some s.length
      | _ => none
    else stringLen P tag w

/-- `osc_atom_u_getString` (`osc_atom_u.c` lines 760-825) into the rest of a block, with the size `n`.  `strncpy` fills up with NULs and
writes no NUL if the string has `n` bytes or more. -/
def strIntoU (P : Printf) : UAtom → Writer
  | .mk tag _ w => fun b n =>
    if tag = 115 then
      match w with
      | .str _ s =>
        if n < 0 then none
        else
          let t := s.take n.toNat ++ List.replicate (n.toNat - s.length) 0
          if t.length ≤ b.length then some (s.length, t ++ b.drop t.length) else none
      | _ => none
    else getStringInto P tag w b n

/-- Writing at a place of a block. -/
def atPlace (f : Writer) (blk : Bytes) (p : Nat) (n : Int) : Option (Nat × Bytes) :=
  if p ≤ blk.length then (f (blk.drop p) n).map fun r => (r.1, blk.take p ++ r.2) else none

/-- `sprintf(ptr, "%s", sep)`. -/
def putSep (sep blk : Bytes) (p : Nat) : Option Bytes := wrB blk p (sep ++ [0])

/-- The loop of `osc_atom_array_u_getStringArray` (`osc_atom_array_u.c` lines 164-184): `k` atoms to come, `blk` the block of `buflen` bytes,
`p` where to write.  The block grows (its new bytes are `P.junk`) if the rest of it is shorter than the next text; the NUL and the separators
are not counted.  The given block has `buflen` bytes, so the difference does not get negative without an earlier write outside. -/
def joinTexts (P : Printf) (sep : Option Bytes) : List UAtom → Bytes → Nat → Option (Bytes × Nat)
  | [], blk, p => some (blk, p)
  | a :: as, blk, p =>
    (strLenU P a).bind fun n =>
      let blk := if (blk.length : Int) - p < n then blk ++ newBlock P (n * (as.length + 1) + 1) else blk
      (atPlace (strIntoU P a) blk p ((blk.length : Int) - p)).bind fun r =>
        match sep with
        | none => joinTexts P sep as r.2 (p + r.1)
        | some s => (putSep s r.2 (p + r.1)).bind fun blk => joinTexts P sep as blk (p + r.1 + s.length)

/-- `osc_atom_array_u_getStringArray` (`osc_atom_array_u.c` lines 152-189): the block and the length.  `out` is `*out`, a block of `*len`
bytes, or NULL.  Simplified: the numbers `n`, `nbytes` and `seplen` are `int`s and do not overflow, and there is always enough memory. -/
def stringArray (P : Printf) (ar : List UAtom) (out : Option Bytes) (sep : Option Bytes) : Option (Bytes × Nat) :=
  let blk := match out with
    | none => newBlock P 256
    | some b => b
  (joinTexts P sep ar blk 0).bind fun (blk, p) => (wr8 blk p 0).map fun blk => (blk, p + 1)

/-! ## Sizes, blobs, bundles -/

/-- `osc_atom_u_sizeof` (`osc_atom_u.c` lines 1309-1341).  A size below 0 is converted to `size_t`; it is not modelled. -/
def UAtom.sizeof : UAtom → Option Nat
  | .mk tag _ w =>
    if tag = 99 ∨ tag = 67 ∨ tag = 117 ∨ tag = 85 ∨ tag = 105 ∨ tag = 73 ∨ tag = 102 then some 4
    else if tag = 104 ∨ tag = 72 ∨ tag = 100 then some 8
    else if tag = 115 then
      match w with
      | .str _ s => some s.length
      | _ => none
    else if tag = 46 then
      match w with
      | .bndl _ ms => sizeBundle ms
      | _ => none
    else if tag = 116 then some 8
    else if tag = 98 then
      match w with
      | .blob _ blk => (rdI32 blk 0).bind fun l => if l < 0 then none else some l.toNat
      | _ => none
    else some 0

/-- `osc_atom_s_getBlobLen` (`osc_atom_s.c` lines 657-672) of a blob. -/
def AtomS.blobLen (buf : Bytes) (a : AtomS) : Option Int := if a.tag = 98 then rdI32 buf a.ptr else none

/-- The length of the new block in `osc_atom_s_getBlobCopy` (`osc_atom_s.c` lines 691-698): room for a NUL, rounded up to four, and the size
field. -/
def blobCopyLen (n : Nat) : Nat := (n + 1 + 3) / 4 * 4 + 4

/-- `osc_atom_s_getBlobCopy` (`osc_atom_s.c` lines 686-709) with `*blob` NULL, for a blob: the new block.  `memcpy` reads as many bytes as the
block has. -/
def AtomS.blobCopy (buf : Bytes) (a : AtomS) : Option Bytes :=
  (a.blobLen buf).bind fun n => if n < 0 then none else slice buf a.ptr (blobCopyLen n.toNat)

/-- `osc_atom_s_getBlobCopy` for atoms that are no blobs, with `n` the size found by `osc_atom_s_getBlobLen` (`osc_atom_s.c` line 691): `memcpy`
writes the whole length of the block from its fifth byte on (line 706). -/
def AtomS.blobCopyOther (buf : Bytes) (a : AtomS) (n : Nat) (junk : Bytes) : Option Bytes :=
  (slice buf a.ptr (blobCopyLen n)).bind fun d => (wrB (junk.take (blobCopyLen n)) 0 (be32 n)).bind fun b => wrB b 4 d

/-- `osc_atom_s_getBndlCopy` (`osc_atom_s.c` lines 629-644): NULL, or the bytes of the new block. -/
def AtomS.bndlCopy (buf : Bytes) (a : AtomS) : Option (Option Bytes) :=
  if a.tag ≠ 46 then some none
  else (rd32 buf a.ptr).bind fun n => if n > 0 then (slice buf (a.ptr + 4) n).map some else some none

/-! ## The header of a bundle -/

/-- `OSC_IDENTIFIER`. -/
def bundleId : Bytes := [35, 98, 117, 110, 100, 108, 101, 0]

/-- `osc_bundle_s_setBundleID` (`osc_bundle_s.c` lines 487-494) with a buffer. -/
def setBundleID (buf : Bytes) : Option Bytes := wrB buf 0 bundleId

/-- `osc_bundle_s_setBundleID_b` (`osc_bundle_s.c` lines 496-518): the block and the length afterwards.  `blk` is `bndl->ptr`, NULL or a block
with at least `len` bytes; `junk` are the bytes of new memory. -/
def setBundleIDb (junk : Bytes) (blk : Option Bytes) (len : Nat) : Option (Bytes × Nat) :=
  (match blk with
    | none => some (junk.take 8)
    | some b => if len < 16 then some (b.take 16 ++ (junk.drop b.length).take (16 - b.length)) else some b).bind fun b =>
  (wrB b 8 (zeros 8)).bind fun b => (wrB b 0 bundleId).map fun b => (b, 16)

end Libo
