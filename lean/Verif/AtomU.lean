import Verif.MsgS
import Verif.Timetag
/-!
# Model of unserialised atoms, messages and bundles as values (`osc_atom_u.c`, `osc_message_u.c`, `osc_bundle_u.c`)

Here an unserialised bundle is a tree: a list of messages, each with an optional address and a list of atoms, an atom
holding possibly a nested bundle.  The linked lists that represent these lists in C are modelled in `MsgArgs.lean` and
`BundleU.lean` (`argc` is the length of the list, which is what C20 proves).  Every pointer is taken to be the only one to
its block.

The union `w` is modelled by its low 8 bytes, as a number on a little-endian host, so that a narrow setter leaves the
other bytes of the word alone and a stale word can be read back; a pointer has an (arbitrary) number too.  Floating point
values are bit patterns.  Not modelled (`none`, like undefined behaviour): converting strings and blobs to numbers
(`strtol`), numbers to strings (`snprintf`), and conversions to `float` and `double`.
-/

namespace Libo

/-- `2^8`, `2^16`, `2^32`, `2^64` as moduli. -/
abbrev M8 : Nat := 256
abbrev M16 : Nat := 65536
abbrev M32 : Nat := 4294967296
abbrev M64 : Nat := 18446744073709551616

mutual
/-- The union `w` of `struct _osc_atom_u` (`osc_atom_u.r` lines 41-59): plain bits, or a pointer (with its bits `p`) to a C
string, to a blob (big-endian length followed by the contents) or to a bundle. -/
inductive W where
  | bits (b : Nat)
  | str (p : Nat) (s : Bytes)
  | blob (p : Nat) (blk : Bytes)
  | bndl (p : Nat) (ms : List UMsg)
/-- `t_osc_atom_u` (`osc_atom_u.r` lines 40-64) without its links. -/
inductive UAtom where
  | mk (tag : UInt8) (alloc : Bool) (w : W)
/-- `t_osc_msg_u` (`osc_message_u.r`) without its links; `none` is a NULL address. -/
inductive UMsg where
  | mk (addr : Option Bytes) (args : List UAtom)
end

/-- The low 8 bytes of the union. -/
def W.raw : W → Nat
  | .bits b => b
  | .str p _ => p
  | .blob p _ => p
  | .bndl p _ => p

def UAtom.tag : UAtom → UInt8 | .mk t _ _ => t
def UAtom.alloc : UAtom → Bool | .mk _ a _ => a
def UAtom.w : UAtom → W | .mk _ _ w => w
def UMsg.addr : UMsg → Option Bytes | .mk a _ => a
def UMsg.args : UMsg → List UAtom | .mk _ as => as

/-- Conversion to a signed type with modulus `m`, two's complement (as gcc and clang define it). -/
def castS (m : Nat) (x : Int) : Int := if 2 * (x % m) < m then x % m else x % m - m

/-- Conversion to an unsigned type with modulus `m`. -/
def castU (m : Nat) (x : Int) : Int := x % m

/-- The value of an IEEE number with `mb` mantissa bits and `eb` exponent bits, rounded towards zero; `none` for infinities
and NaN. -/
def fTrunc (mb eb : Nat) (bits : Nat) : Option Int :=
  let man := bits % 2 ^ mb
  let ex := bits / 2 ^ mb % 2 ^ eb
  let neg := bits / 2 ^ (mb + eb) % 2 = 1
  let bias := 2 ^ (eb - 1) - 1
  if ex = 2 ^ eb - 1 then none
  else
    let m := if ex = 0 then man else man + 2 ^ mb
    let e := if ex = 0 then 1 else ex
    let v : Nat := if bias + mb ≤ e then m * 2 ^ (e - bias - mb) else m / 2 ^ (bias + mb - e)
    some (if neg then -(v : Int) else v)

/-- A cast from floating point to an integer type with range `lo ≤ x < hi`; UB outside. -/
def fCast (lo hi : Int) (x : Option Int) : Option Int :=
  match x with
  | some v => if lo ≤ v ∧ v < hi then some v else none
  | none => none

namespace W
/-- `w.c`, `w.C`, `w.u`, `w.U`, `w.i`, `w.I`, `w.h`, `w.H`: the word read through the members of the union. -/
def c (w : W) : Int := castS M8 w.raw
def C (w : W) : Int := castU M8 w.raw
def u (w : W) : Int := castS M16 w.raw
def U (w : W) : Int := castU M16 w.raw
def i (w : W) : Int := castS M32 w.raw
def I (w : W) : Int := castU M32 w.raw
def h (w : W) : Int := castS M64 w.raw
def H (w : W) : Int := castU M64 w.raw
/-- Truncated values of `w.f` and `w.d`. -/
def f (w : W) : Option Int := fTrunc 23 8 (w.raw % M32)
def d (w : W) : Option Int := fTrunc 52 11 (w.raw % M64)
/-- Store the low bytes `v` (modulus `m`) and leave the others. -/
def store (w : W) (m : Nat) (v : Int) : W := .bits (w.raw - w.raw % m + (v % m).toNat)
end W

namespace UAtom

/-- `osc_atom_u_alloc` (`osc_atom_u.c` lines 38-43). -/
def fresh : UAtom := .mk 0 false (.bits 0)

/-- `osc_atom_u_clear` (`osc_atom_u.c` lines 125-141).  Freeing something that is not the block the tag promises is UB; an
owned blob is passed to `osc_bundle_u_free`, which is UB. -/
def clear : UAtom → Option UAtom
  | .mk tag alloc w =>
    if alloc = true ∧ tag = 115 ∧ w.raw ≠ 0 then
      match w with
      | .str _ _ => some (.mk tag false (.bits 0))
      | _ => none
    else if tag = 46 then
      match w with
      | .bndl _ _ => some (.mk tag false (.bits 0))
      | w => if w.raw = 0 then some (.mk tag false (.bits 0)) else none
    else if alloc = true ∧ tag = 98 ∧ w.raw ≠ 0 then none
    else some (.mk tag false w)

/-- `osc_atom_u_getInt8` (`osc_atom_u.c` lines 264-312); strings and blobs are not modelled. -/
def getInt8 (a : UAtom) : Option Int :=
  if a.tag = 99 then some (castS M8 a.w.c)
  else if a.tag = 67 then some (castS M8 a.w.C)
  else if a.tag = 105 then some (castS M8 a.w.i)
  else if a.tag = 102 then fCast (-128) 128 a.w.f
  else if a.tag = 100 then fCast (-128) 128 a.w.d
  else if a.tag = 84 then some 1
  else if a.tag = 70 then some 0
  else if a.tag = 117 then some (castS M8 a.w.u)
  else if a.tag = 85 then some (castS M8 a.w.U)
  else if a.tag = 104 then some (castS M8 a.w.h)
  else if a.tag = 73 then some (castS M8 a.w.I)
  else if a.tag = 72 then some (castS M8 a.w.H)
  else if a.tag = 78 then some 0
  else if a.tag = 115 ∨ a.tag = 98 then none
  else some 0

/-- `osc_atom_u_getInt16` (`osc_atom_u.c` lines 314-360); strings and blobs are not modelled. -/
def getInt16 (a : UAtom) : Option Int :=
  if a.tag = 117 then some (castS M16 a.w.u)
  else if a.tag = 85 then some (castS M16 a.w.U)
  else if a.tag = 105 then some (castS M16 a.w.i)
  else if a.tag = 102 then fCast (-32768) 32768 a.w.f
  else if a.tag = 100 then fCast (-32768) 32768 a.w.d
  else if a.tag = 84 then some 1
  else if a.tag = 70 then some 0
  else if a.tag = 99 then some (castS M16 a.w.c)
  else if a.tag = 67 then some (castS M16 a.w.C)
  else if a.tag = 104 then some (castS M16 a.w.h)
  else if a.tag = 73 then some (castS M16 a.w.I)
  else if a.tag = 72 then some (castS M16 a.w.H)
  else if a.tag = 78 then some 0
  else if a.tag = 115 ∨ a.tag = 98 then none
  else some 0

/-- `osc_atom_u_getInt32` (`osc_atom_u.c` lines 364-410); strings and blobs are not modelled. -/
def getInt32 (a : UAtom) : Option Int :=
  if a.tag = 105 then some (castS M32 a.w.i)
  else if a.tag = 102 then fCast (-2147483648) 2147483648 a.w.f
  else if a.tag = 100 then fCast (-2147483648) 2147483648 a.w.d
  else if a.tag = 84 then some 1
  else if a.tag = 70 then some 0
  else if a.tag = 99 then some (castS M32 a.w.c)
  else if a.tag = 67 then some (castS M32 a.w.C)
  else if a.tag = 117 then some (castS M32 a.w.u)
  else if a.tag = 85 then some (castS M32 a.w.U)
  else if a.tag = 104 then some (castS M32 a.w.h)
  else if a.tag = 73 then some (castS M32 a.w.I)
  else if a.tag = 72 then some (castS M32 a.w.H)
  else if a.tag = 78 then some 0
  else if a.tag = 115 ∨ a.tag = 98 then none
  else some 0

/-- `osc_atom_u_getInt64` (`osc_atom_u.c` lines 412-458); strings and blobs are not modelled. -/
def getInt64 (a : UAtom) : Option Int :=
  if a.tag = 104 then some (castS M64 a.w.h)
  else if a.tag = 105 then some (castS M64 a.w.i)
  else if a.tag = 100 then fCast (-9223372036854775808) 9223372036854775808 a.w.d
  else if a.tag = 102 then fCast (-9223372036854775808) 9223372036854775808 a.w.f
  else if a.tag = 73 then some (castS M64 a.w.I)
  else if a.tag = 72 then some (castS M64 a.w.H)
  else if a.tag = 99 then some (castS M64 a.w.c)
  else if a.tag = 67 then some (castS M64 a.w.C)
  else if a.tag = 117 then some (castS M64 a.w.u)
  else if a.tag = 85 then some (castS M64 a.w.U)
  else if a.tag = 84 then some 1
  else if a.tag = 70 then some 0
  else if a.tag = 78 then some 0
  else if a.tag = 115 ∨ a.tag = 98 then none
  else some 0

/-- `osc_atom_u_getUInt8` (`osc_atom_u.c` lines 460-508); strings and blobs are not modelled. -/
def getUInt8 (a : UAtom) : Option Int :=
  if a.tag = 67 then some (castU M8 a.w.C)
  else if a.tag = 99 then some (castU M8 a.w.c)
  else if a.tag = 73 then some (castU M8 a.w.I)
  else if a.tag = 105 then some (castU M8 a.w.i)
  else if a.tag = 102 then fCast (0) 256 a.w.f
  else if a.tag = 100 then fCast (0) 256 a.w.d
  else if a.tag = 104 then some (castU M8 a.w.h)
  else if a.tag = 72 then some (castU M8 a.w.H)
  else if a.tag = 117 then some (castU M8 a.w.u)
  else if a.tag = 85 then some (castU M8 a.w.U)
  else if a.tag = 84 then some 1
  else if a.tag = 70 then some 0
  else if a.tag = 78 then some 0
  else if a.tag = 115 ∨ a.tag = 98 then none
  else some 0

/-- `osc_atom_u_getUInt16` (`osc_atom_u.c` lines 510-556); strings and blobs are not modelled. -/
def getUInt16 (a : UAtom) : Option Int :=
  if a.tag = 85 then some (castU M16 a.w.U)
  else if a.tag = 117 then some (castU M16 a.w.u)
  else if a.tag = 73 then some (castU M16 a.w.I)
  else if a.tag = 105 then some (castU M16 a.w.i)
  else if a.tag = 102 then fCast (0) 65536 a.w.f
  else if a.tag = 100 then fCast (0) 65536 a.w.d
  else if a.tag = 104 then some (castU M16 a.w.h)
  else if a.tag = 72 then some (castU M16 a.w.H)
  else if a.tag = 99 then some (castU M16 a.w.c)
  else if a.tag = 67 then some (castU M16 a.w.C)
  else if a.tag = 84 then some 1
  else if a.tag = 70 then some 0
  else if a.tag = 78 then some 0
  else if a.tag = 115 ∨ a.tag = 98 then none
  else some 0

/-- `osc_atom_u_getUInt32` (`osc_atom_u.c` lines 558-604); strings and blobs are not modelled. -/
def getUInt32 (a : UAtom) : Option Int :=
  if a.tag = 73 then some (castU M32 a.w.I)
  else if a.tag = 105 then some (castU M32 a.w.i)
  else if a.tag = 102 then fCast (0) 4294967296 a.w.f
  else if a.tag = 100 then fCast (0) 4294967296 a.w.d
  else if a.tag = 104 then some (castU M32 a.w.h)
  else if a.tag = 72 then some (castU M32 a.w.H)
  else if a.tag = 99 then some (castU M32 a.w.c)
  else if a.tag = 67 then some (castU M32 a.w.C)
  else if a.tag = 117 then some (castU M32 a.w.u)
  else if a.tag = 85 then some (castU M32 a.w.U)
  else if a.tag = 84 then some 1
  else if a.tag = 70 then some 0
  else if a.tag = 78 then some 0
  else if a.tag = 115 ∨ a.tag = 98 then none
  else some 0

/-- `osc_atom_u_getUInt64` (`osc_atom_u.c` lines 606-652); strings and blobs are not modelled. -/
def getUInt64 (a : UAtom) : Option Int :=
  if a.tag = 72 then some (castU M64 a.w.H)
  else if a.tag = 105 then some (castU M64 a.w.i)
  else if a.tag = 104 then some (castU M64 a.w.h)
  else if a.tag = 73 then some (castU M64 a.w.I)
  else if a.tag = 102 then fCast (0) 18446744073709551616 a.w.f
  else if a.tag = 100 then fCast (0) 18446744073709551616 a.w.d
  else if a.tag = 99 then some (castU M64 a.w.c)
  else if a.tag = 67 then some (castU M64 a.w.C)
  else if a.tag = 117 then some (castU M64 a.w.u)
  else if a.tag = 85 then some (castU M64 a.w.U)
  else if a.tag = 84 then some 1
  else if a.tag = 70 then some 0
  else if a.tag = 78 then some 0
  else if a.tag = 115 ∨ a.tag = 98 then none
  else some 0

/-- `osc_atom_u_getInt` (`osc_atom_u.c` lines 654-704); strings and blobs are not modelled. -/
def getInt (a : UAtom) : Option Int :=
  if a.tag = 105 then some (castS M32 a.w.i)
  else if a.tag = 102 then fCast (-2147483648) 2147483648 a.w.f
  else if a.tag = 100 then fCast (-2147483648) 2147483648 a.w.d
  else if a.tag = 104 then some (castS M32 a.w.h)
  else if a.tag = 73 then some (castS M32 a.w.I)
  else if a.tag = 72 then some (castS M32 a.w.H)
  else if a.tag = 99 then some (castS M32 a.w.c)
  else if a.tag = 67 then some (castS M32 a.w.C)
  else if a.tag = 117 then some (castS M32 a.w.u)
  else if a.tag = 85 then some (castS M32 a.w.U)
  else if a.tag = 84 then some 1
  else if a.tag = 70 then some 0
  else if a.tag = 78 then some 0
  else if a.tag = 115 ∨ a.tag = 98 then none
  else some 0

/-- `osc_atom_u_setInt8` (`osc_atom_u.c` lines 1030-1038). -/
def setInt8 (a : UAtom) (v : Int) : Option UAtom := do
  let a ← clear a
  some (.mk 99 a.alloc (a.w.store M8 v))

/-- `osc_atom_u_setInt16` (`osc_atom_u.c` lines 1040-1048). -/
def setInt16 (a : UAtom) (v : Int) : Option UAtom := do
  let a ← clear a
  some (.mk 117 a.alloc (a.w.store M16 v))

/-- `osc_atom_u_setInt32` (`osc_atom_u.c` lines 1050-1058). -/
def setInt32 (a : UAtom) (v : Int) : Option UAtom := do
  let a ← clear a
  some (.mk 105 a.alloc (a.w.store M32 v))

/-- `osc_atom_u_setInt64` (`osc_atom_u.c` lines 1060-1068). -/
def setInt64 (a : UAtom) (v : Int) : Option UAtom := do
  let a ← clear a
  some (.mk 104 a.alloc (a.w.store M64 v))

/-- `osc_atom_u_setUInt8` (`osc_atom_u.c` lines 1070-1078). -/
def setUInt8 (a : UAtom) (v : Int) : Option UAtom := do
  let a ← clear a
  some (.mk 67 a.alloc (a.w.store M8 v))

/-- `osc_atom_u_setUInt16` (`osc_atom_u.c` lines 1080-1088). -/
def setUInt16 (a : UAtom) (v : Int) : Option UAtom := do
  let a ← clear a
  some (.mk 85 a.alloc (a.w.store M16 v))

/-- `osc_atom_u_setUInt32` (`osc_atom_u.c` lines 1090-1098). -/
def setUInt32 (a : UAtom) (v : Int) : Option UAtom := do
  let a ← clear a
  some (.mk 73 a.alloc (a.w.store M32 v))

/-- `osc_atom_u_setUInt64` (`osc_atom_u.c` lines 1100-1108). -/
def setUInt64 (a : UAtom) (v : Int) : Option UAtom := do
  let a ← clear a
  some (.mk 72 a.alloc (a.w.store M64 v))

/-- `osc_atom_u_setFloat` (`osc_atom_u.c` lines 1010-1018), with the bit pattern of the number. -/
def setFloat (a : UAtom) (v : Nat) : Option UAtom := do
  let a ← clear a
  some (.mk 102 a.alloc (a.w.store M32 v))

/-- `osc_atom_u_setDouble` (`osc_atom_u.c` lines 1020-1028), with the bit pattern of the number. -/
def setDouble (a : UAtom) (v : Nat) : Option UAtom := do
  let a ← clear a
  some (.mk 100 a.alloc (a.w.store M64 v))

/-- `osc_atom_u_setTrue` (`osc_atom_u.c` lines 1158-1165). -/
def setTrue (a : UAtom) : Option UAtom := do
  let a ← clear a
  some (.mk 84 a.alloc a.w)

/-- `osc_atom_u_setFalse` (`osc_atom_u.c` lines 1167-1174). -/
def setFalse (a : UAtom) : Option UAtom := do
  let a ← clear a
  some (.mk 70 a.alloc a.w)

/-- `osc_atom_u_setNil` (`osc_atom_u.c` lines 1176-1183). -/
def setNil (a : UAtom) : Option UAtom := do
  let a ← clear a
  some (.mk 78 a.alloc a.w)

/-- `osc_atom_u_setStringPtr` (`osc_atom_u.c` lines 1135-1143) with a pointer `p` to the string `s`. -/
def setStringPtr (a : UAtom) (p : Nat) (s : Bytes) : Option UAtom := do
  let a ← clear a
  some (.mk 115 a.alloc (.str p s))

/-- `osc_atom_u_setShouldFreePtr` (`osc_atom_u.c` lines 118-123). -/
def setShouldFreePtr (a : UAtom) (b : Bool) : UAtom := .mk a.tag b a.w

/-- `osc_atom_u_setTimetag` (`osc_atom_u.c` lines 1214-1222); the struct is the seconds followed by the fraction. -/
def setTimetag (a : UAtom) (t : Timetag) : Option UAtom := do
  let a ← clear a
  some (.mk 116 a.alloc (.bits (t.sec.toNat + M32 * t.frac.toNat)))

/-- `osc_atom_u_setBndl_u` (`osc_atom_u.c` lines 1208-1212): the old word is not cleared. -/
def setBndlU (a : UAtom) (p : Nat) (ms : List UMsg) : UAtom := .mk 46 a.alloc (.bndl p ms)

/-- `osc_atom_u_setBlob` (`osc_atom_u.c` lines 1224-1240) for a blob at offset `i` of `buf`: allocates room for the length, the contents and zeros up to a
multiple of four (at least one).  A negative length is UB or garbage: `none`. -/
def setBlob (a : UAtom) (p : Nat) (buf : Bytes) (i : Nat) : Option UAtom := do
  let a ← clear a
  let l ← rdI32 buf i
  if l < 0 then none
  else do
    let src ← slice buf i (l + 4)
    some (.mk 98 a.alloc (.blob p (src ++ zeros (4 - l.toNat % 4))))

end UAtom

/-- `hton64` and a store (`osc_byteorder.h` lines 42-50, 78; `C08` shows that the macro does this). -/
def be64 (n : Nat) : Bytes := be32 (n / M32) ++ be32 n

/-! ## Serialisation: the calls without buffer -/

mutual
/-- `osc_atom_u_nserialize` (`osc_atom_u.c` lines 1343-1438) with a NULL buffer.  A blob with a negative length field is `none`. -/
def sizeAtom : UAtom → Option Nat
  | .mk tag _ w =>
    if tag = 99 ∨ tag = 67 ∨ tag = 117 ∨ tag = 85 ∨ tag = 105 ∨ tag = 73 then some 4
    else if tag = 102 then some 4
    else if tag = 100 then some 8
    else if tag = 115 then
      match w with
      | .str _ s => some (padN s.length)
      | _ => none
    else if tag = 46 then
      match w with
      | .bndl _ ms => (sizeMsgs ms).map (16 + · + 4)
      | w => if w.raw = 0 then some 20 else none
    else if tag = 116 then some 8
    else if tag = 104 ∨ tag = 72 then some 8
    else if tag = 98 then
      match w with
      | .blob _ blk => (rdI32 blk 0).bind fun l => if l < 0 then none else some (blobLen l.toNat)
      | _ => none
    else some 0
/-- The loop over the atoms in `osc_message_u_nserialize` (`osc_message_u.c` lines 992-996). -/
def sizeArgs : List UAtom → Option Nat
  | [] => some 0
  | a :: as => (sizeAtom a).bind fun n => (sizeArgs as).map (n + ·)
/-- `osc_message_u_nserialize` with a NULL buffer (`osc_message_u.c` lines 980-997). -/
def sizeMsg : UMsg → Option Nat
  | .mk none _ => some 0
  | .mk (some a) args => (sizeArgs args).map (4 + padStrLen a.length + padN (args.length + 1) + ·)
/-- The loop of `osc_bundle_u_nserialize` with a NULL buffer (`osc_bundle_u.c` lines 623-627). -/
def sizeMsgs : List UMsg → Option Nat
  | [] => some 0
  | m :: ms => (sizeMsg m).bind fun n => (sizeMsgs ms).map (n + ·)
end

/-- `osc_bundle_u_getSerializedSize` (`osc_bundle_u.c` lines 600-603). -/
def sizeBundle (ms : List UMsg) : Option Nat := (sizeMsgs ms).map (16 + ·)

/-- `OSC_EMPTY_HEADER` (`osc.h` line 43). -/
def emptyHeader : Bytes := [35, 98, 117, 110, 100, 108, 101, 0, 0, 0, 0, 0, 0, 0, 0, 0]

/-- `osc_timetag_encodeForHeader` of the union's `w.t` (`osc_timetag.c` lines 662-677). -/
def timetagOf (w : W) : Bytes := be32 (w.raw % M32) ++ be32 (w.raw / M32 % M32)

/-! ## Serialisation: writing into a buffer of `n` bytes.  The result is what is written; the returned size is its length. -/

mutual
/-- `osc_atom_u_nserialize` (`osc_atom_u.c` lines 1343-1438).  When a bundle does not fit, control falls through to the time tag case.  Copying from
outside the string or blob, or past the padded length, is UB. -/
def serAtom (n : Nat) : UAtom → Option Bytes
  | .mk tag _ w =>
    if tag = 99 ∨ tag = 67 ∨ tag = 117 ∨ tag = 85 ∨ tag = 105 ∨ tag = 73 then
      some (if n ≥ 4 then be32 (w.raw % M32) else [])
    else if tag = 102 then some (if n ≥ 4 then be32 (w.raw % M32) else [])
    else if tag = 100 then some (if n ≥ 8 then be64 (w.raw % M64) else [])
    else if tag = 115 then
      match w with
      | .str _ s =>
        if n ≥ padN s.length then
          if padN s.length < s.length then none else some (s ++ zeros (padN s.length - s.length))
        else some []
      | _ => none
    else if tag = 46 then
      match w with
      | .bndl p ms => (sizeMsgs ms).bind fun k =>
        if n ≥ 16 + k + 4 then (serMsgs (16 + k) 16 ms).map fun bs => be32 (16 + k) ++ (emptyHeader ++ bs)
        else some (if n ≥ 8 then timetagOf (.bndl p []) else [])
      | w => if w.raw = 0 then some (if n ≥ 20 then be32 16 ++ emptyHeader else if n ≥ 8 then timetagOf w else []) else none
    else if tag = 116 then some (if n ≥ 8 then timetagOf w else [])
    else if tag = 104 ∨ tag = 72 then some (if n ≥ 8 then be64 (w.raw % M64) else [])
    else if tag = 98 then
      match w with
      | .blob _ blk => (rdI32 blk 0).bind fun l =>
        if l < 0 then none
        else if n ≥ blobLen l.toNat then
          (slice blk 0 (l + 4)).map fun c => c ++ zeros (blobLen l.toNat - c.length)
        else some []
      | _ => none
    else some []
/-- The loop over the atoms in `osc_message_u_nserialize` (`osc_message_u.c` lines 1017-1023), `k` bytes having been written
to the `n` bytes of the buffer.  The condition `ttptr < buf + n` always holds there. -/
def serArgs (n k : Nat) : List UAtom → Option Bytes
  | [] => some []
  | a :: as =>
    if k ≤ n then (serAtom (n - k) a).bind fun d => (serArgs n (k + d.length) as).map (d ++ ·)
    else serArgs n k as
/-- `osc_message_u_nserialize` (`osc_message_u.c` lines 998-1027). -/
def serMsg (n : Nat) : UMsg → Option Bytes
  | .mk none _ => some []
  | .mk (some a) args =>
    let pa := padN a.length
    let pt := padN (args.length + 1)
    if pa < a.length ∨ pt < args.length + 1 then none
    else if n < 4 + pa + pt then some []
    else (serArgs n (4 + pa + pt) args).map fun d =>
      be32 (4 + pa + pt + d.length - 4) ++ ((a ++ zeros (pa - a.length)) ++
        ((44 :: args.map UAtom.tag) ++ zeros (pt - (args.length + 1))) ++ d)
/-- The loop of `osc_bundle_u_nserialize` (`osc_bundle_u.c` lines 634-637), `k` bytes having been written. -/
def serMsgs (n k : Nat) : List UMsg → Option Bytes
  | [] => some []
  | m :: ms =>
    if k < n then (serMsg (n - k) m).bind fun d => (serMsgs n (k + d.length) ms).map (d ++ ·)
    else some []
end

/-- `osc_bundle_u_nserialize` (`osc_bundle_u.c` lines 617-641). -/
def serBundle (n : Nat) (ms : List UMsg) : Option Bytes :=
  if n < 16 then some [] else (serMsgs n 16 ms).map (emptyHeader ++ ·)

/-- `osc_bundle_u_serialize` (`osc_bundle_u.c` lines 605-615): the bytes; the size is never 0. -/
def serialize (ms : List UMsg) : Option Bytes := (sizeBundle ms).bind fun n => serBundle n ms

/-- `osc_message_u_serialize` (`osc_message_u.c` lines 1035-1043): the bytes of the new block. -/
def serializeMsg (m : UMsg) : Option Bytes := (sizeMsg m).bind fun n => serMsg n m

/-- `osc_atom_u_serialize` (`osc_atom_u.c` lines 1445-1451): type tag and bytes of the new block. -/
def serializeAtom (a : UAtom) : Option (UInt8 × Bytes) := (sizeAtom a).bind fun n => (serAtom n a).map (a.tag, ·)

end Libo
