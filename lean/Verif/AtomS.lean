import Verif.AtomU
/-!
# Model of serialised atoms and of deserialisation (`osc_atom_s.c`, `osc_message_s.c`, `osc_bundle_s.c`)

An `AtomS` is a type tag and a place in a buffer.  Note that `ntoh32` always yields an unsigned number
(`osc_byteorder.h` lines 36-40: the first mask is unsigned), so a negative 32 bit number becomes positive when it is then
converted to a 64 bit type.  Strings are not converted to numbers in the model (`none`).
-/

namespace Libo

/-- An 8 byte load and `ntoh64`, as an unsigned number. -/
def rd64 (buf : Bytes) (i : Nat) : Option Nat := do
  let a ← rd32 buf i
  let b ← rd32 buf (i + 4)
  some (a * M32 + b)

namespace AtomS

/-- `f` and `d` at a place, rounded towards zero. -/
def f (buf : Bytes) (p : Nat) : Option (Option Int) := (rd32 buf p).map (fTrunc 23 8)
def d (buf : Bytes) (p : Nat) : Option (Option Int) := (rd64 buf p).map (fTrunc 52 11)

/-- Cast to `int32_t`, `int64_t`, ... of an unsigned number read from the buffer. -/
def sg (m : Nat) (x : Option Nat) : Option Int := x.map fun n => castS m n
def un (m : Nat) (x : Option Nat) : Option Int := x.map fun n => castU m n

/-- `osc_atom_s_getInt32` (`osc_atom_s.c` lines 175-220). -/
def getInt32 (buf : Bytes) (a : AtomS) : Option Int :=
  if a.tag = 105 ∨ a.tag = 99 ∨ a.tag = 117 then sg M32 (rd32 buf a.ptr)
  else if a.tag = 102 then (f buf a.ptr).bind (fCast (-2147483648) 2147483648)
  else if a.tag = 100 then (d buf a.ptr).bind (fCast (-2147483648) 2147483648)
  else if a.tag = 104 then sg M32 (rd64 buf a.ptr)
  else if a.tag = 67 ∨ a.tag = 85 ∨ a.tag = 73 then sg M32 (rd32 buf a.ptr)
  else if a.tag = 72 then sg M32 (rd64 buf a.ptr)
  else if a.tag = 84 then some 1
  else if a.tag = 70 then some 0
  else if a.tag = 78 then some 0
  else if a.tag = 115 then none
  else some 0

/-- `osc_atom_s_getInt8` (`osc_atom_s.c` lines 165-168). -/
def getInt8 (buf : Bytes) (a : AtomS) : Option Int := (getInt32 buf a).map (castS M8)
/-- `osc_atom_s_getInt16` (`osc_atom_s.c` lines 170-173). -/
def getInt16 (buf : Bytes) (a : AtomS) : Option Int := (getInt32 buf a).map (castS M16)

/-- `osc_atom_s_getInt64` (`osc_atom_s.c` lines 222-263).  `C` and `U` are read as 8 bytes. -/
def getInt64 (buf : Bytes) (a : AtomS) : Option Int :=
  if a.tag = 104 then sg M64 (rd64 buf a.ptr)
  else if a.tag = 99 ∨ a.tag = 117 ∨ a.tag = 105 then sg M64 (rd32 buf a.ptr)
  else if a.tag = 100 then (d buf a.ptr).bind (fCast (-9223372036854775808) 9223372036854775808)
  else if a.tag = 102 then (f buf a.ptr).bind (fCast (-9223372036854775808) 9223372036854775808)
  else if a.tag = 73 then sg M64 (rd32 buf a.ptr)
  else if a.tag = 67 ∨ a.tag = 85 ∨ a.tag = 72 then sg M64 (rd64 buf a.ptr)
  else if a.tag = 84 then some 1
  else if a.tag = 70 then some 0
  else if a.tag = 78 then some 0
  else if a.tag = 115 then none
  else some 0

/-- `osc_atom_s_getUInt32` (`osc_atom_s.c` lines 275-316). -/
def getUInt32 (buf : Bytes) (a : AtomS) : Option Int :=
  if a.tag = 73 then un M32 (rd32 buf a.ptr)
  else if a.tag = 67 ∨ a.tag = 85 ∨ a.tag = 99 ∨ a.tag = 117 ∨ a.tag = 105 then un M32 (rd32 buf a.ptr)
  else if a.tag = 102 then (f buf a.ptr).bind (fCast (0) 4294967296)
  else if a.tag = 100 then (d buf a.ptr).bind (fCast (0) 4294967296)
  else if a.tag = 104 then un M32 (rd64 buf a.ptr)
  else if a.tag = 72 then un M32 (rd64 buf a.ptr)
  else if a.tag = 84 then some 1
  else if a.tag = 70 then some 0
  else if a.tag = 78 then some 0
  else if a.tag = 115 then none
  else some 0

/-- `osc_atom_s_getUInt8` (`osc_atom_s.c` lines 265-268). -/
def getUInt8 (buf : Bytes) (a : AtomS) : Option Int := (getUInt32 buf a).map (castU M8)
/-- `osc_atom_s_getUInt16` (`osc_atom_s.c` lines 270-273). -/
def getUInt16 (buf : Bytes) (a : AtomS) : Option Int := (getUInt32 buf a).map (castU M16)

/-- `osc_atom_s_getUInt64` (`osc_atom_s.c` lines 318-358). -/
def getUInt64 (buf : Bytes) (a : AtomS) : Option Int :=
  if a.tag = 72 then un M64 (rd64 buf a.ptr)
  else if a.tag = 99 ∨ a.tag = 117 ∨ a.tag = 105 then un M64 (rd32 buf a.ptr)
  else if a.tag = 104 then un M64 (rd64 buf a.ptr)
  else if a.tag = 67 ∨ a.tag = 85 ∨ a.tag = 73 then un M64 (rd32 buf a.ptr)
  else if a.tag = 102 then (f buf a.ptr).bind (fCast (0) 18446744073709551616)
  else if a.tag = 100 then (d buf a.ptr).bind (fCast (0) 18446744073709551616)
  else if a.tag = 84 then some 1
  else if a.tag = 70 then some 0
  else if a.tag = 78 then some 0
  else if a.tag = 115 then none
  else some 0

/-- `osc_atom_s_getInt` (`osc_atom_s.c` lines 360-401).  `c` and `u` are read as `float`. -/
def getInt (buf : Bytes) (a : AtomS) : Option Int :=
  if a.tag = 105 then sg M32 (rd32 buf a.ptr)
  else if a.tag = 99 ∨ a.tag = 117 ∨ a.tag = 102 then (f buf a.ptr).bind (fCast (-2147483648) 2147483648)
  else if a.tag = 100 then (d buf a.ptr).bind (fCast (-2147483648) 2147483648)
  else if a.tag = 104 then sg M32 (rd64 buf a.ptr)
  else if a.tag = 67 ∨ a.tag = 85 ∨ a.tag = 73 then sg M32 (rd32 buf a.ptr)
  else if a.tag = 72 then sg M32 (rd64 buf a.ptr)
  else if a.tag = 84 then some 1
  else if a.tag = 70 then some 0
  else if a.tag = 78 then some 0
  else if a.tag = 115 then none
  else some 0

/-- `osc_atom_s_setInt8` (`osc_atom_s.c` lines 735-746): type tag and the 4 bytes stored. -/
def setInt8 (v : Int) : UInt8 × Bytes := (99, be32 (v % M32).toNat)

/-- `osc_atom_s_setInt16` (`osc_atom_s.c` lines 748-759): type tag and the 4 bytes stored. -/
def setInt16 (v : Int) : UInt8 × Bytes := (117, be32 (v % M32).toNat)

/-- `osc_atom_s_setInt32` (`osc_atom_s.c` lines 761-771): type tag and the 4 bytes stored. -/
def setInt32 (v : Int) : UInt8 × Bytes := (105, be32 (v % M32).toNat)

/-- `osc_atom_s_setInt64` (`osc_atom_s.c` lines 773-783): type tag and the 8 bytes stored. -/
def setInt64 (v : Int) : UInt8 × Bytes := (104, be64 (v % M64).toNat)

/-- `osc_atom_s_setUInt8` (`osc_atom_s.c` lines 785-796): type tag and the 4 bytes stored. -/
def setUInt8 (v : Int) : UInt8 × Bytes := (67, be32 (v % M32).toNat)

/-- `osc_atom_s_setUInt16` (`osc_atom_s.c` lines 798-809): type tag and the 4 bytes stored. -/
def setUInt16 (v : Int) : UInt8 × Bytes := (85, be32 (v % M32).toNat)

/-- `osc_atom_s_setUInt32` (`osc_atom_s.c` lines 811-821): type tag and the 4 bytes stored. -/
def setUInt32 (v : Int) : UInt8 × Bytes := (73, be32 (v % M32).toNat)

/-- `osc_atom_s_setUInt64` (`osc_atom_s.c` lines 823-833): type tag and the 8 bytes stored. -/
def setUInt64 (v : Int) : UInt8 × Bytes := (72, be64 (v % M64).toNat)

end AtomS

/-- The address of a newly allocated block; only used if a later setter leaves parts of it in the word. -/
def newPtr : Nat := 4096

/-- `osc_atom_s_deserializeInto` with a new atom (`osc_atom_s.c` lines 931-1017); the getters of `osc_atom_s.c` lines 79-120,
122-163, 619-627 and 646-655 are used as written there for the matching type tag, and `osc_atom_u_setBndl_s`
(`osc_atom_u.c` lines 1190-1206) calls the bundle deserialiser `deserB` with length and place of the nested bundle. -/
def deserAtom (deserB : Int → Bytes → Option (List UMsg)) (buf : Bytes) (a : AtomS) : Option UAtom :=
  let u := UAtom.fresh
  if a.tag = 105 then (a.getInt32 buf).bind u.setInt32
  else if a.tag = 102 then (rd32 buf a.ptr).bind u.setFloat
  else if a.tag = 100 then (rd64 buf a.ptr).bind u.setDouble
  else if a.tag = 115 then (cstr buf a.ptr).bind fun s => (u.setStringPtr newPtr s).map (·.setShouldFreePtr true)
  else if a.tag = 99 then (a.getInt8 buf).bind u.setInt8
  else if a.tag = 67 then (a.getUInt8 buf).bind u.setUInt8
  else if a.tag = 117 then (a.getInt16 buf).bind u.setInt16
  else if a.tag = 85 then (a.getUInt16 buf).bind u.setUInt16
  else if a.tag = 104 then (a.getInt64 buf).bind u.setInt64
  else if a.tag = 73 then (a.getUInt32 buf).bind u.setUInt32
  else if a.tag = 72 then (a.getUInt64 buf).bind u.setUInt64
  else if a.tag = 84 then u.setTrue
  else if a.tag = 70 then u.setFalse
  else if a.tag = 78 then u.setNil
  else if a.tag = 46 then
    (rd32 buf a.ptr).bind fun len => (deserB len (buf.drop (a.ptr + 4))).bind fun ms =>
      u.clear.map fun u => u.setBndlU newPtr ms
  else if a.tag = 116 then (Timetag.decode buf a.ptr).bind u.setTimetag
  else if a.tag = 98 then u.setBlob newPtr buf a.ptr
  else some u

/-- `osc_message_u_setAddress` on a new message (`osc_message_u.c` lines 168-193): an address that does not start with a slash
is not stored. -/
def newAddress (a : Bytes) : Option Bytes := if a.head? = some 47 then some a else none

/-- `osc_message_s_deserialize` (`osc_message_s.c` lines 272-284). -/
def deserMsg (deserB : Int → Bytes → Option (List UMsg)) (buf : Bytes) (v : View) : Option UMsg :=
  (cstr buf v.address).bind fun a => (MsgS.iterate buf ⟨v, none⟩).bind fun as =>
    (as.mapM (deserAtom deserB buf)).map fun us => .mk (newAddress a) us

/-- `osc_bundle_s_deserialize` (`osc_bundle_s.c` lines 593-604); the first argument bounds the nesting depth. -/
def deserBundle : Nat → Int → Bytes → Option (List UMsg)
  | 0, _, _ => none
  | f + 1, len, buf => (iterate len buf).bind fun vs => vs.mapM (deserMsg (deserBundle f) buf)

/-- Deserialise a whole buffer.  Nested bundles are at least four bytes shorter than what they are in, so the depth is not
reached (C01). -/
def deserialize (buf : Bytes) : Option (List UMsg) := deserBundle (buf.length + 1) buf.length buf

end Libo
