import Verif.AtomS
/-!
# Specification vocabulary for typed values

What the integer types of atoms are and what converting between them means, stated with the integers of Lean's library.
-/

namespace Libo

/-- The integer types an atom can have. -/
inductive ITy where
  | i8 | i16 | i32 | i64 | u8 | u16 | u32 | u64
deriving DecidableEq

namespace ITy

/-- Number of bits. -/
def width : ITy → Nat
  | i8 => 8 | u8 => 8 | i16 => 16 | u16 => 16 | i32 => 32 | u32 => 32 | i64 => 64 | u64 => 64

def signed : ITy → Bool
  | i8 => true | i16 => true | i32 => true | i64 => true | _ => false

/-- The values of the type. -/
def has (t : ITy) (v : Int) : Prop :=
  if t.signed then -(2 ^ (t.width - 1) : Int) ≤ v ∧ v < 2 ^ (t.width - 1) else 0 ≤ v ∧ v < 2 ^ t.width

/-- Conversion of a number to the type: the number itself if it fits, otherwise reduced modulo two to the width. -/
def conv (t : ITy) (v : Int) : Int := if t.signed then Int.bmod v (2 ^ t.width) else v % (2 ^ t.width)

/-- A number of the type is not changed. -/
theorem conv_self (t : ITy) (v : Int) (h : t.has v) : t.conv v = v := by
  cases t <;> simp [has, conv, signed, width, Int.bmod] at h ⊢ <;> omega

end ITy

/-- The typed setters of unserialised atoms. -/
def setU : ITy → UAtom → Int → Option UAtom
  | .i8 => UAtom.setInt8 | .i16 => UAtom.setInt16 | .i32 => UAtom.setInt32 | .i64 => UAtom.setInt64
  | .u8 => UAtom.setUInt8 | .u16 => UAtom.setUInt16 | .u32 => UAtom.setUInt32 | .u64 => UAtom.setUInt64

/-- The typed getters of unserialised atoms. -/
def getU : ITy → UAtom → Option Int
  | .i8 => UAtom.getInt8 | .i16 => UAtom.getInt16 | .i32 => UAtom.getInt32 | .i64 => UAtom.getInt64
  | .u8 => UAtom.getUInt8 | .u16 => UAtom.getUInt16 | .u32 => UAtom.getUInt32 | .u64 => UAtom.getUInt64

/-- The typed setters of serialised atoms. -/
def setS : ITy → Int → UInt8 × Bytes
  | .i8 => AtomS.setInt8 | .i16 => AtomS.setInt16 | .i32 => AtomS.setInt32 | .i64 => AtomS.setInt64
  | .u8 => AtomS.setUInt8 | .u16 => AtomS.setUInt16 | .u32 => AtomS.setUInt32 | .u64 => AtomS.setUInt64

/-- The typed getters of serialised atoms. -/
def getS : ITy → Bytes → AtomS → Option Int
  | .i8 => AtomS.getInt8 | .i16 => AtomS.getInt16 | .i32 => AtomS.getInt32 | .i64 => AtomS.getInt64
  | .u8 => AtomS.getUInt8 | .u16 => AtomS.getUInt16 | .u32 => AtomS.getUInt32 | .u64 => AtomS.getUInt64

end Libo
