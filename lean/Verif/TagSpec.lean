import Verif.Basic
/-!
# Specification of the type tag order

What a type is, independently of any table: its kind, its width in bits and whether it is unsigned.
-/

namespace Libo

/-- Nil, truth values, integers, floating point numbers, strings. -/
inductive Kind where
  | nil | bool | int | float | string
deriving DecidableEq

def Kind.level : Kind → Nat
  | .nil => 0 | .bool => 1 | .int => 2 | .float => 3 | .string => 4

/-- Kind, width in bits, unsignedness of the types of the expression language; for truth values the last component
separates true from false. -/
def tagInfo (tt : UInt8) : Option (Kind × Nat × Nat) :=
  if tt = 'N'.toNat.toUInt8 then some (.nil, 0, 0)
  else if tt = 'T'.toNat.toUInt8 then some (.bool, 1, 0)
  else if tt = 'F'.toNat.toUInt8 then some (.bool, 1, 1)
  else if tt = 'c'.toNat.toUInt8 then some (.int, 8, 0)
  else if tt = 'C'.toNat.toUInt8 then some (.int, 8, 1)
  else if tt = 'u'.toNat.toUInt8 then some (.int, 16, 0)
  else if tt = 'U'.toNat.toUInt8 then some (.int, 16, 1)
  else if tt = 'i'.toNat.toUInt8 then some (.int, 32, 0)
  else if tt = 'I'.toNat.toUInt8 then some (.int, 32, 1)
  else if tt = 'h'.toNat.toUInt8 then some (.int, 64, 0)
  else if tt = 'H'.toNat.toUInt8 then some (.int, 64, 1)
  else if tt = 'f'.toNat.toUInt8 then some (.float, 32, 0)
  else if tt = 'd'.toNat.toUInt8 then some (.float, 64, 0)
  else if tt = 's'.toNat.toUInt8 then some (.string, 0, 0)
  else none

/-- Smaller type: smaller kind, then smaller width, then signed before unsigned. -/
def Smaller (a b : Kind × Nat × Nat) : Prop :=
  a.1.level < b.1.level ∨ (a.1.level = b.1.level ∧ (a.2.1 < b.2.1 ∨ (a.2.1 = b.2.1 ∧ a.2.2 < b.2.2)))

instance (a b : Kind × Nat × Nat) : Decidable (Smaller a b) := by unfold Smaller; infer_instance

end Libo
