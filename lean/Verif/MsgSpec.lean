import Verif.BundleSpec
/-!
# Specification vocabulary for messages

Independent of the model: what the body of a message with given typed arguments looks like according to the OSC 1.0 text
and the list of type tags libo supports.
-/

namespace Libo

/-- `d` is the wire form of some argument with type tag `t`. -/
def IsArg (t : UInt8) (d : Bytes) : Prop :=
  -- c C u U i I f: 4 bytes
  (t ∈ ([99, 67, 117, 85, 105, 73, 102] : List UInt8) ∧ d.length = 4) ∨
  -- h H d t: 8 bytes
  (t ∈ ([104, 72, 100, 116] : List UInt8) ∧ d.length = 8) ∨
  -- T F N: nothing
  (t ∈ ([84, 70, 78] : List UInt8) ∧ d = []) ∨
  -- s S: a padded string
  (t ∈ ([115, 83] : List UInt8) ∧ ∃ s : Bytes, (0 : UInt8) ∉ s ∧ s.length + 4 < 4294967296 ∧ d = padStr s) ∨
  -- b: length, contents, zeros up to a multiple of four
  (t = 98 ∧ ∃ c : Bytes, c.length < 4294967296 ∧ d = be32 c.length ++ c ++ zeros ((4 - c.length % 4) % 4)) ∨
  -- .: length and contents of a nested bundle
  (t = 46 ∧ ∃ c : Bytes, c.length + 4 < 4294967296 ∧ d = be32 c.length ++ c)

/-- An argument on the wire: type tag and data. -/
abbrev WArg := UInt8 × Bytes

/-- The type tag string: a comma and one character per argument. -/
def tagString (as : List WArg) : Bytes := 44 :: as.map Prod.fst

/-- The body of a message: padded address, padded type tag string, data of the arguments. -/
def encBody (a : Bytes) (as : List WArg) : Bytes := padStr a ++ padStr (tagString as) ++ as.flatMap Prod.snd

end Libo
