import Verif.Basic
/-! Names as bytes. -/

/-- `n! "abc"` is the list of the bytes of the text. -/
macro "n!" s:str : term => do
  let es : Array (Lean.TSyntax `term) := s.getString.toUTF8.toList.toArray.map fun b => Lean.quote b.toNat
  `(([$es,*] : List UInt8))
