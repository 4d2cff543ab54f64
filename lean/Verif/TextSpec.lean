import Verif.TextScan
import Verif.ValueSpec
import Verif.TextFmt
import Verif.Props.StrFmt
/-!
# Specification of the text form
-/

namespace Libo.Text
open Libo

/-! ### The text of values

A bundle is its messages with a comma and a newline between them; a message is its address, followed by ` : ` and its value if it has
one, or by ` : ` and the list of its values in brackets.  A nested bundle is indented by two more spaces.  `dec` and `decI` are decimal
numbers (`Printf.lean`), what floating point numbers look like is a parameter, and what time tags look like is said in C31. -/

/-- `n` bits as a signed number. -/
def signedOf (n v : Nat) : Int := if 2 * v < 2 ^ n then v else v - 2 ^ n

/-- `b` between the elements. -/
def between (b : Bytes) : List Bytes → Bytes
  | [] => []
  | [x] => x
  | x :: y :: l => x ++ b ++ between b (y :: l)

/-- The text of a number: 8-bit numbers are characters in single quotes. -/
def textNum (P : Printf) (tag : UInt8) (v : Nat) : Bytes :=
  if tag = 99 ∨ tag = 67 then [39, UInt8.ofNat v, 39]
  else if tag = 117 then decI (signedOf 16 v)
  else if tag = 105 then decI (signedOf 32 v)
  else if tag = 104 then decI (signedOf 64 v)
  else if tag = 102 then P.f32 v
  else if tag = 100 then P.f64 v
  else dec v

/-- The text of a time tag (C31). -/
def timeText (s f : Nat) : Bytes := (Iso.isoText ⟨UInt32.ofNat s, UInt32.ofNat f⟩).getD []

mutual
/-- The text of a value inside of a message that is indented by `ind` steps. -/
def textVal (P : Printf) (ind : Nat) : Val → Bytes
  | .num tag v => textNum P tag v
  | .time s f => timeText s f
  | .bare tag => if tag = 84 then [116, 114, 117, 101] else if tag = 70 then [102, 97, 108, 115, 101] else if tag = 78 then [110, 105, 108] else []
  | .str s => Props.literal s
  | .blob c => [98, 108, 111, 98, 40] ++ between [44, 32] (c.map fun x => decI (signedOf 8 x.toNat)) ++ [41]
  | .bndl ms => [123, 10] ++ between [44, 10] (textMsgs P (ind + 1) ms) ++ [10] ++ List.replicate (2 * ind) 32 ++ [125]
/-- The texts of values. -/
def textVals (P : Printf) (ind : Nat) : List Val → List Bytes
  | [] => []
  | v :: vs => textVal P ind v :: textVals P ind vs
/-- The text of a message. -/
def textMsg (P : Printf) (ind : Nat) : VMsg → Bytes
  | .mk a vs => List.replicate (2 * ind) 32 ++ a.getD [] ++
    match textVals P ind vs with
    | [] => []
    | [t] => [32, 58, 32] ++ t
    | ts => [32, 58, 32, 91] ++ between [44, 32] ts ++ [93]
/-- The texts of messages. -/
def textMsgs (P : Printf) (ind : Nat) : List VMsg → List Bytes
  | [] => []
  | m :: ms => textMsg P ind m :: textMsgs P ind ms
end

/-- The text of a bundle. -/
def textBndl (P : Printf) (ms : List VMsg) : Bytes := between [44, 10] (textMsgs P 0 ms)

mutual
/-- A value whose text the library can write: no unsigned 8-bit number below 100, no empty blob. -/
def Writable : Val → Prop
  | .num tag v => tag = 67 → 100 ≤ v
  | .time _ _ => True
  | .bare _ => True
  | .str s => (0 : UInt8) ∉ s
  | .blob c => c ≠ []
  | .bndl ms => WritableMsgs ms
def WritableVals : List Val → Prop
  | [] => True
  | v :: vs => Writable v ∧ WritableVals vs
def WritableMsg : VMsg → Prop
  | .mk a vs => a ≠ none ∧ WritableVals vs
def WritableMsgs : List VMsg → Prop
  | [] => True
  | m :: ms => WritableMsg m ∧ WritableMsgs ms
end

mutual
/-- The number of time tags in a value. -/
def timesVal : Val → Nat
  | .time _ _ => 1
  | .bndl ms => timesMsgs ms
  | _ => 0
def timesVals : List Val → Nat
  | [] => 0
  | v :: vs => timesVal v + timesVals vs
def timesMsg : VMsg → Nat
  | .mk _ vs => timesVals vs
def timesMsgs : List VMsg → Nat
  | [] => 0
  | m :: ms => timesMsg m + timesMsgs ms
end

/-! ### What can be read back -/

/-- A byte that is a decimal digit. -/
def IsDigits (s : Bytes) : Prop := ∀ c ∈ s, 48 ≤ c ∧ c ≤ 57

/-- A number in floating point as `%g` writes it, perhaps with a point behind it: a sign, digits, perhaps a fraction and perhaps an
exponent, but one of them. -/
def IsFloatText (u : Bytes) : Prop := ∃ sign ds frac ex, u = sign ++ ds ++ frac ++ ex ∧ (sign = [] ∨ sign = [45]) ∧
  ds ≠ [] ∧ IsDigits ds ∧ (frac = [] ∨ ∃ fs, frac = 46 :: fs ∧ IsDigits fs) ∧
  (ex = [] ∨ ∃ s es, ex = 101 :: s :: es ∧ (s = 43 ∨ s = 45) ∧ es ≠ [] ∧ IsDigits es) ∧ (frac ≠ [] ∨ ex ≠ [])

/-- An address that can be read back: a slash and something behind it, without space, tab, newline, `#` and NUL, and without a comma
at the end. -/
def ReadableAddr (a : Bytes) : Prop := ∃ r, a = 47 :: r ∧ r ≠ [] ∧ (∀ c ∈ r, c ∉ ([32, 9, 10, 35, 0] : Bytes)) ∧ r.getLast? ≠ some 44

mutual
/-- A value that can be read back: 32-bit integers, 8-bit characters but NUL and newline, doubles for which `printf` and `strtod` are
inverse, time tags for which printing and reading are inverse, true, false, nil, strings, and bundles of such values. -/
def Readable (E : Env) (P : Printf) : Val → Prop
  | .num tag v => (tag = 105 ∧ v < 2 ^ 32) ∨ (tag = 99 ∧ v < 2 ^ 8 ∧ v ≠ 0 ∧ v ≠ 10) ∨
      (tag = 100 ∧ v < 2 ^ 64 ∧ IsFloatText (P.f64 v) ∧ E.strtod (P.f64 v) = v)
  | .time s f => s < 2 ^ 32 ∧ f < 2 ^ 32 ∧ E.iso (timeText s f) = ⟨UInt32.ofNat s, UInt32.ofNat f⟩
  | .bare tag => tag = 84 ∨ tag = 70 ∨ tag = 78
  | .str s => (0 : UInt8) ∉ s
  | .blob _ => False
  | .bndl ms => ReadableMsgs E P ms
def ReadableVals (E : Env) (P : Printf) : List Val → Prop
  | [] => True
  | v :: vs => Readable E P v ∧ ReadableVals E P vs
def ReadableMsg (E : Env) (P : Printf) : VMsg → Prop
  | .mk a vs => (∃ b, a = some b ∧ ReadableAddr b) ∧ ReadableVals E P vs
def ReadableMsgs (E : Env) (P : Printf) : List VMsg → Prop
  | [] => True
  | m :: ms => ReadableMsg E P m ∧ ReadableMsgs E P ms
end

/-! ### The grammar (`osc_parser.y` lines 180-268)

The productions and their actions, as they stand in the file, left recursion included. -/

mutual
inductive GMsgs (p : Nat) : List Tok → List UMsg → Prop
  | one {t : List Tok} {m : UMsg} : GMsg p t m → GMsgs p t [m]
  | more {t u : List Tok} {ms : List UMsg} {m : UMsg} : GMsgs p t ms → GMsg p u m → GMsgs p (t ++ .chr 44 :: u) (ms ++ [m])
inductive GMsg (p : Nat) : List Tok → UMsg → Prop
  | bare {a : Bytes} : GMsg p [.addr a] (.mk (some a) [])
  | one {a : Bytes} {t : List Tok} {x : UAtom} : GDatum p t x → GMsg p (.addr a :: .chr 58 :: t) (.mk (some a) [x])
  | list {a : Bytes} {t : List Tok} {xs : List UAtom} : GData p t xs →
      GMsg p (.addr a :: .chr 58 :: .chr 91 :: (t ++ [.chr 93])) (.mk (some a) xs)
inductive GData (p : Nat) : List Tok → List UAtom → Prop
  | one {t : List Tok} {x : UAtom} : GDatum p t x → GData p t [x]
  | more {t u : List Tok} {xs : List UAtom} {x : UAtom} : GData p t xs → GDatum p u x → GData p (t ++ .chr 44 :: u) (xs ++ [x])
inductive GDatum (p : Nat) : List Tok → UAtom → Prop
  | addr {s : Bytes} : GDatum p [.addr s] (.mk 115 true (.str p s))
  | val {x : UAtom} : GDatum p [.val x] x
  | empty : GDatum p [.chr 123, .chr 125] (.mk 46 false (.bndl p []))
  | bndl {t : List Tok} {ms : List UMsg} : GMsgs p t ms → GDatum p (.chr 123 :: (t ++ [.chr 125])) (.mk 46 false (.bndl p ms))
end

end Libo.Text
