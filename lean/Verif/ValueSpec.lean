import Verif.MsgSpec
/-!
# Specification vocabulary: the values a bundle holds and their wire form

Independent of the model: a bundle is a list of messages, a message an address and a list of typed values, and a value may
be a bundle again.  `EncVal` and its companions say which bytes represent a value (OSC 1.0 text, with the type tags libo
adds), `sizeVal` and its companions how many bytes that takes.
-/

namespace Libo

mutual
/-- A typed value. -/
inductive Val where
  /-- An integer or floating point number with the bits `v`: tags `c C u U i I f h H d`. -/
  | num (tag : UInt8) (v : Nat)
  /-- A time tag. -/
  | time (sec frac : Nat)
  /-- A value that consists of its type tag alone. -/
  | bare (tag : UInt8)
  | str (s : Bytes)
  | blob (c : Bytes)
  | bndl (ms : List VMsg)
/-- A message; `none` if no address was ever given. -/
inductive VMsg where
  | mk (addr : Option Bytes) (args : List Val)
end

/-- The header of a bundle without time tag: identifier and eight zero bytes. -/
def plainHeader : Bytes := ident ++ zeros 8

mutual
/-- `d` with type tag `t` is a wire form of the value.  Of the four bytes of an 8 or 16 bit number only the low ones count. -/
def EncVal : Val → UInt8 → Bytes → Prop
  | .num tag v, t, d => t = tag ∧
    ((tag ∈ ([99, 67] : List UInt8) ∧ ∃ n, n % 2 ^ 8 = v ∧ n < 2 ^ 32 ∧ d = be32 n) ∨
     (tag ∈ ([117, 85] : List UInt8) ∧ ∃ n, n % 2 ^ 16 = v ∧ n < 2 ^ 32 ∧ d = be32 n) ∨
     (tag ∈ ([105, 73, 102] : List UInt8) ∧ v < 2 ^ 32 ∧ d = be32 v) ∨
     (tag ∈ ([104, 72, 100] : List UInt8) ∧ v < 2 ^ 64 ∧ d = be32 (v / 2 ^ 32) ++ be32 v))
  | .time s f, t, d => t = 116 ∧ s < 2 ^ 32 ∧ f < 2 ^ 32 ∧ d = be32 s ++ be32 f
  | .bare tag, t, d => t = tag ∧ d = []
  | .str s, t, d => t = 115 ∧ d = padStr s
  | .blob c, t, d => t = 98 ∧ d = be32 c.length ++ c ++ zeros ((4 - c.length % 4) % 4)
  | .bndl ms, t, d => t = 46 ∧ ∃ b, EncMsgs ms b ∧ d = be32 (plainHeader ++ b).length ++ (plainHeader ++ b)
/-- The arguments `ws` on the wire are the values. -/
def EncArgs : List Val → List WArg → Prop
  | [], ws => ws = []
  | v :: vs, ws => ∃ w ws', ws = w :: ws' ∧ EncVal v w.1 w.2 ∧ EncArgs vs ws'
/-- `d` is the message with its size prefix; a message without address has no wire form and is left out. -/
def EncMsg : VMsg → Bytes → Prop
  | .mk none _, d => d = []
  | .mk (some a) vs, d => ∃ ws, EncArgs vs ws ∧ d = encMsg (encBody a ws)
/-- `b` are the messages one after the other. -/
def EncMsgs : List VMsg → Bytes → Prop
  | [], b => b = []
  | m :: ms, b => ∃ d b', b = d ++ b' ∧ EncMsg m d ∧ EncMsgs ms b'
end

/-- Length of a string with its terminator and padding. -/
def strSize (n : Nat) : Nat := n / 4 * 4 + 4

mutual
/-- Number of bytes of a value on the wire. -/
def sizeVal : Val → Nat
  | .num tag _ => if tag = 104 ∨ tag = 72 ∨ tag = 100 then 8 else 4
  | .time _ _ => 8
  | .bare _ => 0
  | .str s => strSize s.length
  | .blob c => 4 + (c.length + 3) / 4 * 4
  | .bndl ms => 4 + (16 + sizeVMsgs ms)
def sizeVals : List Val → Nat
  | [] => 0
  | v :: vs => sizeVal v + sizeVals vs
def sizeVMsg : VMsg → Nat
  | .mk none _ => 0
  | .mk (some a) vs => 4 + (strSize a.length + strSize (1 + vs.length) + sizeVals vs)
def sizeVMsgs : List VMsg → Nat
  | [] => 0
  | m :: ms => sizeVMsg m + sizeVMsgs ms
end

mutual
/-- Values as a program should make them: strings and addresses without NUL, addresses starting with a slash, bare
values only true, false and nil. -/
def GoodVal : Val → Prop
  | .num _ _ => True
  | .time _ _ => True
  | .bare t => t = 84 ∨ t = 70 ∨ t = 78
  | .str s => (0 : UInt8) ∉ s
  | .blob _ => True
  | .bndl ms => GoodMsgs ms
def GoodVals : List Val → Prop
  | [] => True
  | v :: vs => GoodVal v ∧ GoodVals vs
def GoodMsg : VMsg → Prop
  | .mk none _ => False
  | .mk (some a) vs => a.head? = some 47 ∧ (0 : UInt8) ∉ a ∧ GoodVals vs
def GoodMsgs : List VMsg → Prop
  | [] => True
  | m :: ms => GoodMsg m ∧ GoodMsgs ms
end

end Libo
