import Verif.ExprSyntax
import Verif.TextScan
import Verif.Name
/-!
# Specification: how the tokens of the expression language are written

`Spell t y x`: the token `t` is written `y`, if no character for which `x` is true follows.  `Written ts s`: the text `s` is the tokens `ts`,
with space, line ends and comments between them where one wants, and where they are needed.  Nothing here says how to scan a text.
-/

namespace Libo.Syn
open Libo

/-- Tokens that are always written in the same way.  (A semicolon is scanned, but no text with it is accepted.) -/
def symbols : List (Bytes × Tok) :=
  [(n! "+", .op .add), (n! "-", .op .sub), (n! "*", .op .mul), (n! "/", .op .div), (n! "%", .op .mod), (n! "^", .op .pow),
   (n! "==", .op .eq), (n! "!=", .op .neq), (n! "<", .op .lt), (n! "<=", .op .lte), (n! ">", .op .gt), (n! ">=", .op .gte),
   (n! "&", .op .and), (n! "&&", .op .andand), (n! "|", .op .or), (n! "||", .op .oror), (n! "+=", .op .addEq), (n! "-=", .op .subEq),
   (n! "*=", .op .mulEq), (n! "/=", .op .divEq), (n! "%=", .op .modEq), (n! "^=", .op .powEq), (n! "(", .lpar), (n! ")", .rpar),
   (n! "[", .lbrk), (n! "]", .rbrk), (n! "[[", .ldbl), (n! "]]", .rdbl), (n! "{", .lbrace), (n! "}", .rbrace), (n! ",", .comma),
   (n! ":", .colon), (n! "?", .quest), (n! "=", .assign), (n! ".", .dot), (n! "!", .bang), (n! "??", .dblq), (n! "??=", .dblqeq),
   (n! "++", .inc), (n! "--", .dec), (n! "`", .bquote)]

def isDigit (c : UInt8) : Bool := decide (48 ≤ c) && decide (c ≤ 57)
def isHex (c : UInt8) : Bool := isDigit c || (decide (97 ≤ c) && decide (c ≤ 102)) || (decide (65 ≤ c) && decide (c ≤ 70))

/-- Characters that may be part of an address: not the operators, brackets, blanks, `.` and `;`. -/
def addrChar (c : UInt8) : Bool := !(n! ".+-*%^!=[]:;,?<>&|\\{}() \n\t`").contains c
/-- Characters that may be part of a word: not the operators, quotes, brackets, blanks, `.` and `;`. -/
def wordChar (c : UInt8) : Bool := !(n! "'\"+-*/%^!=[]:;,?<>&|\\{}() \n\t`.").contains c

/-- A symbol goes on: together with the next character it is the beginning of another one; `/` begins an address, `.` a number. -/
def symbolMore (w : Bytes) (c : UInt8) : Bool :=
  symbols.any (fun x => (w ++ [c]).isPrefixOf x.1) || (w == n! "/" && addrChar c) || (w == n! "." && isDigit c)

/-- Values of words, and the word `lambda`, in the spellings that are recognised. -/
def keywords : List Bytes :=
  [n! "true", n! "True", n! "TRUE", n! "false", n! "False", n! "FALSE", n! "nil", n! "Nil", n! "NIL", n! "lambda"]

/-- Every parenthesis is closed; no backslashes. -/
inductive Balanced : Bytes → Prop
  | nil : Balanced []
  | chr {c : UInt8} {s : Bytes} : c ≠ 40 → c ≠ 41 → c ≠ 92 → Balanced s → Balanced (c :: s)
  | paren {s t : Bytes} : Balanced s → Balanced t → Balanced (40 :: (s ++ 41 :: t))

/-- A string with a backslash before each quote. -/
def escaped (s : Bytes) : Bytes := s.flatMap fun c => if c = 34 then [92, 34] else [c]

/-- Value of digits. -/
def numeral (base : Nat) (digit : UInt8 → Nat) (s : Bytes) : Nat := s.foldl (fun n c => n * base + digit c) 0
def decDigit (c : UInt8) : Nat := c.toNat - 48
def hexDigit (c : UInt8) : Nat := if c ≤ 57 then c.toNat - 48 else if c ≤ 70 then c.toNat - 55 else c.toNat - 87

/-- How tokens are written, and what must not follow. -/
inductive Spell (E : Text.Env) : Tok → Bytes → (UInt8 → Bool) → Prop
  /-- Symbols. -/
  | symbol {w : Bytes} {t : Tok} : (w, t) ∈ symbols → Spell E t w (symbolMore w)
  /-- Integers. -/
  | int {u : Bytes} {a : UAtom} : u ≠ [] → (∀ c ∈ u, isDigit c = true) → (u.head? = some 48 → u = [48]) → numeral 10 decDigit u < 2147483648 →
    UAtom.fresh.setInt32 (numeral 10 decDigit u) = some a → Spell E (.num a) u fun c => isDigit c || (n! ".eExX").contains c
  /-- Unsigned integers: up to eight hexadecimal digits for 32 bits, up to sixteen for 64 bits. -/
  | hex32 {u : Bytes} {a : UAtom} (x : UInt8) : x = 120 ∨ x = 88 → u ≠ [] → (∀ c ∈ u, isHex c = true) → u.length ≤ 8 →
    UAtom.fresh.setUInt32 (numeral 16 hexDigit u) = some a → Spell E (.num a) (48 :: x :: u) fun c => isHex c || (n! ".pP").contains c
  | hex64 {u : Bytes} {a : UAtom} (x : UInt8) : x = 120 ∨ x = 88 → (∀ c ∈ u, isHex c = true) → 8 < u.length → u.length ≤ 16 →
    UAtom.fresh.setUInt64 (numeral 16 hexDigit u) = some a → Spell E (.num a) (48 :: x :: u) fun c => isHex c || (n! ".pP").contains c
  /-- Floating point numbers with a point and without an exponent. -/
  | float {u v : Bytes} {a : UAtom} : u ≠ [] → (∀ c ∈ u, isDigit c = true) → (∀ c ∈ v, isDigit c = true) →
    UAtom.fresh.setDouble (E.strtod (u ++ 46 :: v)) = some a →
    Spell E (.num a) (u ++ 46 :: v) fun c => isDigit c || (n! ".eEflFLxX").contains c
  /-- A character is an 8 bit number. -/
  | char {c : UInt8} {a : UAtom} : c ≠ 10 → UAtom.fresh.setInt8 (if c < 128 then c.toNat else (c.toNat : Int) - 256) = some a →
    Spell E (.num a) [39, c, 39] fun _ => false
  /-- Truth values and nil. -/
  | tru {w : Bytes} {a : UAtom} : w ∈ [n! "true", n! "True", n! "TRUE"] → UAtom.fresh.setTrue = some a → Spell E (.num a) w wordChar
  | fls {w : Bytes} {a : UAtom} : w ∈ [n! "false", n! "False", n! "FALSE"] → UAtom.fresh.setFalse = some a → Spell E (.num a) w wordChar
  | nil {w : Bytes} {a : UAtom} : w ∈ [n! "nil", n! "Nil", n! "NIL"] → UAtom.fresh.setNil = some a → Spell E (.num a) w wordChar
  | lambda : Spell E .lambda (n! "lambda") wordChar
  /-- Addresses. -/
  | addr {s : Bytes} : s ≠ [] → (∀ c ∈ s, addrChar c = true) → Spell E (.addr (47 :: s)) (47 :: s) addrChar
  /-- Words: strings without quotes. -/
  | word {s : Bytes} {c : UInt8} : (∀ d ∈ c :: s, wordChar d = true ∧ 32 ≤ d) → isDigit c = false → c ≠ 35 → c :: s ∉ keywords → c :: s ≠ n! "quote" →
    Spell E (.str (c :: s)) (c :: s) wordChar
  /-- Strings. -/
  | str {s : Bytes} : 92 ∉ s → Spell E (.str s) (34 :: (escaped s ++ [34])) fun _ => false
  /-- A backslash that is not before a quote stands for itself. -/
  | raw {s : Bytes} : s ≠ [] → 34 ∉ s → s.getLast? ≠ some 92 → Spell E (.str s) (34 :: (s ++ [34])) fun _ => false
  /-- Quoted expressions. -/
  | quoted {s : Bytes} : Balanced s → Spell E (.quoted s) (n! "quote(" ++ (s ++ [41])) fun _ => false

/-- A text that consists of these tokens. -/
inductive Written (E : Text.Env) : List Tok → Bytes → Prop
  | nil : Written E [] []
  | tok {t : Tok} {ts : List Tok} {y s : Bytes} {x : UInt8 → Bool} : Spell E t y x → (∀ c, s.head? = some c → x c = false) → Written E ts s →
    Written E (t :: ts) (y ++ s)
  | space {c : UInt8} {ts : List Tok} {s : Bytes} : c = 32 ∨ c = 9 ∨ c = 10 → Written E ts s → Written E ts (c :: s)
  /-- A comment goes up to the end of the line. -/
  | comment {w : Bytes} {ts : List Tok} {s : Bytes} : 10 ∉ w → Written E ts s → Written E ts (35 :: (w ++ 10 :: s))
  | lastComment {w : Bytes} : 10 ∉ w → Written E [] (35 :: w)

end Libo.Syn
