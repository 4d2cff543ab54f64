import Verif.Regex
import Verif.AtomU
/-!
# Model of the scanner for the text form of bundles (`osc_scanner.l`)

The rules are those of the file, in the same order, as regular expressions; flex takes the longest match and of those the first rule.
The scanner is modelled as a function from the text to the list of tokens; that the parser asks for one token after the other makes no
difference, since the scanner does not depend on the parser.

Parameters: the conversion of text to floating point numbers (`strtod`) and to time tags (`osc_timetag_fromISO8601`, see `IsoText.lean`).
Not modelled: what flex prints for a character no rule matches (only a backslash before a newline or at the end of a string).
-/

namespace Libo.Text
open Libo

/-- What is not modelled: `strtod` (the bits of the number), `osc_timetag_fromISO8601`; `ptr` stands for the (arbitrary) pointers. -/
structure Env where
  strtod : Bytes → Nat
  iso : Bytes → Timetag
  ptr : Nat

/-- A token: a character, `OSCVALUE` with its atom, or `OSCADDRESS` with its string (`osc_parser.y` line 170). -/
inductive Tok where
  | chr (c : UInt8)
  | val (a : UAtom)
  | addr (s : Bytes)

/-! ### Regular expressions of `osc_scanner.l` -/

/-- A character. -/
def ch (c : UInt8) : Re := .cls (· == c)
/-- A set of characters. -/
def oneOf (l : Bytes) : Re := .cls fun c => l.contains c
/-- All characters but these. -/
def noneOf (l : Bytes) : Re := .cls fun c => !l.contains c
/-- A range of characters. -/
def range (a b : UInt8) : Re := .cls fun c => decide (a ≤ c) && decide (c ≤ b)
/-- A fixed text. -/
def word : Bytes → Re
  | [] => .eps
  | c :: s => .seq (ch c) (word s)
/-- `r+`. -/
def plus (r : Re) : Re := .seq r (.star r)
/-- `r?`. -/
def opt (r : Re) : Re := .alt .eps r
/-- A sequence. -/
def seqs : List Re → Re
  | [] => .eps
  | [r] => r
  | r :: rs => .seq r (seqs rs)
/-- Alternatives. -/
def alts : List Re → Re
  | [] => .none
  | [r] => r
  | r :: rs => .alt r (alts rs)

/-- `[[:digit:]]`, and the definitions of `osc_scanner.l` lines 39-53. -/
def digit : Re := range 48 57
def dseq : Re := plus digit
def dseqOpt : Re := .star digit
def frac : Re := .alt (seqs [dseqOpt, ch 46, dseq]) (seqs [dseq, ch 46])
def exp : Re := seqs [oneOf [101, 69], opt (oneOf [43, 45]), dseq]
def expOpt : Re := opt exp
def fsuffOpt : Re := opt (oneOf [102, 108, 70, 76])
def hpref : Re := .seq (ch 48) (oneOf [120, 88])
def xdigit : Re := alts [digit, range 97 102, range 65 70]
def hdseq : Re := plus xdigit
def hdseqOpt : Re := .star xdigit
def hfrac : Re := .alt (seqs [hdseqOpt, ch 46, hdseq]) (seqs [hdseq, ch 46])
def bexp : Re := seqs [oneOf [112, 80], opt (oneOf [43, 45]), dseq]
def dfc : Re := .alt (seqs [frac, expOpt, fsuffOpt]) (seqs [dseq, exp, fsuffOpt])
def hfc : Re := .alt (seqs [hpref, hfrac, bexp, fsuffOpt]) (seqs [hpref, hdseq, bexp, fsuffOpt])
def floatConst : Re := .alt dfc hfc

/-- `.`: everything but a newline. -/
def dot : Re := noneOf [10]
/-- `-?{c99_floating_point_constant}` (line 115). -/
def floatRe : Re := .seq (opt (ch 45)) floatConst
/-- Line 153. -/
def intRe : Re := .alt (seqs [opt (ch 45), range 49 57, .star digit]) (ch 48)
/-- Line 159. -/
def hexRe : Re := seqs [ch 48, oneOf [120, 88], plus (alts [digit, range 97 102, range 65 70])]
/-- Line 173. -/
def addrRe : Re := .seq (ch 47) (plus (noneOf [32, 9, 10, 35]))
/-- Line 181: a date and time. -/
def isoRe : Re := seqs [opt (ch 45), opt (.seq (range 49 57) (.star digit)), digit, digit, digit, digit, ch 45,
  .alt (.seq (ch 49) (range 48 50)) (.seq (ch 48) (range 49 57)), ch 45,
  opt (alts [.seq (ch 51) (range 48 49), .seq (ch 48) (range 49 57), .seq (range 49 50) digit]), ch 84,
  .alt (.seq (ch 50) (range 48 51)) (.seq (range 48 49) digit), ch 58, range 48 53, digit, ch 58, range 48 53, digit,
  opt (opt (.seq (ch 46) (plus digit))),
  opt (.alt (ch 90) (seqs [oneOf [43, 45], .alt (.seq (ch 50) (range 48 51)) (.seq (range 48 49) digit), ch 58, range 48 53, digit]))]
/-- Line 188. -/
def spaceRe : Re := plus (oneOf [32, 9, 10])

/-- The actions of the rules. -/
inductive Act where
  | quote | empty | float | tru | fls | nil | char | char8 | int | hex | addr | iso | space | run | unquote | esc

/-- The rules outside of strings (lines 68-190). -/
def rules : List (Re × Act) :=
  [(ch 34, .quote), (word [34, 34], .empty), (floatRe, .float), (word [116, 114, 117, 101], .tru), (word [102, 97, 108, 115, 101], .fls),
   (word [110, 105, 108], .nil), (oneOf [58, 123, 125, 44], .char), (oneOf [91, 93], .char), (seqs [ch 39, dot, ch 39], .char8),
   (intRe, .int), (hexRe, .hex), (addrRe, .addr), (isoRe, .iso), (spaceRe, .space), (dot, .char)]

/-- The rules inside of strings (start condition `quote`, lines 72-107). -/
def quoteRules : List (Re × Act) :=
  [(plus (noneOf [34, 92]), .run), (ch 34, .unquote), (.seq (.star (noneOf [34, 92])) (.seq (ch 92) dot), .esc)]

/-! ### Conversions -/

/-- The value of decimal digits, most significant first. -/
def digitsVal (s : Bytes) : Nat := s.foldl (fun n c => n * 10 + (c.toNat - 48)) 0

/-- `strtol(s, NULL, 10)` for an optional sign and digits: values outside the range of `long` give the nearest one. -/
def strtol (s : Bytes) : Int :=
  match s with
  | 45 :: t => max (-(digitsVal t : Int)) (-9223372036854775808)
  | s => min (digitsVal s : Int) 9223372036854775807

/-- The value of a hexadecimal digit. -/
def hexVal (c : UInt8) : Nat := if c ≤ 57 then c.toNat - 48 else if c ≤ 70 then c.toNat - 55 else c.toNat - 87

/-- `strtoul(s, NULL, 16)` for `0x` and digits: values that are too big give the biggest one. -/
def strtoul16 (s : Bytes) : Nat := min ((s.drop 2).foldl (fun n c => n * 16 + hexVal c) 0) 18446744073709551615

/-- `osc_atom_u_allocWithString` (`osc_atom_u.c` lines 1493-1500): a copy of the string that the atom owns. -/
def strAtom (E : Env) (s : Bytes) : UAtom := .mk 115 true (.str E.ptr s)

/-- The atom of an `OSCVALUE` made from `y` by the action (lines 109-186). -/
def valueOf (E : Env) (a : Act) (y : Bytes) : Option UAtom :=
  match a with
  | .empty => some (strAtom E [])
  | .float => UAtom.fresh.setDouble (E.strtod y)
  | .tru => UAtom.fresh.setTrue
  | .fls => UAtom.fresh.setFalse
  | .nil => UAtom.fresh.setNil
  | .char8 => UAtom.fresh.setInt8 (castS M8 (y[1]?.getD 0).toNat)
  | .int => UAtom.fresh.setInt32 (castS M32 (strtol y))
  | .hex =>
    if y.length > 10 then UAtom.fresh.setUInt64 (castU M64 (castS M64 (strtoul16 y)))
    else UAtom.fresh.setUInt32 (castU M32 (castS M32 (strtoul16 y)))
  | .iso => UAtom.fresh.setTimetag (E.iso y)
  | _ => none

/-- The string being read inside of quotes: its C string and by how much `*buflen` exceeds the length of that. -/
abbrev Buf := Option (Bytes × Nat)

/-- `<quote>{quoted_string}*\\.` (lines 93-107): the text without the backslash is put behind the first `*buflen` bytes, hence behind
the NUL if `*buflen` exceeds the length of the string. -/
def addEsc (b : Buf) (y : Bytes) : Buf :=
  let t := y.take (y.length - 2) ++ y.drop (y.length - 1)
  match b with
  | some (s, 0) => some (s ++ t, 0)
  | some (s, k + 1) => some (s, k + 1 + t.length)
  | none => some (t, 0)

/-- The scanner (`osc_scanner.l` lines 66-190).  `k` more bytes belong to the last match; `q` is the start condition `quote`.  A byte
from 128 on that is returned as a token is a negative number, which bison takes for the end of the input. -/
def scan (E : Env) : Nat → Bool → Buf → Bytes → Option (List Tok)
  | _, _, _, [] => some []
  | k + 1, q, b, _ :: s => scan E k q b s
  | 0, q, b, c :: s =>
    match Re.pick (if q then quoteRules else rules) (c :: s) with
    | none => scan E 0 q b s
    | some (n, a) =>
      match a with
      | .quote => scan E (n - 1) true b s
      | .unquote =>
        match b with
        | some (t, _) => (scan E (n - 1) false none s).map (.val (strAtom E t) :: ·)
        | none => scan E (n - 1) false b s
      | .run =>
        match b with
        | some (t, e) => scan E (n - 1) q (some (t ++ (c :: s).take n, e + 1)) s
        | none => (scan E (n - 1) q none s).map (.val (strAtom E ((c :: s).take n)) :: ·)
      | .esc => scan E (n - 1) q (addEsc b ((c :: s).take n)) s
      | .space => scan E (n - 1) q b s
      | .char => if c ≥ 128 then some [] else (scan E (n - 1) q b s).map (.chr c :: ·)
      | .addr =>
        let m := if (c :: s)[n - 1]? = some 44 then n - 1 else n
        (scan E (m - 1) q b s).map (.addr ((c :: s).take m) :: ·)
      | a => (valueOf E a ((c :: s).take n)).bind fun x => (scan E (n - 1) q b s).map (.val x :: ·)

end Libo.Text
