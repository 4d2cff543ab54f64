import Verif.TextScan
import Verif.ExprSyntax
/-!
# Model of the scanner of the expression language (`osc_expr_scanner.l`)

The rules are those of the file, in the same order, as regular expressions; flex takes the longest match and of those the first rule.
The scanner is a function from the text (a C string, so without NUL) to the tokens before the end of the text.

Not modelled: the conversion of text to floating point numbers (`strtod`), which is a parameter (`Text.Env`); positions; that characters
no rule matches are printed.
-/

namespace Libo.Syn
open Libo
open Libo.Text (ch oneOf noneOf range word plus seqs alts digit dot floatConst hexRe Env Buf addEsc strtol strtoul16)

/-- The actions of the rules. -/
inductive Act where
  | skip | single | tok (t : Tok) | quoteFn | quote | empty | int | hex | float | char8 | tru | fls | nil | addr | word | semis
  | run | unquote | esc

/-- Line 81: `+ - * / % ^ ! = [ ] : ? < > `` ` `` . & |`.  (`^` in the middle of a pattern is a character.) -/
def singles : Bytes := [43, 45, 42, 47, 37, 94, 33, 61, 91, 93, 58, 63, 60, 62, 96, 46, 38, 124]

/-- Line 133: `, ; ( ) { }`. -/
def seps : Bytes := [44, 59, 40, 41, 123, 125]

/-- `[[:space:]]`. -/
def spaces : Re := oneOf [32, 9, 10, 11, 12, 13]

/-- Line 145: `quote`, space, and an opening parenthesis. -/
def quoteRe : Re := seqs [word [113, 117, 111, 116, 101], .star spaces, ch 40]
/-- Line 238. -/
def intRe : Re := .alt (seqs [range 49 57, .star digit]) (ch 48)
/-- Line 306: the characters that end an address. -/
def addrStop : Bytes := [46, 43, 45, 42, 37, 94, 33, 61, 91, 93, 58, 59, 44, 63, 60, 62, 38, 124, 92, 123, 125, 40, 41, 32, 10, 9, 96]
def addrRe : Re := .seq (ch 47) (plus (noneOf addrStop))
/-- Line 314: the characters that end a word. -/
def wordStop : Bytes := [39, 34, 43, 45, 42, 47, 37, 94, 33, 61, 91, 93, 58, 59, 44, 63, 60, 62, 38, 124, 92, 123, 125, 40, 41, 32, 10, 9, 96, 46]
def wordRe : Re := .seq (noneOf ([48, 49, 50, 51, 52, 53, 54, 55, 56, 57] ++ wordStop)) (.star (noneOf wordStop))
/-- Line 323. -/
def semiRe : Re := .alt (plus (ch 59)) (plus (.seq (ch 59) (.star spaces)))
/-- Line 341. -/
def spaceRe : Re := plus (oneOf [32, 9, 10])
/-- Three spellings of a word. -/
def three (a b c : Bytes) : Re := alts [word a, word b, word c]

/-- The operators of two and three characters (lines 84-131). -/
def longOps : List (Bytes × Tok) :=
  [([60, 61], .op .lte), ([62, 61], .op .gte), ([33, 61], .op .neq), ([61, 61], .op .eq), ([38, 38], .op .andand), ([124, 124], .op .oror),
   ([43, 43], .inc), ([45, 45], .dec), ([43, 61], .op .addEq), ([45, 61], .op .subEq), ([42, 61], .op .mulEq), ([47, 61], .op .divEq),
   ([37, 61], .op .modEq), ([94, 61], .op .powEq), ([63, 63], .dblq), ([63, 63, 61], .dblqeq)]

/-- The rules outside of strings (lines 79-341). -/
def rules : List (Re × Act) :=
  [(.seq (ch 35) (.star dot), .skip), (oneOf singles, .single)] ++ longOps.map (fun x => (word x.1, .tok x.2)) ++
  [(oneOf seps, .single), (word [91, 91], .tok .ldbl), (word [93, 93], .tok .rdbl), (quoteRe, .quoteFn), (ch 34, .quote), (word [34, 34], .empty),
   (intRe, .int), (hexRe, .hex), (floatConst, .float), (seqs [ch 39, dot, ch 39], .char8),
   (three [116, 114, 117, 101] [84, 114, 117, 101] [84, 82, 85, 69], .tru),
   (three [102, 97, 108, 115, 101] [70, 97, 108, 115, 101] [70, 65, 76, 83, 69], .fls),
   (three [110, 105, 108] [78, 105, 108] [78, 73, 76], .nil), (word [108, 97, 109, 98, 100, 97], .tok .lambda),
   (addrRe, .addr), (wordRe, .word), (semiRe, .semis), (spaceRe, .skip)]

/-- The rules inside of strings (start condition `quote`, lines 182-228). -/
def quoteRules : List (Re × Act) :=
  [(plus (noneOf [34]), .run), (ch 34, .unquote), (.seq (.star (noneOf [34, 92])) (.seq (ch 92) dot), .esc)]

/-- The tokens that are characters. -/
def singleTok (c : UInt8) : Option Tok :=
  match c.toNat with
  | 43 => some (.op .add) | 45 => some (.op .sub) | 42 => some (.op .mul) | 47 => some (.op .div) | 37 => some (.op .mod)
  | 94 => some (.op .pow) | 33 => some .bang | 61 => some .assign | 91 => some .lbrk | 93 => some .rbrk | 58 => some .colon
  | 63 => some .quest | 60 => some (.op .lt) | 62 => some (.op .gt) | 96 => some .bquote | 46 => some .dot | 38 => some (.op .and)
  | 124 => some (.op .or) | 44 => some .comma | 59 => some .semi | 40 => some .lpar | 41 => some .rpar | 123 => some .lbrace
  | 125 => some .rbrace
  | _ => none

/-- The loop over the text behind `quote(` (lines 149-165): the number of bytes up to and with the parenthesis that closes the first one;
parentheses behind a backslash do not count. -/
def closing (np : Nat) (prev : UInt8) : Bytes → Option Nat
  | [] => none
  | c :: s =>
    let np' := if c = 41 ∧ prev ≠ 92 then np - 1 else if c = 40 ∧ prev ≠ 92 then np + 1 else np
    if np' = 0 then some 1 else (closing np' c s).map (· + 1)

/-- The atom of an `OSC_EXPR_NUM` made from `y` (lines 238-301). -/
def numOf (E : Env) (a : Act) (y : Bytes) : Option UAtom :=
  match a with
  | .int => UAtom.fresh.setInt32 (castS M32 (strtol y))
  | .hex =>
    if y.length > 10 then UAtom.fresh.setUInt64 (castU M64 (castS M64 (strtoul16 y)))
    else UAtom.fresh.setUInt32 (castU M32 (castS M32 (strtoul16 y)))
  | .float => UAtom.fresh.setDouble (E.strtod y)
  | .char8 => UAtom.fresh.setInt8 (castS M8 (y[1]?.getD 0).toNat)
  | .tru => UAtom.fresh.setTrue
  | .fls => UAtom.fresh.setFalse
  | .nil => UAtom.fresh.setNil
  | _ => none

/-- The scanner (`osc_expr_scanner.l` lines 73-341), called with `alloc_atom` = 1 (`osc_expr_parser.y` line 99).  `k` more bytes belong
to the last match; `q` is the start condition `quote`; `b` is the string being read (`TextScan.lean`). -/
def scan (E : Env) : Nat → Bool → Buf → Bytes → Option (List Tok)
  | _, _, _, [] => some []
  | k + 1, q, b, _ :: s => scan E k q b s
  | 0, q, b, c :: s =>
    match Re.pick (if q then quoteRules else rules) (c :: s) with
    | none => scan E 0 q b s
    | some (n, a) =>
      match a with
      | .skip => scan E (n - 1) q b s
      | .single => (singleTok c).bind fun t => (scan E (n - 1) q b s).map (t :: ·)
      | .tok t => (scan E (n - 1) q b s).map (t :: ·)
      | .semis => (scan E (n - 1) q b s).map (.semi :: ·)
      | .quoteFn =>
        match closing 1 40 ((c :: s).drop n) with
        | none => some []
        | some m => (scan E (n - 1 + m) q b s).map (.quoted (((c :: s).drop n).take (m - 1)) :: ·)
      | .quote => scan E (n - 1) true b s
      | .empty => (scan E (n - 1) q b s).map (.str [] :: ·)
      | .unquote =>
        match b with
        | some (t, _) => (scan E (n - 1) false none s).map (.str t :: ·)
        | none => scan E (n - 1) false b s
      | .run =>
        match b with
        | some (t, e) => scan E (n - 1) q (some (t ++ (c :: s).take n, e + 1)) s
        | none => (scan E (n - 1) q none s).map (.str ((c :: s).take n) :: ·)
      | .esc => scan E (n - 1) q (addEsc b ((c :: s).take n)) s
      | .addr => (scan E (n - 1) q b s).map (.addr ((c :: s).take n) :: ·)
      | .word => (scan E (n - 1) q b s).map (.str ((c :: s).take n) :: ·)
      | a => (numOf E a ((c :: s).take n)).bind fun x => (scan E (n - 1) q b s).map (.num x :: ·)

/-- All tokens of a text. -/
def tokens (E : Env) (s : Bytes) : Option (List Tok) := scan E 0 false none s

end Libo.Syn
