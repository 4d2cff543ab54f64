import Verif.Basic
/-!
# Specification of OSC address patterns

A reader's definition of the pattern language, independent of the matcher.  A pattern is a list of components, each
a list of tokens; an address is a list of components, each a byte string.  The text of a pattern or of an address is
obtained by putting a slash before every component.
-/

namespace Libo.PatSpec

/-- Member of a bracket set: one character or a range. -/
inductive Item where
  | one (c : UInt8)
  | range (c d : UInt8)
deriving DecidableEq, Repr

/-- Does the item contain `x`?  Ranges may be written in either direction; characters are ordered as C `char`
(signed), which is the ASCII order on ASCII text. -/
def Item.Has (x : UInt8) : Item → Prop
  | .one c => x = c
  | .range c d => (c.toInt8 ≤ x.toInt8 ∧ x.toInt8 ≤ d.toInt8) ∨ (d.toInt8 ≤ x.toInt8 ∧ x.toInt8 ≤ c.toInt8)

/-- Pattern tokens: a literal character, `?`, `*`, `[...]` / `[!...]`, `{...,...}`. -/
inductive Tok where
  | lit (c : UInt8)
  | any
  | star
  | set (neg : Bool) (items : List Item)
  | alts (as : List Bytes)
deriving DecidableEq, Repr

/-- A token list describes a set of strings. -/
inductive Matches : List Tok → Bytes → Prop where
  | nil : Matches [] []
  | lit {c ts s} : Matches ts s → Matches (.lit c :: ts) (c :: s)
  | any {x ts s} : Matches ts s → Matches (.any :: ts) (x :: s)
  | star {u ts s} : Matches ts s → Matches (.star :: ts) (u ++ s)
  | setPos {x items ts s} : (∃ i ∈ items, i.Has x) → Matches ts s → Matches (.set false items :: ts) (x :: s)
  | setNeg {x items ts s} : (¬ ∃ i ∈ items, i.Has x) → Matches ts s → Matches (.set true items :: ts) (x :: s)
  | alts {u as ts s} : u ∈ as → Matches ts s → Matches (.alts as :: ts) (u ++ s)

/-- A pattern component accepts an address component.  An address component consisting of a single star is accepted
by every pattern component (a documented extension of libo). -/
def CompMatches (ts : List Tok) (s : Bytes) : Prop := s = [42] ∨ Matches ts s

/-- Components correspond one to one. -/
inductive AllMatch : List (List Tok) → List Bytes → Prop where
  | nil : AllMatch [] []
  | cons {ts s ps as} : CompMatches ts s → AllMatch ps as → AllMatch (ts :: ps) (s :: as)

/-! ## Concrete syntax -/

def Item.text : Item → Bytes
  | .one c => [c]
  | .range c d => [c, 45, d]

/-- Alternatives separated by commas, closed by a brace. -/
def altsText : List Bytes → Bytes
  | [] => [125]
  | [u] => u ++ [125]
  | u :: v :: r => u ++ 44 :: altsText (v :: r)

def itemsText (items : List Item) : Bytes := items.flatMap Item.text

def Tok.text : Tok → Bytes
  | .lit c => [c]
  | .any => [63]
  | .star => [42]
  | .set neg items => 91 :: ((if neg then [33] else []) ++ itemsText items ++ [93])
  | .alts as => 123 :: altsText as

def compText (ts : List Tok) : Bytes := ts.flatMap Tok.text

/-- The text of a pattern: a slash before every component. -/
def patText (comps : List (List Tok)) : Bytes := comps.flatMap fun ts => 47 :: compText ts

/-- The text of an address. -/
def addrText (comps : List Bytes) : Bytes := comps.flatMap fun s => 47 :: s

/-! ## Well-formedness -/

/-- Characters inside brackets: anything but NUL, `/`, `]` and `-`. -/
def itemCharOk (c : UInt8) : Prop := c ≠ 0 ∧ c ≠ 47 ∧ c ≠ 93 ∧ c ≠ 45

def Item.WF : Item → Prop
  | .one c => itemCharOk c
  | .range c d => itemCharOk c ∧ itemCharOk d

def Tok.WF : Tok → Prop
  | .lit c => c ≠ 0 ∧ c ≠ 47 ∧ c ≠ 63 ∧ c ≠ 42 ∧ c ≠ 91 ∧ c ≠ 93 ∧ c ≠ 123 ∧ c ≠ 125
  | .any => True
  | .star => True
  | .set neg items => items ≠ [] ∧ (∀ i ∈ items, i.WF) ∧ (neg = false → (itemsText items).head? ≠ some 33)
  | .alts as => as ≠ [] ∧ ∀ u ∈ as, ∀ c ∈ u, c ≠ 0 ∧ c ≠ 47 ∧ c ≠ 44 ∧ c ≠ 125

/-- A well-formed pattern: at least one component, all tokens well-formed. -/
def WFPat (comps : List (List Tok)) : Prop := comps ≠ [] ∧ ∀ ts ∈ comps, ∀ t ∈ ts, t.WF

/-- A well-formed address: at least one component; components hold no slash and no NUL. -/
def WFAddr (comps : List Bytes) : Prop := comps ≠ [] ∧ ∀ s ∈ comps, ∀ c ∈ s, c ≠ 0 ∧ c ≠ 47

/-- No alternative of the token is the empty string. -/
def Tok.NonNull : Tok → Prop
  | .alts as => [] ∉ as
  | _ => True

/-- Number of branching tokens (`*` and `{}`) of a component. -/
def branching (ts : List Tok) : Nat :=
  (ts.filter fun t => match t with | .star => true | .alts _ => true | _ => false).length

/-- Number of alternatives of a token. -/
def Tok.width : Tok → Nat
  | .alts as => as.length
  | _ => 0

end Libo.PatSpec
