import Verif.AtomU
/-!
# Syntax of the expression language

The tokens of `osc_expr_scanner.l`, the syntax trees that follow the productions of `osc_expr_parser.y`, the tokens of a tree, and
which trees respect the precedence declarations.  This is the specification the parser is compared with (`ExprParse.lean`); it says
nothing about how to parse.
-/

namespace Libo.Syn
open Libo

/-- The infix operators, among them the assigning ones (`osc_expr_parser.y` lines 1248-1313). -/
inductive Op where
  | add | sub | mul | div | mod | pow | eq | neq | lt | lte | gt | gte | and | andand | or | oror
  | addEq | subEq | mulEq | divEq | modEq | powEq
deriving DecidableEq

/-- The precedence declarations (`osc_expr_parser.y` lines 634-663), numbered from 1 (`=`) to 11 (`[[`). -/
def Op.level : Op → Nat
  | .addEq | .subEq | .mulEq | .divEq | .modEq | .powEq => 1
  | .or | .oror => 3
  | .and | .andand => 4
  | .eq | .neq => 5
  | .lt | .lte | .gt | .gte => 6
  | .add | .sub => 7
  | .mul | .div | .mod => 8
  | .pow => 9

/-- The tokens.  The character `-` is `op .sub`, also as a prefix. -/
inductive Tok where
  | num (a : UAtom)
  | str (s : Bytes)
  | addr (s : Bytes)
  | quoted (s : Bytes)
  | lambda
  | op (o : Op)
  | lpar | rpar | lbrk | rbrk | ldbl | rdbl | lbrace | rbrace
  | comma | semi | colon | quest | assign | dot | bang | dblq | dblqeq | inc | dec | bquote

/-- The parameters of a function: a single one, or a list in brackets (`osc_expr_parser.y` lines 786, 905, 1028). -/
inductive Params where
  | one (p : Bytes)
  | many (ps : List Bytes)

/-- Syntax trees of `arg`: one constructor for each production of `arg`, `function`, `bundle` and `expr` (`osc_expr_parser.y` lines
730-782, 784-1130, 1158-1181, 1183-1622).  The productions that only report an error (lines 1201, 1623-1647) are left out.
`nth` is both line 1592 and line 1596; the messages of a bundle are given by their addresses and their arguments; `step` is `++` or
`--` (`up`) in front of an address (`pre`) or behind. -/
inductive Cst where
  | num (a : UAtom)
  | str (s : Bytes)
  | addr (s : Bytes)
  | lam (p : Params) (body : List Cst)
  | paren (e : Cst)
  | bundle (as : List Bytes) (cs : List Cst)
  | call (f : Bytes) (as : List Cst)
  | addrCall (f : Bytes) (as : List Cst)
  | quoted (s : Bytes)
  | infix (o : Op) (l r : Cst)
  | cond (c t f : Cst)
  | nth (l : Cst) (is : List Cst)
  | dot (a b : Bytes)
  | strDot (s b : Bytes)
  | not (e : Cst)
  | neg (e : Cst)
  | step (pre up : Bool) (a : Bytes)
  | assign (a : Bytes) (e : Cst)
  | assignDot (a b : Bytes) (e : Cst)
  | assignIdx (a : Bytes) (is : List Cst) (e : Cst)
  | assignRange (a : Bytes) (x y e : Cst)
  | assignRange3 (a : Bytes) (x y z e : Cst)
  | coalesce (a : Bytes) (e : Cst)
  | coalesceEq (a : Bytes) (e : Cst)
  | list (as : List Cst)
  | applyFn (p : Params) (body as : List Cst)
  | value (s : Bytes)
  | valueAddr (s : Bytes)

/-- Parameters separated by commas. -/
def paramToks : List Bytes → List Tok
  | [] => []
  | [p] => [.str p]
  | p :: ps => .str p :: .comma :: paramToks ps

def Params.toks : Params → List Tok
  | .one p => [.str p]
  | .many ps => .lbrk :: (paramToks ps ++ [.rbrk])

/-- `++` or `--`. -/
def stepTok (up : Bool) : Tok := if up then .inc else .dec

mutual
/-- The tokens of a tree, in order. -/
def Cst.toks : Cst → List Tok
  | .num a => [.num a]
  | .str s => [.str s]
  | .addr s => [.addr s]
  | .lam p b => .lambda :: .lpar :: (p.toks ++ .comma :: (argToks b ++ [.rpar]))
  | .paren e => .lpar :: (e.toks ++ [.rpar])
  | .bundle as cs => .lbrace :: (msgToks as cs ++ [.rbrace])
  | .call f as => .str f :: .lpar :: (argToks as ++ [.rpar])
  | .addrCall f as => .addr f :: .lpar :: (argToks as ++ [.rpar])
  | .quoted s => [.quoted s]
  | .infix o l r => l.toks ++ .op o :: r.toks
  | .cond c t f => c.toks ++ .quest :: (t.toks ++ .colon :: f.toks)
  | .nth l is => l.toks ++ .ldbl :: (argToks is ++ [.rdbl])
  | .dot a b => [.addr a, .dot, .addr b]
  | .strDot s b => [.str s, .dot, .addr b]
  | .not e => .bang :: e.toks
  | .neg e => .op .sub :: e.toks
  | .step pre up a => if pre then [stepTok up, .addr a] else [.addr a, stepTok up]
  | .assign a e => .addr a :: .assign :: e.toks
  | .assignDot a b e => .addr a :: .dot :: .addr b :: .assign :: e.toks
  | .assignIdx a is e => .addr a :: .ldbl :: (argToks is ++ .rdbl :: .assign :: e.toks)
  | .assignRange a x y e => .addr a :: .ldbl :: (x.toks ++ .colon :: (y.toks ++ .rdbl :: .assign :: e.toks))
  | .assignRange3 a x y z e =>
    .addr a :: .ldbl :: (x.toks ++ .colon :: (y.toks ++ .colon :: (z.toks ++ .rdbl :: .assign :: e.toks)))
  | .coalesce a e => .addr a :: .dblq :: e.toks
  | .coalesceEq a e => .addr a :: .dblqeq :: e.toks
  | .list as => .lbrk :: (argToks as ++ [.rbrk])
  | .applyFn p b as => .lpar :: .lambda :: .lpar :: (p.toks ++ .comma :: (argToks b ++ .rpar :: .comma :: (argToks as ++ [.rpar])))
  | .value s => [.bquote, .str s, .bquote]
  | .valueAddr s => [.bquote, .addr s, .bquote]
/-- Arguments separated by commas. -/
def argToks : List Cst → List Tok
  | [] => []
  | c :: cs => match cs with
    | [] => c.toks
    | _ :: _ => c.toks ++ .comma :: argToks cs
/-- The messages of a bundle. -/
def msgToks : List Bytes → List Cst → List Tok
  | a :: as, c :: cs => match cs with
    | [] => .addr a :: .colon :: c.toks
    | _ :: _ => .addr a :: .colon :: (c.toks ++ .comma :: msgToks as cs)
  | _, _ => []
end

/-- The level of a construct that begins with an operand. -/
def Cst.opens : Cst → Option Nat
  | .infix o _ _ => some o.level
  | .cond .. => some 2
  | .nth .. => some 11
  | _ => none

/-- The levels of the constructs that end where the tree ends, with an operand. -/
def Cst.ends : Cst → List Nat
  | .infix o _ r => o.level :: r.ends
  | .cond _ _ f => 2 :: f.ends
  | .not e => 10 :: e.ends
  | .neg e => 10 :: e.ends
  | .coalesce _ e => 10 :: e.ends
  | .coalesceEq _ e => 10 :: e.ends
  | .assign _ e => 1 :: e.ends
  | .assignDot _ _ e => 1 :: e.ends
  | .assignIdx _ _ e => 1 :: e.ends
  | .assignRange _ _ _ e => 1 :: e.ends
  | .assignRange3 _ _ _ _ e => 1 :: e.ends
  | _ => []

/-- Of a construct of level `q` and an operator of level `p` behind it the operator gets the operand between them: if its level is
higher, or the same and declared `%right`. -/
def takes (q p : Nat) : Prop := q < p ∨ (p = q ∧ (q = 1 ∨ q = 2 ∨ q = 10))

/-- A construct of level `p` behind the tree does not take an operand from it. -/
def leaves (c : Cst) (p : Nat) : Prop := ∀ q ∈ c.ends, ¬ takes q p

/-- A construct of level `q` in front of the tree does not take an operand from it. -/
def holds (q : Nat) (c : Cst) : Prop := ∀ p ∈ c.opens, takes q p

/-- Trees of `expr`. -/
def Cst.isExpr : Cst → Bool
  | .num _ | .str _ | .addr _ | .lam .. => false
  | _ => true

/-- Trees that may stand alone. -/
def Cst.isItem : Cst → Bool
  | .str _ | .lam .. => false
  | _ => true

mutual
/-- Every operand belongs to the operator with the higher precedence, and lists that must not be empty are not. -/
def Cst.ok : Cst → Prop
  | .lam _ b => b ≠ [] ∧ oks b
  | .paren e => e.isExpr = true ∧ e.ok
  | .bundle as cs => as.length = cs.length ∧ oks cs
  | .call _ as => oks as
  | .addrCall _ as => oks as
  | .infix o l r => l.ok ∧ r.ok ∧ leaves l o.level ∧ holds o.level r
  | .cond c t f => c.ok ∧ t.ok ∧ f.ok ∧ leaves c 2 ∧ holds 2 f
  | .nth l is => l.ok ∧ is ≠ [] ∧ oks is ∧ leaves l 11
  | .not e => e.ok ∧ holds 10 e
  | .neg e => e.ok ∧ holds 10 e
  | .assign _ e => e.ok
  | .assignDot _ _ e => e.ok
  | .assignIdx _ is e => is ≠ [] ∧ oks is ∧ e.ok
  | .assignRange _ x y e => x.ok ∧ y.ok ∧ e.ok
  | .assignRange3 _ x y z e => x.ok ∧ y.ok ∧ z.ok ∧ e.ok
  | .coalesce _ e => e.ok ∧ holds 10 e
  | .coalesceEq _ e => e.ok ∧ holds 10 e
  | .list as => oks as
  | .applyFn _ b as => b ≠ [] ∧ oks b ∧ as ≠ [] ∧ oks as
  | _ => True
def oks : List Cst → Prop
  | [] => True
  | c :: cs => c.ok ∧ oks cs
end

/-- A text: expressions separated by commas; a comma may come before the first one (`osc_expr_parser.y` lines 673-715). -/
structure Prog where
  lead : Bool
  items : List Cst

def Prog.toks (p : Prog) : List Tok := (if p.lead then [.comma] else []) ++ argToks p.items

def Prog.ok (p : Prog) : Prop := (p.lead = true → p.items ≠ []) ∧ oks p.items ∧ ∀ c ∈ p.items, c.isItem = true

end Libo.Syn
