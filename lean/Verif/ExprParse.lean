import Verif.ExprSyntax
/-!
# Model of the parser of the expression language (`osc_expr_parser.y`)

bison makes an LALR(1) parser from the grammar and resolves its conflicts by the precedence declarations.  The model is a recursive
descent parser that takes the same decisions: it reads the beginning of an operand, and then operators as long as their level is at
least `m`.  The tables of bison are not modelled.  What the actions do with the tree is in `ExprBuild.lean`.  All functions have a bound on the number of nested
calls; `parse` gives one that is always enough.

The productions that only report an error are not there: without them the result is an error as well.
-/

namespace Libo.Syn
open Libo

/-- The least level of an operator in the right operand of an operator of level `q`: `%left` and `%right`
(`osc_expr_parser.y` lines 635-663). -/
def rightMin (q : Nat) : Nat := if q = 1 ∨ q = 2 ∨ q = 10 then q else q + 1

/-- `parameters` (`osc_expr_parser.y` lines 1132-1156) up to `]`. -/
def pParams : List Tok → Option (List Bytes × List Tok)
  | .str p :: .rbrk :: ts => some ([p], ts)
  | .str p :: .comma :: ts => (pParams ts).map fun r => (p :: r.1, r.2)
  | _ => none

/-- What comes after `lambda (` up to the comma (`osc_expr_parser.y` lines 786, 905, 1028). -/
def pLamParams : List Tok → Option (Params × List Tok)
  | .str p :: .comma :: ts => some (.one p, ts)
  | .lbrk :: .rbrk :: .comma :: ts => some (.many [], ts)
  | .lbrk :: ts =>
    match pParams ts with
    | some (ps, .comma :: ts) => some (.many ps, ts)
    | _ => none
  | _ => none

mutual
/-- An operand: `arg` with operators of level `m` and higher (`osc_expr_parser.y` lines 730-782, 1183-1622). -/
def pArg : Nat → Nat → List Tok → Option (Cst × List Tok)
  | 0, _, _ => none
  | n + 1, m, ts => (pPrim n ts).bind fun r => pLoop n m r.1 r.2
/-- What may follow an operand: infix operators (lines 1248-1313), the conditional (line 1557), `[[` (lines 1592-1604) and for
addresses assignments to elements (lines 1430, 1469, 1491). -/
def pLoop : Nat → Nat → Cst → List Tok → Option (Cst × List Tok)
  | 0, _, _, _ => none
  | n + 1, m, l, ts =>
    match ts with
    | .op o :: ts' =>
      if o.level < m then some (l, ts)
      else (pArg n (rightMin o.level) ts').bind fun r => pLoop n m (.infix o l r.1) r.2
    | .quest :: ts' =>
      if 2 < m then some (l, ts)
      else (pArg n 1 ts').bind fun t =>
        match t.2 with
        | .colon :: ts' => (pArg n (rightMin 2) ts').bind fun f => pLoop n m (.cond l t.1 f.1) f.2
        | _ => none
    | .ldbl :: ts' =>
      (pArgs n ts').bind fun is =>
        match is.2 with
        | .rdbl :: ts' =>
          match l, ts' with
          | .addr a, .assign :: ts' => (pArg n (rightMin 1) ts').bind fun e => pLoop n m (.assignIdx a is.1 e.1) e.2
          | l, ts' => pLoop n m (.nth l is.1) ts'
        | .colon :: ts' =>
          match l, is.1 with
          | .addr a, [x] =>
            (pArg n 1 ts').bind fun y =>
              match y.2 with
              | .rdbl :: .assign :: ts' =>
                (pArg n (rightMin 1) ts').bind fun e => pLoop n m (.assignRange a x y.1 e.1) e.2
              | .colon :: ts' =>
                (pArg n 1 ts').bind fun z =>
                  match z.2 with
                  | .rdbl :: .assign :: ts' =>
                    (pArg n (rightMin 1) ts').bind fun e => pLoop n m (.assignRange3 a x y.1 z.1 e.1) e.2
                  | _ => none
              | _ => none
          | _, _ => none
        | _ => none
    | ts => some (l, ts)
/-- `args` (lines 724-728). -/
def pArgs : Nat → List Tok → Option (List Cst × List Tok)
  | 0, _ => none
  | n + 1, ts =>
    (pArg n 1 ts).bind fun c =>
      match c.2 with
      | .comma :: ts => (pArgs n ts).map fun r => (c.1 :: r.1, r.2)
      | ts => some ([c.1], ts)
/-- Arguments up to a closing parenthesis, or none at all (lines 1189, 1208, 1222, 1235). -/
def pCallArgs : Nat → List Tok → Option (List Cst × List Tok)
  | 0, _ => none
  | n + 1, ts =>
    match ts with
    | .rpar :: ts => some ([], ts)
    | ts =>
      match pArgs n ts with
      | some (as, .rpar :: ts) => some (as, ts)
      | _ => none
/-- The messages of a bundle up to the closing brace (lines 1158-1174). -/
def pMsgs : Nat → List Tok → Option ((List Bytes × List Cst) × List Tok)
  | 0, _ => none
  | n + 1, ts =>
    match ts with
    | .addr a :: .colon :: ts =>
      (pArg n 1 ts).bind fun c =>
        match c.2 with
        | .comma :: ts => (pMsgs n ts).map fun r => ((a :: r.1.1, c.1 :: r.1.2), r.2)
        | .rbrace :: ts => some (([a], [c.1]), ts)
        | _ => none
    | _ => none
/-- The beginning of an operand. -/
def pPrim : Nat → List Tok → Option (Cst × List Tok)
  | 0, _ => none
  | n + 1, ts =>
    match ts with
    | .num a :: ts => some (.num a, ts)
    | .str s :: .lpar :: ts => (pCallArgs n ts).map fun r => (.call s r.1, r.2)
    | .str s :: .dot :: .addr b :: ts => some (.strDot s b, ts)
    | .str _ :: .dot :: _ => none
    | .str s :: ts => some (.str s, ts)
    | .addr a :: .lpar :: ts => (pCallArgs n ts).map fun r => (.addrCall a r.1, r.2)
    | .addr a :: .dot :: .addr b :: .assign :: ts => (pArg n (rightMin 1) ts).map fun r => (.assignDot a b r.1, r.2)
    | .addr a :: .dot :: .addr b :: ts => some (.dot a b, ts)
    | .addr _ :: .dot :: _ => none
    | .addr a :: .inc :: ts => some (.step false true a, ts)
    | .addr a :: .dec :: ts => some (.step false false a, ts)
    | .addr a :: .assign :: ts => (pArg n (rightMin 1) ts).map fun r => (.assign a r.1, r.2)
    | .addr a :: .dblq :: ts => (pArg n (rightMin 10) ts).map fun r => (.coalesce a r.1, r.2)
    | .addr a :: .dblqeq :: ts => (pArg n (rightMin 10) ts).map fun r => (.coalesceEq a r.1, r.2)
    | .addr a :: ts => some (.addr a, ts)
    | .lambda :: .lpar :: ts =>
      (pLamParams ts).bind fun p =>
        match pArgs n p.2 with
        | some (b, .rpar :: ts) => some (.lam p.1 b, ts)
        | _ => none
    | .lpar :: ts =>
      (pArg n 1 ts).bind fun e =>
        match e with
        | (.lam p b, .comma :: ts) =>
          match pArgs n ts with
          | some (as, .rpar :: ts) => some (.applyFn p b as, ts)
          | _ => none
        | (e, .rpar :: ts) => if e.isExpr then some (.paren e, ts) else none
        | _ => none
    | .quoted s :: ts => some (.quoted s, ts)
    | .lbrace :: .rbrace :: ts => some (.bundle [] [], ts)
    | .lbrace :: ts => (pMsgs n ts).map fun r => (.bundle r.1.1 r.1.2, r.2)
    | .bang :: ts => (pArg n (rightMin 10) ts).map fun r => (.not r.1, r.2)
    | .op .sub :: ts => (pArg n (rightMin 10) ts).map fun r => (.neg r.1, r.2)
    | .inc :: .addr a :: ts => some (.step true true a, ts)
    | .dec :: .addr a :: ts => some (.step true false a, ts)
    | .lbrk :: .rbrk :: ts => some (.list [], ts)
    | .lbrk :: ts =>
      match pArgs n ts with
      | some (as, .rbrk :: ts) => some (.list as, ts)
      | _ => none
    | .bquote :: .str s :: .bquote :: ts => some (.value s, ts)
    | .bquote :: .addr s :: .bquote :: ts => some (.valueAddr s, ts)
    | _ => none
end

/-- Expressions up to the end of the text (`osc_expr_parser.y` lines 685-715). -/
def pItems : Nat → List Tok → Option (List Cst)
  | 0, _ => none
  | n + 1, ts =>
    (pArg n 1 ts).bind fun c =>
      if c.1.isItem then
        match c.2 with
        | [] => some [c.1]
        | .comma :: ts => (pItems n ts).map (c.1 :: ·)
        | _ => none
      else none

/-- The syntax of a text (`osc_expr_parser.y` lines 670-715); `none` is a syntax error. -/
def parse (ts : List Tok) : Option Prog :=
  match ts with
  | [] => some ⟨false, []⟩
  | .comma :: ts' => (pItems (3 * ts.length + 3) ts').map (⟨true, ·⟩)
  | ts => (pItems (3 * ts.length + 3) ts).map (⟨false, ·⟩)

/-- The syntax of the text of a function (`osc_expr_parser.y` lines 671, 784-1130). -/
def parseFn (ts : List Tok) : Option (Params × List Cst) :=
  match pPrim (3 * ts.length + 3) ts with
  | some (.lam p b, []) => some (p, b)
  | _ => none

end Libo.Syn
