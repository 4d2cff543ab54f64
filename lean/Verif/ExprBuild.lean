import Verif.ExprTable
import Verif.ExprParse
import Verif.ExprScan
/-!
# Model of the actions of the parser of the expression language

What `osc_expr_parser.y` makes of a syntax tree: expressions that point to functions of the table, with their arguments.  The result
is a tree here; `load` puts it into the memory of the evaluator (`ExprEval.lean`).

Where an action returns NULL instead of an expression and the parser goes on, the tree has `null`; evaluating it reads through a NULL
pointer.  Freeing, positions and the texts of error messages are not modelled.  When the text has a syntax error, the result is an
error, whatever the actions for its beginning did.
-/

namespace Libo.Expr
open Libo Libo.Text Libo.Syn

/-- Result of an action: undefined behaviour, the parser stops with an error, or a value. -/
inductive Out (α : Type) where
  | ub
  | err
  | ok (a : α)

def Out.bind {α β : Type} : Out α → (α → Out β) → Out β
  | .ub, _ => .ub
  | .err, _ => .err
  | .ok a, f => f a

/-- UB of a function of the model. -/
def Out.ofOption {α : Type} : Option α → Out α
  | none => .ub
  | some a => .ok a

mutual
/-- `osc_expr_arg_copy`, `osc_expr_copy` (`osc_expr.c` lines 6477-6503, 6797-6831); NULL is copied as NULL. -/
def Tm.copy : Tm → Option Tm
  | .atom a => (copyAtom a).map .atom
  | .addr s => some (.addr s)
  | .null => some .null
  | .broken => none
  | .app f args => (copies args).map (.app f)
  | .fn ps body => (copies body).map (.fn ps)
def copies : List Tm → Option (List Tm)
  | [] => some []
  | t :: ts => t.copy.bind fun t' => (copies ts).map (t' :: ·)
end

/-- An atom for a string token: `osc_atom_u_alloc`, `osc_atom_u_setString` (`osc_expr_scanner.l` lines 306-321). -/
def strAtom (s : Bytes) : UAtom := setString .fresh s

/-- The atom for 0 in `-x` (`osc_expr_parser.y` line 1355). -/
def zeroAtom : Option UAtom := UAtom.setInt32 .fresh 0

/-- The names of the operators (`osc_expr_parser.y` lines 1248-1313). -/
def opName : Syn.Op → Bytes
  | .add | .addEq => [43]
  | .sub | .subEq => [45]
  | .mul | .mulEq => [42]
  | .div | .divEq => [47]
  | .mod | .modEq => [37]
  | .pow | .powEq => [94]
  | .eq => [61, 61]
  | .neq => [33, 61]
  | .lt => [60]
  | .lte => [60, 61]
  | .gt => [62]
  | .gte => [62, 61]
  | .and => [38]
  | .andand => [38, 38]
  | .or => [124]
  | .oror => [124, 124]

/-- The operators of `osc_expr_parser_reduce_InfixAssignmentOperator` (`osc_expr_parser.y` lines 1296-1313). -/
def assigning : Syn.Op → Bool
  | .addEq | .subEq | .mulEq | .divEq | .modEq | .powEq => true
  | _ => false

/-- `osc_expr_parser_reduce_InfixOperator` (`osc_expr_parser.y` lines 424-441): the number of arguments is not checked. -/
def infixFn (P : Printf) (name : Bytes) (l r : Tm) : Tm :=
  match lookup name with
  | none => .null
  | some e => .app (e.fn P) [l, r]

/-- `osc_expr_parser_reduce_PrefixFunction` (`osc_expr_parser.y` lines 461-483). -/
def prefixFn (P : Printf) (name : Bytes) (args : List Tm) : Tm :=
  match lookup name with
  | none => .null
  | some e => if e.arityOk args.length then .app (e.fn P) args else .null

/-- `osc_expr_parser_reduce_InfixAssignmentOperator` (`osc_expr_parser.y` lines 443-459). -/
def infixAssign (P : Printf) (name : Bytes) (l r : Tm) : Out Tm :=
  (Out.ofOption l.copy).bind fun target => .ok (prefixFn P [97, 115, 115, 105, 103, 110] [target, infixFn P name l r])

/-- `*ptr != '/'`: an address must begin with a slash. -/
def isTarget (a : Bytes) : Bool := a.head? == some 47

/-- `osc_expr_parser_reduce_PrefixUnaryOperator` (`osc_expr_parser.y` lines 485-515), where the caller stops at NULL (lines 1364-1368, 1376-1380). -/
def prefixStep (P : Printf) (up : Bool) (a : Bytes) : Out Tm :=
  if isTarget a then
    .ok (prefixFn P [97, 115, 115, 105, 103, 110]
      [.addr a, prefixFn P (if up then [112, 108, 117, 115, 49] else [109, 105, 110, 117, 115, 49]) [.addr a]])
  else .err

/-- `osc_expr_parser_reduce_PostfixUnaryOperator` (`osc_expr_parser.y` lines 517-537), where the caller stops at NULL (lines 1389-1393, 1401-1405). -/
def postfixStep (P : Printf) (up : Bool) (a : Bytes) : Out Tm :=
  (prefixStep P up a).bind fun e => .ok (prefixFn P [112, 114, 111, 103, 49] [.addr a, e])

/-- `osc_expr_parser_reduce_NullCoalescingOperator` (`osc_expr_parser.y` lines 539-570). -/
def coalesceFn (P : Printf) (a : Bytes) (e : Tm) : Tm :=
  if isTarget a then
    prefixFn P [105, 102] [match lookup [98, 111, 117, 110, 100] with | some b => .app (b.fn P) [.addr a] | none => .broken, .addr a, e]
  else .null

/-- A node that holds an expression. -/
def Tm.isExpr : Tm → Bool
  | .atom _ | .addr _ | .fn .. => false
  | _ => true

/-- An argument that is not an expression as an expression of a function body: `prog1` of it. -/
def prog1Of (P : Printf) (t : Tm) : Tm :=
  match lookup [112, 114, 111, 103, 49] with
  | some b => .app (b.fn P) [t]
  | none => .broken

/-- An argument `t` of a lambda expression behind the first that is not an expression, in front of `ts`.  With parameters in
brackets (`brk`) it is not copied and keeps its link to the next one (`osc_expr_parser.y` line 859; copied in lines 978 and 1080). -/
def restExpr (P : Printf) (brk : Bool) (t : Tm) (ts : List Tm) : Out Tm :=
  if brk then .ok (match ts with | [] => prog1Of P t | _ :: _ => .broken)
  else (Out.ofOption t.copy).bind fun t' => .ok (prog1Of P t')

/-- The loop over the arguments of a lambda expression behind the first (`osc_expr_parser.y` lines 841-872, 959-995, 1061-1097), with
`osc_expr_appendExpr` (`osc_expr.c` lines 6523-6537): nothing is appended to NULL, and to append NULL is undefined. -/
def bodyRest (P : Printf) (brk : Bool) (acc : List Tm) : List Tm → Out (List Tm)
  | [] => .ok acc
  | t :: ts =>
    if t.isExpr then
      match acc, t with
      | [], _ => bodyRest P brk acc ts
      | _ :: _, .null => .ub
      | _ :: _, _ => bodyRest P brk (acc ++ [t]) ts
    else
      (restExpr P brk t ts).bind fun e =>
      match acc with
      | [] => bodyRest P brk acc ts
      | _ :: _ => bodyRest P brk (acc ++ [e]) ts

/-- The body of a lambda expression (`osc_expr_parser.y` lines 819-873, 938-996, 1040-1098). -/
def bodyOf (P : Printf) (brk : Bool) : List Tm → Out (List Tm)
  | [] => .ub
  | t :: ts =>
    if t.isExpr then
      match t with
      | .null => bodyRest P brk [] ts
      | t => bodyRest P brk [t] ts
    else (Out.ofOption t.copy).bind fun t' => bodyRest P brk [prog1Of P t'] ts

/-- `function` (`osc_expr_parser.y` lines 784-1130). -/
def lamFn (P : Printf) (p : Params) (args : List Tm) : Out Tm :=
  match p with
  | .one x => (bodyOf P false args).bind fun b => .ok (.fn [x] b)
  | .many [] => (bodyOf P false args).bind fun b => .ok (.fn [] b)
  | .many ps => (bodyOf P true args).bind fun b => .ok (.fn ps b)

/-- The arguments of `bundle`: addresses as strings, with one argument each (`osc_expr_parser.y` lines 1158-1174). -/
def msgArgs : List Bytes → List Tm → List Tm
  | a :: as, t :: ts => .atom (strAtom a) :: t :: msgArgs as ts
  | _, _ => []

/-- `if(!e){ return 1; }`. -/
def orStop : Tm → Out Tm
  | .null => .err
  | t => .ok t

/-- The action for an assignment to elements of an address (`osc_expr_parser.y` lines 1430-1454, 1469-1515); the target is checked first. -/
def toIndex (P : Printf) (a : Bytes) (idx e : Tm) : Out Tm :=
  if isTarget a then .ok (prefixFn P [97, 115, 115, 105, 103, 110, 95, 116, 111, 95, 105, 110, 100, 101, 120] [.addr a, idx, e]) else .err

mutual
/-- The actions of `arg`, `expr`, `bundle` and `function` (`osc_expr_parser.y` lines 730-782, 1158-1622).  Operands come before the action of their
construct, from left to right. -/
def build (P : Printf) : Cst → Out Tm
  | .num a => .ok (.atom a)
  | .str s => .ok (.atom (strAtom s))
  | .addr s => .ok (.addr s)
  | .lam p b => (builds P b).bind (lamFn P p)
  | .paren e => build P e
  | .bundle as cs => (builds P cs).bind fun ts => .ok (prefixFn P [98, 117, 110, 100, 108, 101] (msgArgs as ts))
  | .call f as => (builds P as).bind fun ts => orStop (prefixFn P f ts)
  | .addrCall f as => (builds P as).bind fun ts => .ok (.app .apply (.addr f :: ts))
  | .quoted s => .ok (prefixFn P [113, 117, 111, 116, 101] [.atom (strAtom s)])
  | .infix o l r => (build P l).bind fun l => (build P r).bind fun r =>
    if assigning o then infixAssign P (opName o) l r else .ok (infixFn P (opName o) l r)
  | .cond c t f => (build P c).bind fun c => (build P t).bind fun t => (build P f).bind fun f => .ok (prefixFn P [105, 102] [c, t, f])
  | .nth l is => (build P l).bind fun l => (builds P is).bind fun is => .ok (prefixFn P [110, 116, 104] (l :: is))
  | .dot a b => .ok (infixFn P [46] (.addr a) (.addr b))
  | .strDot s b => .ok (infixFn P [46] (.atom (strAtom s)) (.addr b))
  | .not e => (build P e).bind fun e => .ok (match lookup [33] with | some f => .app (f.fn P) [e] | none => .broken)
  | .neg e => (build P e).bind fun e => (Out.ofOption zeroAtom).bind fun z =>
    .ok (match lookup [45] with | some f => .app (f.fn P) [.atom z, e] | none => .broken)
  | .step pre up a => if pre then prefixStep P up a else postfixStep P up a
  | .assign a e => (build P e).bind fun e => if isTarget a then .ok (infixFn P [97, 115, 115, 105, 103, 110] (.addr a) e) else .err
  | .assignDot a b e => (build P e).bind fun e =>
    .ok (prefixFn P [97, 115, 115, 105, 103, 110, 116, 111, 98, 117, 110, 100, 108, 101, 109, 101, 109, 98, 101, 114] [.addr a, .addr b, e])
  | .assignIdx a is e => (builds P is).bind fun is => (build P e).bind fun e =>
    toIndex P a (match is with | [i] => i | is => prefixFn P [108, 105, 115, 116] is) e
  | .assignRange a x y e => (build P x).bind fun x => (build P y).bind fun y => (build P e).bind fun e =>
    toIndex P a (prefixFn P [97, 115, 101, 113] [x, y]) e
  | .assignRange3 a x y z e => (build P x).bind fun x => (build P y).bind fun y => (build P z).bind fun z => (build P e).bind fun e =>
    toIndex P a (prefixFn P [97, 115, 101, 113] [x, z, y]) e
  | .coalesce a e => (build P e).bind fun e => .ok (coalesceFn P a e)
  | .coalesceEq a e => (build P e).bind fun e => (orStop (coalesceFn P a e)).bind fun i => .ok (infixFn P [61] (.addr a) i)
  | .list as => (builds P as).bind fun ts => .ok (prefixFn P [108, 105, 115, 116] ts)
  | .applyFn p b as => (builds P b).bind fun b => (lamFn P p b).bind fun f => (builds P as).bind fun ts =>
    .ok (prefixFn P [97, 112, 112, 108, 121] (f :: ts))
  | .value s => .ok (prefixFn P [118, 97, 108, 117, 101] [.atom (strAtom s)])
  | .valueAddr s => .ok (prefixFn P [118, 97, 108, 117, 101] [.addr s])
def builds (P : Printf) : List Cst → Out (List Tm)
  | [] => .ok []
  | c :: cs => (build P c).bind fun t => (builds P cs).bind fun ts => .ok (t :: ts)
end

/-- One of the expressions of a text: `osc_expr_parser_reduce_Value` (`osc_expr_parser.y` lines 572-590) for numbers and addresses. -/
def buildItem (P : Printf) (c : Cst) : Out Tm :=
  match c with
  | .num _ | .addr _ => (build P c).bind fun t => .ok (prefixFn P [112, 114, 111, 103, 110] [t])
  | c => build P c

/-- The list `*tmp_exprstack` (`osc_expr_parser.y` lines 685-715): NULL at its beginning leaves it empty, and to append NULL is undefined. -/
def buildItems (P : Printf) (acc : List Tm) : List Cst → Out (List Tm)
  | [] => .ok acc
  | c :: cs => (buildItem P c).bind fun t =>
    match acc, t with
    | [], .null => buildItems P [] cs
    | _ :: _, .null => .ub
    | acc, t => buildItems P (acc ++ [t]) cs

/-- `osc_expr_parser_parseExpr` (`osc_expr_parser.y` lines 162-209) after the scanner: the list of the expressions. -/
def parseExpr (P : Printf) (ts : List Syn.Tok) : Out (List Tm) :=
  match parse ts with
  | none => .err
  | some p => buildItems P [] p.items

/-- Memory with nothing but a bundle. -/
def St.start (b : Option (Int × Option Bytes)) : St := ⟨[], [], [], b⟩

/-- Evaluate the expressions of a text one after the other, up to the first error, as the callers of `osc_expr_eval` do
(`osc_expr.c` lines 1549-1561); the result is the value of the last one. -/
def evalList (T : Tab) (n : Nat) : List Nat → St → EvRes
  | [], st => some (st, 0, none)
  | [e], st => evalTop T n st e
  | e :: es, st => (evalTop T n st e).bind fun r => if r.2.1 ≠ 0 then some (r.1, r.2.1, none) else evalList T n es r.1

/-- The functions and the parser: `osc_expr_lookupFunction` and `osc_expr_parser_parseExpr` (`osc_expr_parser.y` lines 162-209) for a C string.  The
parser asks the scanner for one token after the other, and the scanner does not depend on the parser. -/
def lookups (E : Text.Env) (P : Printf) : Tab where
  fn := funcOf P
  parse s := (Syn.tokens E s).bind fun ts =>
    match parseExpr P ts with
    | .ok es => some es
    | _ => none

/-- Parse a text and evaluate it with a bundle: `none` is UB, `some none` is an error of the parser. -/
def evalToks (E : Text.Env) (P : Printf) (n : Nat) (b : Option (Int × Option Bytes)) (ts : List Syn.Tok) : Option (Option (St × Int × Ar)) :=
  match parseExpr P ts with
  | .ub => none
  | .err => some none
  | .ok es => (evalList (lookups E P) n (loadAll es (St.start b)).2 (loadAll es (St.start b)).1).map some

end Libo.Expr
