import Verif.ExprArith
import Verif.MsgS
import Verif.Timetag
/-!
# Model of the evaluator of the expression language

`osc_expr.c`: `osc_expr_evalInLexEnv`, `osc_expr_evalArgInLexEnv`, the special functions `apply`, `map`, `lreduce`,
`rreduce`, `assign`, `assign_to_index`, `if`, `emptybundle`, `bound`, `exists`, `getaddresses`, `delete`, `getmsgcount`,
`value`, `quote`, `gettimetag`, `settimetag`, `andalso`, `orelse`, `eval`, `getbundlemember`, `assigntobundlemember`, the lexical environment and the copying of expressions.

An expression and a function record are objects in memory that other expressions point to, and evaluation writes to them
(line 429).  So the state has a list of expressions and a list of records, and pointers are positions in these lists.
Argument nodes belong to one expression; where the code shares their tail between two expressions (lines 428 and 504), each has
its own list, as no shared node is written to.  Freeing is not modelled (so neither is the use of a function after `map` or a reduction has freed its copy), nor are the texts of
error messages.

`tokenize` and `compile` are not modelled (`Fn.other`; the result is `none`).  The parser is a parameter here (`Tab.parse`).  A variable length array of length 0 is taken as an empty block, as in GNU C.

Evaluation need not end; `run n` is the evaluation with at most `n` nested calls, and `none` when that does not suffice.
`*out` is NULL when an evaluation starts: so it is in the callers of `osc_expr_eval` and in the recursive calls.
-/

namespace Libo.Expr
open Libo

/-- What `rec->func` points to: one of the functions `osc_expr_evalInLexEnv` treats specially (`osc_expr.c` lines 124-169), or
any other function (line 204).  The other functions get the expression as well, which only their error messages use.  `other` is a
function that is not modelled, told apart by a number. -/
inductive Fn where
  | apply | map | lreduce | rreduce | assign | assignToIndex | cond | emptybundle | bound | exist | getaddresses | delete
  | getmsgcount | value | quote | gettimetag | settimetag | andalso | orelse | eval | getMember | assignMember
  | other (k : Nat)
  | prim (f : List Ar → Res)

/-- `t_osc_expr_arg` (`osc_expr.r` lines 43-53) without its link.  `blank` is a node with type 0, which
`osc_expr_arg_alloc` makes (`osc_expr.c` lines 6458-6463). -/
inductive Arg where
  | atom (a : Option UAtom)
  | list (l : Ar)
  | expr (e : Nat)
  | addr (s : Bytes)
  | func (r : Nat)
  | blank

/-- `t_osc_expr` (`osc_expr.r` lines 36-41); `argc` is the length of the list.  The link to the next expression is kept in
`FRec.body`. -/
structure Node where
  fn : Fn
  args : List Arg

/-- What evaluation uses of a `t_osc_expr_rec` made by a lambda expression (`osc_expr_rec.r` lines 40-53): the names of the
required arguments, and the expressions of the body, linked from `extra`. -/
structure FRec where
  params : List Bytes
  body : List Nat

/-- A lexical environment.  It is a hash table (`osc_expr.c` lines 2118-2174), which behaves as a finite map (C26): here the
list of its entries, one for each key.  A NULL value counts as absent. -/
abbrev Env := List (Bytes × Ar)

/-- The memory.  `envs` are the environments that have been made; pointers to them are positions.  `bndl` is what `len` and `oscbndl` point to: `none` if these are NULL, otherwise `*len` and `*oscbndl`. -/
structure St where
  exprs : List Node
  recs : List FRec
  envs : List Env
  bndl : Option (Int × Option Bytes)

/-- `osc_expr_lookupBindingInLexenv` (`osc_expr.c` lines 2168-2174). -/
def lookupVar (st : St) (env : Option Nat) (k : Bytes) : Ar :=
  env.bind fun i => st.envs[i]?.bind fun e => (e.find? fun p => p.1 == k).bind (·.2)

/-- `osc_expr_bindVarInLexenv` (`osc_expr.c` lines 2158-2166). -/
def bindVar (st : St) (i : Nat) (k : Bytes) (v : Ar) : St :=
  { st with envs := st.envs.modify i fun e => (k, v) :: e.filter fun p => p.1 != k }

/-- `osc_expr_makeLexenv`, `osc_expr_copyLexenv` (`osc_expr.c` lines 2128-2131, 2138-2156): the new environment a function body
is evaluated in.  Entries with a NULL value are left out. -/
def newEnv (st : St) (env : Option Nat) : Option (St × Nat) :=
  (match env with
    | none => some []
    | some i => st.envs[i]?.bind fun e =>
      (e.filter fun p => p.2.isSome).mapM fun p => (copyAr p.2).map fun v => (p.1, v) : Option Env).map fun e =>
  ({ st with envs := st.envs ++ [e] }, st.envs.length)

/-- Result of an evaluation: the memory, the code, `*out`. -/
abbrev EvRes := Option (St × Int × Ar)

/-- What an argument node points to (`osc_expr.r` lines 36-53).  `app` is an expression, `fn` a function record made from a lambda
expression.  `broken` is an expression whose list of arguments is longer than its number of arguments, and may
have been freed behind the first (`osc_expr_parser.y` line 859): to evaluate or to copy it is undefined. -/
inductive Tm where
  | atom (a : UAtom)
  | addr (s : Bytes)
  | null
  | broken
  | app (f : Fn) (args : List Tm)
  | fn (ps : List Bytes) (body : List Tm)

/-- What evaluation looks up: `fn` is `osc_expr_lookupFunction`, and `parse` is `osc_expr_parser_parseExpr`, the expressions of a text; `none` if it
is undefined or has a syntax error (what was parsed before an error is not modelled). -/
structure Tab where
  fn : Bytes → Option Fn
  parse : Bytes → Option (List Tm)

instance : CoeFun Tab fun _ => Bytes → Option Fn := ⟨Tab.fn⟩

/-- Nothing can be looked up. -/
def noTab : Tab := ⟨fun _ => none, fun _ => none⟩

/-- Evaluation of the expression at a position, in an environment. -/
abbrev Ev := Option Nat → St → Nat → EvRes

/-- `OSC_ERR_EXPR_ADDRESSUNBOUND` (`osc_error.h` line 69). -/
abbrev UNBOUND : Int := 0x102

/-- `osc_atom_u_getTypetag` (`osc_atom_u.c` lines 154-160); 0 for NULL. -/
def tagOf (a : Option UAtom) : UInt8 := (a.map UAtom.tag).getD 0

/-- `osc_atom_u_getStringPtr` (`osc_atom_u.c` lines 706-716) of an atom that has a string. -/
def strOf : Option UAtom → Option Bytes
  | some (.mk tag _ (.str _ s)) => if tag = 115 then some s else none
  | _ => none

/-- The arguments of the message at `pos`, deserialised (`osc_expr.c` lines 264-281).  The array
is made for as many atoms as `osc_message_s_getArgCount` says, and filled by the iterator. -/
def readMsg (buf : Bytes) (pos : Nat) : Option (List UAtom) :=
  (wrap buf pos).bind fun v => (MsgS.argCount buf v).bind fun n => (MsgS.iterate buf ⟨v, none⟩).bind fun as =>
    if as.length = n then as.mapM (deserAtom (deserBundle (buf.length + 1)) buf) else none

/-- The case of an address in `osc_expr_evalArgInLexEnv` (`osc_expr.c` lines 251-285). -/
def readAddr (st : St) (q : Bytes) : Option (Int × Ar) :=
  match st.bndl with
  | some (len, some buf) =>
    if len ≤ 16 then some (UNBOUND, none)
    else (getFirstFullMatch len buf q).bind fun
      | none => some (UNBOUND, none)
      | some pos => (readMsg buf pos).map fun as => (0, some as)
  | _ => some (UNBOUND, none)

/-- `osc_expr_evalArgInLexEnv` (`osc_expr.c` lines 215-333); `none` is NULL.  In an environment a string is the name of a
variable if it is bound there. -/
def evalArg (E : Ev) (env : Option Nat) (st : St) : Option Arg → EvRes
  | none => some (st, 1, none)
  | some (.atom a) =>
    match (strOf a).bind (lookupVar st env) with
    | some l => (copyAr (some l)).map fun v => (st, 0, v)
    | none => (copyTo (mk 1) 0 a).map fun out => (st, 0, some out)
  | some (.list l) => (copyAr l).map fun v => (st, 0, v)
  | some (.expr e) => E env st e
  | some (.addr q) => (readAddr st q).map fun r => (st, r)
  | some (.func r) => some (st, 0, some [.mk 114 false (.bits r)])
  | some .blank => some (st, 0x20, none)

/-- The arguments of a normal function (`osc_expr.c` lines 177-203): left to right, up to the first error. -/
def evalArgs (E : Ev) (env : Option Nat) : List Arg → St → Option (St × Int × List Ar)
  | [], st => some (st, 0, [])
  | a :: as, st =>
    (evalArg E env st (some a)).bind fun r =>
      if r.2.1 ≠ 0 then some (r.1, r.2.1, [])
      else (evalArgs E env as r.1).map fun q => (q.1, q.2.1, r.2.2 :: q.2.2)

/-- A normal function (`osc_expr.c` lines 172-211). -/
def callPrim (E : Ev) (env : Option Nat) (st : St) (args : List Arg) (f : List Ar → Res) : EvRes :=
  (evalArgs E env args st).bind fun r =>
    if r.2.1 ≠ 0 then some (r.1, r.2.1, none) else (f r.2.2).map fun q => (r.1, q.1, q.2)

/-- The new expression made by `osc_expr_alloc`, `osc_expr_setRec` and the argument setters. -/
def St.alloc (st : St) (n : Node) : St × Nat := ({ st with exprs := st.exprs ++ [n] }, st.exprs.length)

/-- `osc_expr_setArg` (`osc_expr.c` lines 6606-6620) with at least one argument. -/
def St.setArgs (st : St) (e : Nat) (args : List Arg) : St :=
  { st with exprs := st.exprs.modify e fun n => { n with args := args } }

/-- The loop that binds parameters (`osc_expr.c` lines 380-389): the arguments are evaluated in `env`, the values stored in
`le`.  Of the errors only an unbound address is noticed.  When one of the lists ends, the rest of the other is ignored. -/
def bindArgs (E : Ev) (env : Option Nat) (le : Nat) : List Bytes → List Arg → St → Option (St × Int)
  | p :: ps, a :: as, st =>
    (evalArg E env st (some a)).bind fun r =>
      if r.2.1 = UNBOUND then some (r.1, r.2.1) else bindArgs E env le ps as (bindVar r.1 le p r.2.2)
  | _, _, st => some (st, 0)

/-- The body of a function (`osc_expr.c` lines 390-402). -/
def runBody (E : Ev) (le : Nat) : List Nat → St → EvRes
  | [], st => some (st, 0, none)
  | [e], st => E (some le) st e
  | e :: es, st =>
    (E (some le) st e).bind fun r => if r.2.1 ≠ 0 then some (r.1, r.2.1, none) else runBody E le es r.1

/-- Applying a function record (`osc_expr.c` lines 359-403). -/
def applyRec (E : Ev) (env : Option Nat) (st : St) (r : Nat) (rest : List Arg) : EvRes :=
  match st.recs[r]? with
  | none => none
  | some rc =>
    (newEnv st env).bind fun le =>
    (bindArgs E env le.2 rc.params rest le.1).bind fun q =>
      if q.2 ≠ 0 then some (q.1, q.2, none) else runBody E le.2 rc.body q.1

/-- Evaluating a named function with the remaining arguments (`osc_expr.c` lines 502-509). -/
def callFn (E : Ev) (env : Option Nat) (st : St) (fn : Fn) (rest : List Arg) : EvRes :=
  let q := st.alloc ⟨fn, rest⟩
  E env q.1 q.2

/-- `osc_expr_specFunc_apply` (`osc_expr.c` lines 339-515).  `T` is `osc_expr_lookupFunction`.  A name that is not a function
but bound in the environment to one is replaced by it in the expression, for good (lines 423-434). -/
def applyNode (E : Ev) (T : Tab) (env : Option Nat) (st : St) (f : Nat) (args : List Arg) : EvRes :=
  match args with
  | .func r :: rest => applyRec E env st r rest
  | .atom a :: rest =>
    if tagOf a ≠ 115 then some (st, 1, none)
    else match strOf a with
    | none => none
    | some s =>
      match T s with
      | some fn => callFn E env st fn rest
      | none =>
        match at? (lookupVar st env s) 0 with
        | some (.mk tag _ (.bits r)) => if tag = 114 then E env (st.setArgs f (.func r :: rest)) f else some (st, 1, none)
        | _ => some (st, 1, none)
  | .expr e :: rest => byName (.expr e) rest
  | .addr q :: rest => byName (.addr q) rest
  | _ => some (st, 1, none)
where
  byName (a0 : Arg) (rest : List Arg) : EvRes :=
    (evalArg E env st (some a0)).bind fun q =>
      if q.2.1 = UNBOUND then some (q.1, q.2.1, none)
      else match q.2.2 with
      | some [a] =>
        if tagOf (some a) ≠ 115 then some (q.1, 1, none)
        else match strOf (some a) with
        | none => none
        | some s =>
          match T s with
          | some fn => callFn E env q.1 fn rest
          | none => none -- the string is parsed
      | _ => some (q.1, 1, none)

mutual
/-- `osc_expr_copy` (`osc_expr.c` lines 6476-6503), with at most `n` nested copies. -/
def copyExpr : Nat → St → Nat → Option (St × Nat)
  | 0, _, _ => none
  | n + 1, st, e =>
    match st.exprs[e]? with
    | none => none
    | some nd => (copyArgs n st nd.args).map fun q => q.1.alloc ⟨nd.fn, q.2⟩
/-- The loop over the arguments (`osc_expr.c` lines 6490-6501). -/
def copyArgs : Nat → St → List Arg → Option (St × List Arg)
  | 0, _, _ => none
  | _ + 1, st, [] => some (st, [])
  | n + 1, st, a :: as => (copyArg n st a).bind fun q => (copyArgs n q.1 as).map fun p => (p.1, q.2 :: p.2)
/-- `osc_expr_arg_copy` (`osc_expr.c` lines 6797-6831).  A list is lost. -/
def copyArg : Nat → St → Arg → Option (St × Arg)
  | 0, _, _ => none
  | _ + 1, st, .atom none => some (st, .atom none)
  | _ + 1, st, .atom (some a) => (copyAtom a).map fun a' => (st, .atom (some a'))
  | _ + 1, st, .list _ => some (st, .list none)
  | n + 1, st, .expr e => (copyExpr n st e).map fun q => (q.1, .expr q.2)
  | _ + 1, st, .addr s => some (st, .addr s)
  | n + 1, st, .func r => (copyRec n st r).map fun q => (q.1, .func q.2)
  | _ + 1, st, .blank => some (st, .blank)
/-- `osc_expr_rec_copy` (`osc_expr_rec.c` lines 67-120) with `osc_expr_copyAllLinked` (`osc_expr.c` lines 6505-6521). -/
def copyRec : Nat → St → Nat → Option (St × Nat)
  | 0, _, _ => none
  | n + 1, st, r =>
    match st.recs[r]? with
    | none => none
    | some rc => (copyBody n st rc.body).map fun q => ({ q.1 with recs := q.1.recs ++ [⟨rc.params, q.2⟩] }, q.1.recs.length)
def copyBody : Nat → St → List Nat → Option (St × List Nat)
  | 0, _, _ => none
  | _ + 1, st, [] => some (st, [])
  | n + 1, st, e :: es => (copyExpr n st e).bind fun q => (copyBody n q.1 es).map fun p => (p.1, q.2 :: p.2)
end

/-- The arguments of `map` (`osc_expr.c` lines 539-561): of the errors only an unbound address is noticed. -/
def evalAll (E : Ev) (env : Option Nat) : List Arg → St → Option (St × Int × List Ar)
  | [], st => some (st, 0, [])
  | a :: as, st =>
    (evalArg E env st (some a)).bind fun r =>
      if r.2.1 = UNBOUND then some (r.1, r.2.1, [])
      else (evalAll E env as r.1).map fun q => (q.1, q.2.1, r.2.2 :: q.2.2)

/-- Give the argument nodes after the first of expression `e` new contents. -/
def St.setRest (st : St) (e : Nat) (as : List Arg) : St :=
  { st with exprs := st.exprs.modify e fun n => { n with args := n.args.take 1 ++ as } }

/-- The loop of `map` (`osc_expr.c` lines 575-582); the code of the calls is ignored. -/
def mapLoop (E : Ev) (env : Option Nat) (e : Nat) (cols : List Ar) : List Nat → St → Option (St × List Ar)
  | [], st => some (st, [])
  | i :: is, st =>
    (E env (st.setRest e (cols.map fun c => .atom (at? c i))) e).bind fun r =>
      (mapLoop E env e cols is r.1).map fun q => (q.1, r.2.2 :: q.2)

/-- Copying the results one after the other (`osc_expr.c` lines 583-588). -/
def gather : List Ar → Nat → List UAtom → Option (List UAtom)
  | [], _, out => some out
  | a :: as, pos, out => (copyIntoAr out a pos).bind fun out => gather as (pos + len a) out

/-- Smallest length (`osc_expr.c` lines 537, 555-558). -/
def minOf : List Ar → Nat
  | [] => 4294967295
  | a :: as => min (len a) (minOf as)

/-- `osc_expr_specFunc_map` (`osc_expr.c` lines 517-613); `n` bounds the copying of the function. -/
def mapNode (n : Nat) (E : Ev) (env : Option Nat) (st : St) (args : List Arg) : EvRes :=
  match args with
  | a0 :: a1 :: rest =>
    (evalAll E env (a1 :: rest) st).bind fun q =>
      if q.2.1 ≠ 0 then some (q.1, q.2.1, none)
      else (copyArg n q.1 a0).bind fun c =>
        let e := c.1.alloc ⟨.apply, c.2 :: (a1 :: rest).map fun _ => .blank⟩
        (mapLoop E env e.2 q.2.2 (List.range (minOf q.2.2)) e.1).bind fun p =>
          (gather p.2 0 (mk ((p.2.map len).sum))).map fun out => (p.1, 0, some out)
  | _ => some (st, 1, none)

/-- `osc_atom_u_copyInto(&copy, src)` with `copy` NULL. -/
def copyOpt : Option UAtom → Option (Option UAtom)
  | none => some none
  | some a => (copyAtom a).map some

/-- The two arguments of the function in a reduction: the accumulated value first for `lreduce`, last for `rreduce`
(`osc_expr.c` lines 663-672). -/
def pair (left : Bool) (acc x : Option UAtom) : List Arg := if left then [.atom acc, .atom x] else [.atom x, .atom acc]

/-- The loop of a reduction (`osc_expr.c` lines 723-735). -/
def reduceLoop (E : Ev) (env : Option Nat) (e : Nat) (left : Bool) : List UAtom → St → Ar → Option (St × Ar)
  | [], st, out => some (st, out)
  | x :: xs, st, out =>
    (copyOpt (at? out 0)).bind fun acc => (copyAtom x).bind fun x' =>
      (E env (st.setRest e (pair left acc (some x'))) e).bind fun r => reduceLoop E env e left xs r.1 r.2.2

/-- `osc_expr_specFunc_reduce` (`osc_expr.c` lines 615-758).  `rreduce` with a single value and more than three
arguments reads in front of the array (line 718). -/
def reduceNode (n : Nat) (E : Ev) (env : Option Nat) (st : St) (left : Bool) (args : List Arg) : EvRes :=
  match args with
  | a0 :: a1 :: more =>
    (copyArg n st a0).bind fun c =>
    let e := c.1.alloc ⟨.apply, [c.2, .blank, .blank]⟩
    (evalArg E env e.1 (some a1)).bind fun q =>
      if q.2.1 = UNBOUND then some (q.1, q.2.1, none)
      else
        let xs := if left then q.2.2.getD [] else (q.2.2.getD []).reverse
        match xs, more with
        | [], _ => (E env q.1 e.2).map fun r => (r.1, 0, r.2.2)
        | [_], [] => some (q.1, 0, q.2.2)
        | x :: xs, [a2] =>
          (evalArg E env q.1 (some a2)).bind fun p =>
            if p.2.1 = UNBOUND then some (p.1, p.2.1, none)
            else match p.2.2 with
            | none => some (p.1, 1, none)
            | some sc =>
              (copyOpt sc[0]?).bind fun acc =>
              (E env (p.1.setRest e.2 (pair left acc (some x))) e.2).bind fun r =>
              (reduceLoop E env e.2 left xs r.1 r.2.2).map fun o => (o.1, 0, o.2)
        | x :: xs, _ =>
          if left = false ∧ xs.length = 0 then none else
          (E env (q.1.setRest e.2 (pair left (some x) xs.head?)) e.2).bind fun r =>
          (reduceLoop E env e.2 left xs.tail r.1 r.2.2).map fun o => (o.1, 0, o.2)
  | _ => some (st, 1, none)

/-- The address that is assigned to (`osc_expr.c` lines 770-827): an address stands for itself, `value(/a)` for what `/a` is
bound to.  `.error` is the code to return. -/
def target (E : Ev) (env : Option Nat) (st : St) (a0 : Option Arg) : Option (St × Except Int Bytes) :=
  match a0 with
  | some (.addr s) => some (st, .ok s)
  | _ =>
    (match a0 with
      | some (.expr e) =>
        match st.exprs[e]? with
        | none => none
        | some nd =>
          match nd.fn, nd.args with
          | .value, .addr q :: _ => evalArg E env st (some (.addr q))
          | _, _ => some (st, 0, none)
      | _ => some (st, 0, none) : EvRes).bind fun q =>
    (if q.2.2.isNone then evalArg E env q.1 a0 else some q : EvRes).bind fun q =>
      if q.2.1 = UNBOUND then some (q.1, .error UNBOUND)
      else match q.2.2 with
      | none => some (q.1, .error 1)
      | some l =>
        if tagOf l[0]? ≠ 115 then some (q.1, .error 1)
        else (strOf l[0]?).map fun s => (q.1, .ok s)

/-- Putting the message with the given address and values in the bundle (`osc_expr.c` lines 867-890): in place of the first
message with the same address, or at the end. -/
def putMsg (b : Int × Option Bytes) (address : Bytes) (atoms : List UAtom) : Option (Int × Option Bytes) :=
  (atoms.mapM copyAtom).bind fun as =>
  (serializeMsg (.mk (some address) as)).bind fun m =>
  (match b.2 with
    | none => if b.1 ≤ 16 then some none else none
    | some buf => getFirstEqualAddr b.1 buf address : Option (Option Nat)).bind fun found =>
  match found, b.2 with
  | some pos, some buf =>
    if buf.length < b.1 then none
    else (replaceMessage b.1 (buf.take b.1.toNat) pos m).map fun r => (r.2.1, some r.2.2)
  | _, _ => appendMessage b.1 b.2 (some m)

/-- `osc_expr_specFunc_assign` (`osc_expr.c` lines 760-915). -/
def assignNode (E : Ev) (env : Option Nat) (st : St) (args : List Arg) : EvRes :=
  if st.bndl.isNone then some (st, 1, none)
  else (target E env st args[0]?).bind fun q =>
    match q.2 with
    | .error c => some (q.1, c, none)
    | .ok address =>
      if MsgS.validateAddress address ≠ 0 then some (q.1, MsgS.validateAddress address, none)
      else (evalArg E env q.1 args[1]?).bind fun r =>
        if r.2.1 ≠ 0 then some r
        else match r.1.bndl with
        | none => none
        | some b => (putMsg b address (r.2.2.getD [])).map fun b' => ({ r.1 with bndl := some b' }, 0, r.2.2)

/-- One store of `assign_to_index` (`osc_expr.c` lines 987-993): an index outside is skipped. -/
def storeAt (out : List UAtom) (idx src : Option UAtom) : Option (List UAtom) :=
  (intOf UAtom.getInt idx).bind fun i => if i ≥ out.length ∨ i < 0 then some out else copyTo out i.toNat src

/-- The stores of `assign_to_index` (`osc_expr.c` lines 971-1010), `none` inside for the error. -/
def storeAll (out idxs data : List UAtom) : Option (Option (List UAtom)) :=
  if idxs.length = 0 ∨ data.length = 0 then some none
  else if idxs.length = 1 ∧ data.length > 1 then
    (intOf UAtom.getInt idxs[0]?).bind fun i =>
      if i ≥ out.length ∨ i < 0 then some none else (copyTo out i.toNat data[0]?).map some
  else if idxs.length > 1 ∧ data.length = 1 then
    (forN idxs.length (fun i out => storeAt out idxs[i]? data[0]?) out).map some
  else (forN (min idxs.length data.length) (fun i out => storeAt out idxs[i]? data[i]?) out).map some

/-- `osc_expr_specFunc_assigntoindex` (`osc_expr.c` lines 917-1040).  The message found first is replaced after the other
arguments have been evaluated; when these change the bundle the pointer to it is stale, taken here as UB.  A first argument
that is not an address is read as one: UB. -/
def assignToIndexNode (E : Ev) (env : Option Nat) (st : St) (args : List Arg) : EvRes :=
  match st.bndl with
  | none => some (st, 1, none)
  | some (len0, buf0) =>
    match args with
    | [.addr a, ai, ad] =>
      (match buf0 with
        | none => if len0 ≤ 16 then some [] else none
        | some buf => lookupAddress len0 buf a true : Option (List View)).bind fun vs =>
      match vs with
      | [] => some (st, 1, none)
      | v :: _ =>
        (evalArg E env st (some (.addr a))).bind fun o =>
        if o.2.1 = UNBOUND then some o else
        (evalArg E env o.1 (some ai)).bind fun i =>
        if i.2.1 = UNBOUND then some (i.1, i.2.1, o.2.2) else
        (evalArg E env i.1 (some ad)).bind fun d =>
        if d.2.1 = UNBOUND then some (d.1, d.2.1, o.2.2) else
        (storeAll (o.2.2.getD []) (i.2.2.getD []) (d.2.2.getD [])).bind fun
        | none => some (d.1, 1, o.2.2)
        | some out =>
          if d.1.bndl ≠ some (len0, buf0) then none
          else match buf0 with
          | none => none
          | some buf =>
            if buf.length < len0 then none
            else (out.mapM copyAtom).bind fun as => (serializeMsg (.mk (newAddress a) as)).bind fun m =>
              (replaceMessage len0 (buf.take len0.toNat) v.size m).map fun r =>
                ({ d.1 with bndl := some (r.2.1, some r.2.2) }, 0, some out)
    | [_, _, _] => none
    | _ => some (st, 1, none)

/-- `osc_expr_specFunc_if` (`osc_expr.c` lines 1042-1153).  Only the first value of the test counts; if it has none, the result
of the third argument is stored outside `boolvec`. -/
def condNode (E : Ev) (env : Option Nat) (st : St) (args : List Arg) : EvRes :=
  if args.length < 2 ∨ args.length > 3 then some (st, 1, none)
  else (evalArg E env st args[0]?).bind fun t =>
    if t.2.1 ≠ 0 then some (t.1, t.2.1, none)
    else (intOf UAtom.getInt32 (at? t.2.2 0)).bind fun c =>
      (if c ≠ 0 then evalArg E env t.1 args[1]?
        else if args.length > 2 then (if len t.2.2 = 0 then none else evalArg E env t.1 args[2]?)
        else some (t.1, 0, none) : EvRes).bind fun r =>
      if r.2.1 ≠ 0 then some (r.1, r.2.1, none)
      else (copyIntoAr (mk (len r.2.2)) r.2.2 0).map fun out => (r.1, 0, some out)

/-- `osc_expr_specFunc_andalso` and `osc_expr_specFunc_orelse` (`osc_expr.c` lines 2899-2955, 2957-3013), which differ in the
value that decides. -/
def shortNode (E : Ev) (env : Option Nat) (st : St) (decides : UInt8) (args : List Arg) : EvRes :=
  if args.length ≠ 2 then some (st, 1, none)
  else (evalArg E env st args[0]?).bind fun l =>
    if l.2.2.isNone ∨ l.2.1 ≠ 0 then some (l.1, l.2.1, none)
    else
      let t := tagOf (at? l.2.2 0)
      if t = 84 ∨ t = 70 then
        if t = decides then (setTo (mk 1) 0 (if decides = 84 then UAtom.setTrue else UAtom.setFalse)).map fun out => (l.1, 0, some out)
        else (evalArg E env l.1 args[1]?).bind fun r =>
          if r.2.2.isNone ∨ r.2.1 ≠ 0 then some (r.1, r.2.1, none)
          else
            let t := tagOf (at? r.2.2 0)
            if t = 84 ∨ t = 70 then
              (setTo (mk 1) 0 (if t = 70 then UAtom.setFalse else UAtom.setTrue)).map fun out => (r.1, 0, some out)
            else some (r.1, 1, none)
      else some (l.1, 1, none)

/-- A one element array with a truth value. -/
def boolAr (b : Bool) : Option (List UAtom) := setTo (mk 1) 0 (if b then UAtom.setTrue else UAtom.setFalse)

/-- `osc_expr_specFunc_emptybundle` (`osc_expr.c` lines 1155-1198). -/
def emptybundleNode (E : Ev) (env : Option Nat) (st : St) (args : List Arg) : EvRes :=
  match st.bndl with
  | none => some (st, 1, none)
  | some b =>
    if args.isEmpty then (boolAr (b.1 == 16)).map fun out => (st, 0, some out)
    else (evalArg E env st args[0]?).bind fun q =>
      if q.2.1 = UNBOUND then some (q.1, q.2.1, some (mk 1))
      else match at? q.2.2 0 with
      | some (.mk tag _ w) =>
        if tag = 46 then
          match w with
          | .bndl _ ms => (boolAr ms.isEmpty).map fun out => (q.1, 0, some out)
          | _ => none
        else (boolAr true).map fun out => (q.1, 0, some out)
      | none => (boolAr true).map fun out => (q.1, 0, some out)

/-- The address that `exists` and `bound` ask for (`osc_expr.c` lines 1211-1303); `none` inside is NULL or the error. -/
def asked (E : Ev) (env : Option Nat) (st : St) : Option Arg → Option (St × Option Bytes)
  | some (.atom a) =>
    if tagOf a = 115 then (evalArg E env st (some (.atom a))).bind fun q =>
      match q.2.2 with
      | none => some (q.1, none)
      | some l => if tagOf l[0]? = 115 then (strOf l[0]?).map fun s => (q.1, some s) else some (q.1, none)
    else some (st, none)
  | some (.addr s) => some (st, some s)
  | some (.expr e) => (E env st e).bind fun q =>
      if q.2.1 ≠ 0 then some (q.1, none)
      else match q.2.2 with
      | some [a] =>
        if tagOf (some a) = 115 then (strOf (some a)).map fun s => (q.1, if s.head? = some 47 then some s else none)
        else some (q.1, none)
      | _ => some (q.1, none)
  | _ => some (st, none)

/-- `osc_expr_specFunc_existsorbound` (`osc_expr.c` lines 1200-1303). -/
def existsNode (E : Ev) (env : Option Nat) (st : St) (args : List Arg) (test : Int → Bytes → Bytes → Bool → Option Bool) : EvRes :=
  if st.bndl.isNone then some (st, 1, none)
  else (asked E env st args[0]?).bind fun q =>
    match q.2, q.1.bndl with
    | none, _ => some (q.1, 1, none)
    | some _, none => none
    | some s, some (len, some buf) => (test len buf s true).bind fun r => (boolAr r).map fun out => (q.1, 0, some out)
    | some _, some (len, none) => if len ≤ 16 then (boolAr false).map fun out => (q.1, 0, some out) else none

/-- One atom with the address of each message (`osc_expr.c` lines 1353-1360, 1370-1377). -/
def addrAtoms (as : List Bytes) : List UAtom := as.map fun s => setString .fresh s

/-- `osc_expr_specFunc_getaddresses` (`osc_expr.c` lines 1325-1381). -/
def getaddressesNode (E : Ev) (env : Option Nat) (st : St) (args : List Arg) : EvRes :=
  match st.bndl with
  | none => some (st, 1, none)
  | some b =>
    if args.isEmpty then
      match b.2 with
      | none => if b.1 ≤ 16 then some (st, 0, some []) else none
      | some buf => (iterate b.1 buf).bind fun vs => (vs.mapM (View.addr buf)).map fun as => (st, 0, some (addrAtoms as))
    else (evalArg E env st args[0]?).bind fun q =>
      match q.2.2 with
      | none => some (q.1, 0, none)
      | some l =>
        match (l[0]? : Option UAtom) with
        | some (.mk tag _ w) =>
          if tag = 46 then
            match w with
            | .bndl _ ms => (ms.mapM UMsg.addr).map fun as => (q.1, 0, some (addrAtoms as))
            | _ => none
          else some (q.1, 1, none)
        | none => some (q.1, 1, none)

/-- The loop of `delete` (`osc_expr.c` lines 1397-1410). -/
def deleteLoop : List Arg → Int × Option Bytes → Option (Int × Option Bytes)
  | [], b => some b
  | a :: as, b =>
    (match a with
      | .addr s => some (some s)
      | .atom x => if tagOf x = 115 then (strOf x).map some else some none
      | _ => some none : Option (Option Bytes)).bind fun
    | none => deleteLoop as b
    | some s =>
      match b.2 with
      | none => none
      | some buf => (removeMessage s b.1 buf).bind fun r => deleteLoop as (r.1, some r.2)

/-- `osc_expr_specFunc_delete` (`osc_expr.c` lines 1383-1412). -/
def deleteNode (st : St) (args : List Arg) : EvRes :=
  match st.bndl with
  | none => some (st, 1, none)
  | some b =>
    if args.isEmpty then some (st, 1, none)
    else (deleteLoop args b).map fun b' => ({ st with bndl := some b' }, 0, none)

/-- `osc_expr_specFunc_getmsgcount` (`osc_expr.c` lines 1414-1434). -/
def getmsgcountNode (st : St) : EvRes :=
  match st.bndl with
  | none => some (st, 1, none)
  | some b =>
    (match b.2 with
      | none => if b.1 ≤ 16 then some 0 else none
      | some buf => (iterate b.1 buf).map List.length : Option Nat).bind fun n =>
    (i32 n).bind fun n => (setTo (mk 1) 0 (·.setInt32 n)).map fun out => (st, 0, some out)

/-- `osc_expr_specFunc_value` (`osc_expr.c` lines 1436-1492).  (The argument cache of the message, which the calls of
`osc_message_s_getArg` fill, does not change what they find: C06.) -/
def valueNode (E : Ev) (env : Option Nat) (st : St) (args : List Arg) : EvRes :=
  if st.bndl.isNone then some (st, 1, none)
  else (evalArg E env st args[0]?).bind fun q =>
    if q.2.1 = UNBOUND then some (q.1, q.2.1, none)
    else if tagOf (at? q.2.2 0) = 115 then
      (strOf (at? q.2.2 0)).bind fun s =>
      match q.1.bndl with
      | none => none
      | some (len, none) => if len ≤ 16 then some (q.1, 0, none) else none
      | some (len, some buf) =>
        (lookupAddress len buf s true).bind fun
        | [] => some (q.1, 0, none)
        | v :: _ =>
          (MsgS.argCount buf v).bind fun n =>
          if n < 0 then none
          else ((List.range n.toNat).mapM fun (i : Nat) => (MsgS.getArg buf ⟨v, none⟩ i).bind fun a =>
            a.bind fun a => deserAtom (deserBundle (buf.length + 1)) buf a).map fun as => (q.1, 0, some as)
    else some (q.1, 0, none)

/-- `osc_expr_specFunc_quote` (`osc_expr.c` lines 1494-1517). -/
def quoteNode (st : St) (args : List Arg) : EvRes :=
  match args with
  | .atom a :: _ => (copyTo (mk 1) 0 a).map fun out => (st, 0, some out)
  | _ :: _ => some (st, 0, none)
  | [] => none

/-- `osc_expr_specFunc_gettimetag` (`osc_expr.c` lines 1700-1711). -/
def gettimetagNode (st : St) : EvRes :=
  match st.bndl with
  | none => none
  | some b => (getTimetag b.1 b.2).bind fun t => (setTo (mk 1) 0 (·.setTimetag t)).map fun out => (st, 0, some out)

/-- `osc_expr_specFunc_settimetag` (`osc_expr.c` lines 1713-1737); the time tag of an atom is 0 if it is something else
(`osc_atom_u.c` lines 878-888). -/
def settimetagNode (E : Ev) (env : Option Nat) (st : St) (args : List Arg) : EvRes :=
  (evalArg E env st args[0]?).bind fun q =>
    if q.2.1 ≠ 0 then some (q.1, 1, none)
    else match at? q.2.2 0 with
    | none => some (q.1, 1, none)
    | some a =>
      match q.1.bndl with
      | none => none
      | some (_, none) => some (q.1, 0, none)
      | some (len, some buf) =>
        (setTimetag len buf (if a.tag = 116 then timeOf a else ⟨0, 0⟩)).map fun buf' =>
          ({ q.1 with bndl := some (len, some buf') }, 0, none)

/-! ### Putting expressions into memory -/

/-- A place for an expression that must not be evaluated. -/
def hole : Node := ⟨.other 0, []⟩

mutual
/-- Put an expression into memory: its position. -/
def Tm.load : Tm → St → St × Nat
  | .app f args, st => (loadArgs args st).1.alloc ⟨f, (loadArgs args st).2⟩
  | _, st => st.alloc hole
/-- Put an argument node into memory. -/
def Tm.loadArg : Tm → St → St × Arg
  | .atom a, st => (st, .atom (some a))
  | .addr s, st => (st, .addr s)
  | .fn ps body, st =>
    let q := loadAll body st
    ({ q.1 with recs := q.1.recs ++ [⟨ps, q.2⟩] }, .func q.1.recs.length)
  | .app f args, st =>
    let q := (loadArgs args st).1.alloc ⟨f, (loadArgs args st).2⟩
    (q.1, .expr q.2)
  | .null, st => ((st.alloc hole).1, .expr (st.alloc hole).2)
  | .broken, st => ((st.alloc hole).1, .expr (st.alloc hole).2)
def loadArgs : List Tm → St → St × List Arg
  | [], st => (st, [])
  | t :: ts, st => ((loadArgs ts (t.loadArg st).1).1, (t.loadArg st).2 :: (loadArgs ts (t.loadArg st).1).2)
/-- Put a list of expressions into memory. -/
def loadAll : List Tm → St → St × List Nat
  | [], st => (st, [])
  | t :: ts, st => ((loadAll ts (t.load st).1).1, (t.load st).2 :: (loadAll ts (t.load st).1).2)
end

/-- The loop of `eval` (`osc_expr.c` lines 1549-1561): the expressions of a text one after the other, without an environment, up to the first error. -/
def evalEach (E : Ev) : List Nat → St → Option (St × Int)
  | [], st => some (st, 0)
  | e :: es, st => (E none st e).bind fun r => if r.2.1 ≠ 0 then some (r.1, r.2.1) else evalEach E es r.1

/-- `osc_expr_specFunc_eval` (`osc_expr.c` lines 1519-1609): the code of the evaluation is the result.  Values other than one string, which
are made into a text first, are not modelled; without a value and without an unbound address, the bytes of the argument are read as
an address (line 1593): UB. -/
def evalTextNode (E : Ev) (T : Tab) (env : Option Nat) (st : St) (args : List Arg) : EvRes :=
  (evalArg E env st args[0]?).bind fun q =>
    if q.2.1 = UNBOUND then some (q.1, UNBOUND, none)
    else match q.2.2 with
    | none => if args.isEmpty then some (q.1, 0, none) else none
    | some [a] =>
      (strOf (some a)).bind fun s => (T.parse s).bind fun ts =>
      (evalEach E (loadAll ts q.1).2 (loadAll ts q.1).1).bind fun r =>
        (setTo (mk 1) 0 (·.setInt32 r.2)).map fun out => (r.1, 0, some out)
    | some _ => none

/-- The bytes of the bundle that the first argument of `getbundlemember` and `assigntobundlemember` stands for (`osc_expr.c` lines 1752-1780,
1862-1886): the first value of the message at the address, if it is a string, or the bundle itself; `some (some none)` if there is none, and
`some none` if the address is not bound. -/
def memberBundle (st : St) (arg1 : List UAtom) : Option (Option (Option Bytes)) :=
  match arg1 with
  | .mk tag al w :: _ =>
    if tag = 115 then
      (strOf (some (.mk tag al w))).bind fun s =>
      match st.bndl with
      | none => none
      | some (len, none) => if len ≤ 16 then some none else none
      | some (len, some buf) =>
        (lookupAddress len buf s true).bind fun
        | [] => some none
        | v :: _ => (MsgS.getArg buf ⟨v, none⟩ 0).bind fun
          | none => some (some none)
          | some a =>
            if a.tag ≠ 46 then some (some none)
            else (rd32 buf a.ptr).bind fun n => if n = 0 then some (some none) else (slice buf (a.ptr + 4) n).map fun b => some (some b)
    else if tag = 46 then
      match w with
      | .bndl _ ms => (serialize ms).map fun b => some (some b)
      | _ => none
    else some (some none)
  | [] => some (some none)

/-- The state with another bundle. -/
def St.withBndl (st : St) (b : Bytes) : St := { st with bndl := some (b.length, some b) }

/-- The second argument of `getbundlemember` if it is an expression or an atom (`osc_expr.c` lines 1792-1834): its value in the outer
bundle is the address to look up in the bundle `b`.  The first value has to be a string (numbers would be formatted; not modelled). -/
def memberNamed (E : Ev) (env : Option Nat) (st : St) (a : Option Arg) (b : Bytes) : EvRes :=
  (evalArg E env st a).bind fun q =>
    match q.2.2 with
    | none => some (q.1, q.2.1, none)
    | some l => (strOf l[0]?).bind fun s => (evalArg E env (q.1.withBndl b) (some (.addr s))).map fun r => ({ r.1 with bndl := q.1.bndl }, r.2)

/-- `osc_expr_specFunc_getBundleMember` (`osc_expr.c` lines 1739-1832). -/
def getMemberNode (E : Ev) (env : Option Nat) (st : St) (args : List Arg) : EvRes :=
  (evalArg E env st args[0]?).bind fun q =>
    match q.2.2 with
    | none => some (q.1, 1, none)
    | some arg1 => (memberBundle q.1 arg1).bind fun
      | none => some (q.1, UNBOUND, none)
      | some none => some (q.1, 1, none)
      | some (some b) =>
        match (args[1]? : Option Arg) with
        | some (.expr e) =>
          match q.1.exprs[e]? with
          | none => none
          | some nd =>
            match nd.fn with
            | .value => memberNamed E env q.1 nd.args[0]? b
            | _ => memberNamed E env q.1 (some (.expr e)) b
        | some (.atom a) => memberNamed E env q.1 (some (.atom a)) b
        | a => (evalArg E env (q.1.withBndl b) a).map fun r => ({ r.1 with bndl := q.1.bndl }, r.2)

/-- The value as an argument of an assignment (`osc_expr.c` lines 1899-1909). -/
def valueArg (ar : List UAtom) : Option Arg :=
  match ar with
  | [a] => (copyAtom a).map fun a' => .atom (some a')
  | ar => (copyAr (some ar)).map .list

/-- The first value of `assigntobundlemember` (`osc_expr.c` lines 1842-1860): if the address is not bound, it is bound to an empty bundle, which is put at
the end of the bundle. -/
def memberFirst (E : Ev) (env : Option Nat) (st : St) (args : List Arg) : Option (St × Option (List UAtom)) :=
  (evalArg E env st args[0]?).bind fun q =>
    match q.2.2 with
    | some l => some (q.1, some l)
    | none =>
      match args with
      | .addr a :: .addr _ :: _ :: _ =>
        if q.2.1 ≠ UNBOUND then some (q.1, none)
        else
          let atom := UAtom.fresh.setBndlU newPtr []
          (serializeMsg (.mk (newAddress a) [atom])).bind fun m =>
          match q.1.bndl with
          | none => none
          | some b => (appendMessage b.1 b.2 (some m)).bind fun b' => (copyAtom atom).map fun atom' => ({ q.1 with bndl := some b' }, some [atom'])
      | _ => some (q.1, none)

/-- `osc_atom_u_setBndl_s` (`osc_atom_u.c` lines 1186-1206) for a block of bytes. -/
def setBytes (a : UAtom) (b : Bytes) : Option UAtom :=
  a.clear.bind fun a => (deserialize b).map fun ms => a.setBndlU newPtr ms

/-- The end of `assigntobundlemember` (`osc_expr.c` lines 1930-1977): the new bundle is assigned to what the first argument stands for.  The case
of a normal function as first argument (`nth` and others, lines 1933-1946) is not modelled. -/
def memberStore (n : Nat) (E : Ev) (env : Option Nat) (st : St) (a0 : Arg) (arg1 : List UAtom) (b : Bytes) : EvRes :=
  match a0 with
  | .expr e =>
    match st.exprs[e]? with
    | none => none
    | some nd =>
      match nd.fn with
      | .prim _ => none
      | .other _ => none
      | _ =>
        if tagOf arg1[0]? = 115 then
          (strOf arg1[0]?).bind fun s => (setBytes .fresh b).bind fun a => assignNode E env st [.addr s, .atom (some a)]
        else some (st, 1, none)
  | a0 =>
    match arg1 with
    | [] => none
    | x :: xs => (setBytes x b).bind fun x' => (copyArg n st a0).bind fun q => assignNode E env q.1 [q.2, .list (some (x' :: xs))]

/-- `osc_expr_specFunc_assignToBundleMember` (`osc_expr.c` lines 1834-1991).  An error in the third argument is not reported
(line 1897: the code is 0). -/
def assignMemberNode (n : Nat) (E : Ev) (env : Option Nat) (st : St) (args : List Arg) : EvRes :=
  (memberFirst E env st args).bind fun q =>
    match q.2 with
    | none => some (q.1, 1, none)
    | some arg1 => (memberBundle q.1 arg1).bind fun
      | none => some (q.1, 1, none)
      | some none => some (q.1, 1, none)
      | some (some b) =>
        match args with
        | a0 :: a1 :: rest =>
          (evalArg E env q.1 rest[0]?).bind fun v =>
          match v.2.2 with
          | none => some (v.1, 0, none)
          | some ar =>
            (copyArg n v.1 a1).bind fun c => (valueArg ar).bind fun val =>
            (assignNode E env (c.1.withBndl b) [c.2, val]).bind fun r =>
              if r.2.1 ≠ 0 then some ({ r.1 with bndl := c.1.bndl }, r.2.1, none)
              else match r.1.bndl with
              | some (len, some b') => memberStore n E env { r.1 with bndl := c.1.bndl } a0 arg1 (b'.take len.toNat)
              | _ => none
        | _ => none

/-- `osc_expr_evalInLexEnv` (`osc_expr.c` lines 113-213), with the evaluation `E` for nested expressions. -/
def evalNode (n : Nat) (E : Ev) (T : Tab) (env : Option Nat) (st : St) (f : Nat) : EvRes :=
  match st.exprs[f]? with
  | none => none
  | some ⟨fn, args⟩ =>
    match fn with
    | .apply => applyNode E T env st f args
    | .map => mapNode n E env st args
    | .lreduce => reduceNode n E env st true args
    | .rreduce => reduceNode n E env st false args
    | .assign => assignNode E env st args
    | .assignToIndex => assignToIndexNode E env st args
    | .cond => condNode E env st args
    | .emptybundle => emptybundleNode E env st args
    | .bound => existsNode E env st args addressIsBound
    | .exist => existsNode E env st args addressExists
    | .getaddresses => getaddressesNode E env st args
    | .delete => deleteNode st args
    | .getmsgcount => getmsgcountNode st
    | .value => valueNode E env st args
    | .quote => quoteNode st args
    | .gettimetag => gettimetagNode st
    | .settimetag => settimetagNode E env st args
    | .andalso => shortNode E env st 70 args
    | .orelse => shortNode E env st 84 args
    | .eval => evalTextNode E T env st args
    | .getMember => getMemberNode E env st args
    | .assignMember => assignMemberNode n E env st args
    | .other _ => none
    | .prim f => callPrim E env st args f

/-- `osc_expr_evalInLexEnv` with at most `n` nested calls. -/
def run (T : Tab) : Nat → Ev
  | 0 => fun _ _ _ => none
  | n + 1 => evalNode n (run T n) T

/-- `osc_expr_eval` (`osc_expr.c` lines 108-111). -/
def evalTop (T : Tab) (n : Nat) (st : St) (f : Nat) : EvRes := run T n none st f

end Libo.Expr
