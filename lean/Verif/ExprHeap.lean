import Verif.Basic
/-!
# Expressions in memory: copying and freeing them (`osc_expr.c`, `osc_expr_rec.c`)

What the parser makes is a list of `t_osc_expr` blocks that point to lists of `t_osc_expr_arg` blocks, which point to atoms, strings,
further expressions, arrays of atoms, and records of functions with the expressions of their bodies.  As in `Mem.lean` a memory maps
addresses to blocks; using a block that is not allocated, or as something it is not, is `none`; allocation always succeeds.
Simplifications: an atom is a number or a string here (blobs and bundles of atoms are in `Mem.lean`), the pointer to the record of an
expression, which it does not own, and the pointer to the C function of a record are numbers, and `categories`, which nobody frees or
copies, is left out.  Recursions take a number that bounds their depth; running out of it is `none`, and the theorems give enough of it.
-/

namespace Libo.EHeap
open Libo

abbrev Ptr := Option Nat

/-- An atom: a number with its type, or a string (`osc_atom_u.r` lines 40-64). -/
inductive EAtom where
  | num (tag : UInt8) (bits : Nat)
  | str (p : Ptr)
deriving DecidableEq

/-- The union `arg` with its type (`osc_expr.r` lines 44-51). -/
inductive EVal where
  | atom (p : Ptr)
  | list (p : Ptr)
  | expr (p : Ptr)
  | addr (p : Ptr)
  | func (p : Ptr)
deriving DecidableEq

/-- `struct _osc_expr_rec` (`osc_expr_rec.r`); the arrays of names are blocks of pointers. -/
structure RCell where
  name : Ptr := none
  sig : Ptr := none
  nreq : Int := 0
  nopt : Int := 0
  req : Ptr := none
  reqTypes : Ptr := none
  opt : Ptr := none
  optTypes : Ptr := none
  doc : Ptr := none
  func : Nat := 0
  extra : Ptr := none
deriving DecidableEq

/-- A block. -/
inductive ECell where
  /-- `struct _osc_expr` (`osc_expr.r` lines 36-41). -/
  | expr (rec : Nat) (argv : Ptr) (argc : Int) (next : Ptr)
  /-- `struct _osc_expr_arg` (`osc_expr.r` lines 43-53). -/
  | arg (v : EVal) (next : Ptr)
  | rcd (r : RCell)
  /-- An array of pointers to strings. -/
  | names (l : List Ptr)
  /-- A string; the bytes in front of its NUL. -/
  | str (s : Bytes)
  /-- An array of numbers. -/
  | ints (l : List Int)
  | atom (a : EAtom)
  /-- `t_osc_array` (`osc_array.r`): a pointer to the atoms. -/
  | arr (data : Ptr)
  | atoms (l : List EAtom)
deriving DecidableEq

/-- The memory: the blocks, and the first address that was never given out. -/
structure EMem where
  cell : Nat → Option ECell
  brk : Nat

def EMem.set (m : EMem) (p : Nat) (c : Option ECell) : EMem := { m with cell := fun a => if a = p then c else m.cell a }

/-- Programs. -/
abbrev E := StateT EMem Option

def stop {α : Type} : E α := fun _ => none

/-- `osc_mem_alloc` (`osc_mem.c`) and the first contents of the block. -/
def new (c : ECell) : E Nat := fun m => some (m.brk, { (m.set m.brk (some c)) with brk := m.brk + 1 })

/-- `osc_mem_free` (`osc_mem.c`). -/
def free (p : Nat) : E Unit := fun m => (m.cell p).map fun _ => ((), m.set p none)

/-- `if(p){ osc_mem_free(p); }` -/
def freeIf (p : Ptr) : E Unit :=
  match p with
  | some q => free q
  | none => pure ()

def get (p : Nat) : E ECell := fun m => (m.cell p).map fun c => (c, m)

/-- Overwrite a block. -/
def put (p : Nat) (c : ECell) : E Unit := fun m => (m.cell p).map fun _ => ((), m.set p (some c))

/-- `osc_mem_alloc(strlen(s) + 1)` and the copy of the string, where C tests the pointer first. -/
def dupStr (p : Ptr) : E Ptr :=
  match p with
  | none => pure none
  | some q => do
    match ← get q with
    | .str s => return some (← new (.str s))
    | _ => stop

/-! ## Freeing -/

/-- `for(…) if(names[i]) osc_mem_free(names[i]);` -/
def freeEach : List Ptr → E Unit
  | [] => pure ()
  | p :: l => do freeIf p; freeEach l

/-- The names of arguments: each name, then the array (`osc_expr_rec.c` lines 26-40). -/
def freeNames (p : Ptr) (n : Int) : E Unit :=
  match p with
  | none => pure ()
  | some q => do
    match ← get q with
    | .names l =>
      if n.toNat ≤ l.length then
        freeEach (l.take n.toNat)
        free q
      else stop
    | _ => stop

/-- `osc_expr_rec_free` (`osc_expr_rec.c` lines 15-65); gives back `extra`. -/
def freeRec (p : Ptr) : E Ptr :=
  match p with
  | none => pure none
  | some q => do
    match ← get q with
    | .rcd r =>
      freeIf r.name
      freeIf r.sig
      freeNames r.req r.nreq
      freeNames r.opt r.nopt
      freeIf r.reqTypes
      freeIf r.optTypes
      freeIf r.doc
      free q
      return r.extra
    | _ => stop

/-- `osc_atom_u_free` (`osc_atom_u.c` lines 50-71) for numbers and strings. -/
def freeAtom (p : Ptr) : E Unit :=
  match p with
  | none => pure ()
  | some q => do
    match ← get q with
    | .atom a =>
      match a with
      | .str s => freeIf s
      | .num _ _ => pure ()
      free q
    | _ => stop

/-- The loop of `osc_atom_array_u_free` (`osc_atom_array_u.c` lines 45-56) for atoms that own their strings. -/
def freeElems : List EAtom → E Unit
  | [] => pure ()
  | .str s :: l => do freeIf s; freeElems l
  | .num _ _ :: l => freeElems l

/-- `osc_atom_array_u_free` (`osc_atom_array_u.c` lines 41-59) with `osc_array_free` (`osc_array.c` lines 56-62). -/
def freeArr (p : Ptr) : E Unit :=
  match p with
  | none => pure ()
  | some q => do
    match ← get q with
    | .arr none => free q
    | .arr (some d) =>
      match ← get d with
      | .atoms l =>
        freeElems l
        free d
        free q
      | _ => stop
    | _ => stop

mutual
/-- `osc_expr_free` (`osc_expr.c` lines 6465-6474): all expressions of the list. -/
def freeExprs : Nat → Ptr → E Unit
  | _, none => pure ()
  | 0, some _ => stop
  | n + 1, some p => do
    match ← get p with
    | .expr _ argv _ next =>
      freeArgs n argv
      free p
      freeExprs n next
    | _ => stop
/-- `osc_expr_arg_freeList` (`osc_expr.c` lines 6581-6588) with `osc_expr_arg_free` (lines 6575-6579). -/
def freeArgs : Nat → Ptr → E Unit
  | _, none => pure ()
  | 0, some _ => stop
  | n + 1, some p => do
    match ← get p with
    | .arg v next =>
      clearArg n v
      free p
      freeArgs n next
    | _ => stop
/-- `osc_expr_arg_clear` (`osc_expr.c` lines 6539-6573). -/
def clearArg : Nat → EVal → E Unit
  | 0, _ => stop
  | n + 1, .expr p => freeExprs n p
  | _ + 1, .atom p => freeAtom p
  | _ + 1, .addr p => freeIf p
  | n + 1, .func p => do
    let e ← freeRec p
    freeExprs n e
  | _ + 1, .list p => freeArr p
end

/-! ## Copying -/

/-- Copy every string; NULL stays NULL (`osc_expr_rec.c` lines 93-101). -/
def dupEach : List Ptr → E (List Ptr)
  | [] => pure []
  | p :: l => do
    let q ← dupStr p
    return q :: (← dupEach l)

/-- Copy the names of arguments (`osc_expr_rec.c` lines 91-102 and 103-113).  Simplified: the array is allocated with the pointers that
are stored in it one by one, after the strings.  C leaves the place of an optional name that is NULL uninitialised, here it is NULL. -/
def dupNames (p : Ptr) (n : Int) : E Ptr :=
  match p with
  | none => pure none
  | some q => do
    match ← get q with
    | .names l =>
      if n.toNat ≤ l.length then
        let k ← dupEach (l.take n.toNat)
        return some (← new (.names k))
      else stop
    | _ => stop

/-- `osc_atom_u_copyInto` (`osc_atom_u.c` lines 73-109) with a NULL destination, for numbers and strings; copying a string that is NULL is
undefined. -/
def dupAtom (p : Ptr) : E Ptr :=
  match p with
  | none => pure none
  | some q => do
    match ← get q with
    | .atom (.num t b) => return some (← new (.atom (.num t b)))
    | .atom (.str (some s)) => do
      let a ← new (.atom (.str none))
      let s' ← dupStr (some s)
      put a (.atom (.str s'))
      return some a
    | _ => stop

/-- The end of a list of expressions (`osc_expr.c` lines 6527-6534). -/
def lastExpr : Nat → Nat → E Nat
  | 0, _ => stop
  | n + 1, p => do
    match ← get p with
    | .expr _ _ _ none => return p
    | .expr _ _ _ (some q) => lastExpr n q
    | _ => stop

/-- `osc_expr_appendExpr` (`osc_expr.c` lines 6523-6537) for an expression that is not NULL. -/
def appendExpr (n e new : Nat) : E Unit := do
  let l ← lastExpr n e
  match ← get l with
  | .expr r a c _ => put l (.expr r a c (some new))
  | _ => stop
  match ← get new with
  | .expr r a c _ => put new (.expr r a c none)
  | _ => stop

mutual
/-- `osc_expr_copy` (`osc_expr.c` lines 6476-6503) with a NULL destination: one expression without those behind it. -/
def copyExpr : Nat → Ptr → E Ptr
  | _, none => pure none
  | 0, some _ => stop
  | n + 1, some p => do
    match ← get p with
    | .expr rec argv argc _ =>
      let q ← new (.expr rec none argc none)
      let first ← copyArgs n argv none none
      put q (.expr rec first argc none)
      return some q
    | _ => stop
/-- The loop over the arguments (`osc_expr.c` lines 6490-6501): the first and the last copy so far. -/
def copyArgs : Nat → Ptr → Ptr → Ptr → E Ptr
  | _, none, first, _ => pure first
  | 0, some _, _, _ => stop
  | n + 1, some p, first, last => do
    match ← get p with
    | .arg v next =>
      let c ← copyArg n v
      match last with
      | some l =>
        match ← get l with
        | .arg w _ => put l (.arg w (some c))
        | _ => stop
      | none => pure ()
      copyArgs n next (if first.isSome then first else some c) (some c)
    | _ => stop
/-- `osc_expr_arg_copy` (`osc_expr.c` lines 6797-6830) with a NULL destination.  A list is not copied: its pointer stays NULL. -/
def copyArg : Nat → EVal → E Nat
  | 0, _ => stop
  | _ + 1, .atom p => do
    let c ← new (.arg (.atom none) none)
    let a ← dupAtom p
    put c (.arg (.atom a) none)
    return c
  | n + 1, .expr p => do
    let c ← new (.arg (.expr none) none)
    let e ← copyExpr n p
    put c (.arg (.expr e) none)
    return c
  | _ + 1, .addr none => stop
  | _ + 1, .addr (some p) => do
    let c ← new (.arg (.addr none) none)
    let s ← dupStr (some p)
    put c (.arg (.addr s) none)
    return c
  | n + 1, .func p => do
    let c ← new (.arg (.func none) none)
    let r ← copyRec n p
    put c (.arg (.func r) none)
    return c
  | _ + 1, .list _ => new (.arg (.list none) none)
/-- `osc_expr_rec_copy` (`osc_expr_rec.c` lines 67-121) with a NULL destination.  The types of the arguments are not copied. -/
def copyRec : Nat → Ptr → E Ptr
  | _, none => pure none
  | 0, some _ => stop
  | n + 1, some p => do
    match ← get p with
    | .rcd r =>
      let q ← new (.rcd {})
      let name ← dupStr r.name
      let sig ← dupStr r.sig
      let doc ← dupStr r.doc
      let req ← dupNames r.req r.nreq
      let opt ← dupNames r.opt r.nopt
      let extra ← copyAll n r.extra none
      put q (.rcd { name := name, sig := sig, nreq := r.nreq, nopt := r.nopt, req := req, opt := opt, doc := doc, func := r.func, extra := extra })
      return some q
    | _ => stop
/-- The loop of `osc_expr_copyAllLinked` (`osc_expr.c` lines 6505-6521): a copy of every expression, appended to `*dest`. -/
def copyAll : Nat → Ptr → Ptr → E Ptr
  | _, none, dest => pure dest
  | 0, some _, _ => stop
  | n + 1, some p, dest => do
    match ← copyExpr n (some p) with
    | none => stop
    | some c =>
      match dest with
      | some d => appendExpr n d c
      | none => pure ()
      match ← get p with
      | .expr _ _ _ next => copyAll n next (if dest.isSome then dest else some c)
      | _ => stop
end

/-! ## Adding arguments -/

/-- The last argument of a list and how many there are (`osc_expr.c` lines 6632-6636, 6651-6654 and 6659-6662). -/
def walkArgs : Nat → Nat → E (Nat × Nat)
  | 0, _ => stop
  | n + 1, p => do
    match ← get p with
    | .arg _ none => return (p, 1)
    | .arg _ (some q) => do
      let (l, k) ← walkArgs n q
      return (l, k + 1)
    | _ => stop

/-- `last->next = p` -/
def linkArg (l : Nat) (p : Ptr) : E Unit := do
  match ← get l with
  | .arg w _ => put l (.arg w p)
  | _ => stop

/-- `osc_expr_prependArg` (`osc_expr.c` lines 6622-6643) for an expression that is not NULL. -/
def prependArg (n e : Nat) (a : Ptr) : E Unit := do
  match ← get e with
  | .expr rec none _ next => put e (.expr rec a 1 next)
  | .expr rec (some v) argc next =>
    match a with
    | none => pure ()
    | some a => do
      let (l, k) ← walkArgs n a
      linkArg l (some v)
      put e (.expr rec (some a) (argc + k) next)
  | _ => stop

/-- `osc_expr_appendArg` (`osc_expr.c` lines 6645-6671) for an expression that is not NULL. -/
def appendArg (n e : Nat) (a : Ptr) : E Unit := do
  match ← get e with
  | .expr rec none _ next => put e (.expr rec a 1 next)
  | .expr rec (some v) argc next => do
    let (l, _) ← walkArgs n v
    linkArg l a
    match a with
    | none => put e (.expr rec (some v) argc next)
    | some b => do
      let (_, k) ← walkArgs n b
      put e (.expr rec (some v) (argc + k) next)
  | _ => stop

end Libo.EHeap
