import Verif.ExprHeap
/-!
# Making records of functions (`osc_expr_rec.c` lines 8-13 and 122-216)

The parser makes a record for each `lambda` with these functions (`osc_expr_parser.y` lines 804-816).  The memory is that of
`ExprHeap.lean`, with the same simplifications: allocation always succeeds, and an array of pointers is allocated after the strings.
-/

namespace Libo.EHeap
open Libo

/-- `osc_expr_rec_alloc` (`osc_expr_rec.c` lines 8-13). -/
def recAlloc : E Nat := new (.rcd {})

/-- `r->field = value;` -/
def modRec (q : Nat) (f : RCell → RCell) : E Unit := do
  match ← get q with
  | .rcd c => put q (.rcd (f c))
  | _ => stop

/-- `osc_expr_rec_setName` (`osc_expr_rec.c` lines 122-131).  The pointer to the old name is overwritten; a NULL name is undefined. -/
def recSetName (p name : Ptr) : E Unit :=
  match p, name with
  | none, _ => pure ()
  | some _, none => stop
  | some q, some s => do
    let c ← dupStr (some s)
    modRec q fun r => { r with name := c }

/-- `osc_expr_rec_setSignature` (`osc_expr_rec.c` lines 133-142), likewise. -/
def recSetSignature (p sig : Ptr) : E Unit :=
  match p, sig with
  | none, _ => pure ()
  | some _, none => stop
  | some q, some s => do
    let c ← dupStr (some s)
    modRec q fun r => { r with sig := c }

/-- `memcpy` of the types to a new block (`osc_expr_rec.c` lines 168-172). -/
def dupInts (p : Ptr) (n : Int) : E Ptr :=
  match p with
  | none => pure none
  | some q => do
    match ← get q with
    | .ints l => if n.toNat ≤ l.length then return some (← new (.ints (l.take n.toNat))) else stop
    | _ => stop

/-- `osc_expr_rec_setRequiredArgs` with `osc_expr_rec_setArgs` (`osc_expr_rec.c` lines 144-186).  Without names nothing happens, not even
with types; the fields of a NULL record are undefined.  Simplified: the number is stored with the copies. -/
def recSetRequired (p : Ptr) (n : Int) (names types : Ptr) : E Unit :=
  match names, p with
  | none, _ => pure ()
  | some _, none => stop
  | some s, some q => do
    let c ← dupNames (some s) n
    let t ← dupInts types n
    modRec q fun r => { r with nreq := n, req := c, reqTypes := if types.isSome then t else r.reqTypes }

/-- `osc_expr_rec_setOptionalArgs` with `osc_expr_rec_setArgs` (`osc_expr_rec.c` lines 144-174 and 188-199), likewise. -/
def recSetOptional (p : Ptr) (n : Int) (names types : Ptr) : E Unit :=
  match names, p with
  | none, _ => pure ()
  | some _, none => stop
  | some s, some q => do
    let c ← dupNames (some s) n
    let t ← dupInts types n
    modRec q fun r => { r with nopt := n, opt := c, optTypes := if types.isSome then t else r.optTypes }

/-- `osc_expr_rec_setFunction` (`osc_expr_rec.c` lines 201-208). -/
def recSetFunction (p : Ptr) (f : Nat) : E Unit :=
  match p with
  | none => pure ()
  | some q => modRec q fun r => { r with func := f }

/-- `osc_expr_rec_setExtra` (`osc_expr_rec.c` lines 210-216); the record takes the pointer itself. -/
def recSetExtra (p extra : Ptr) : E Unit :=
  match p with
  | none => pure ()
  | some q => modRec q fun r => { r with extra := extra }

end Libo.EHeap
