import Verif.AtomU
import Verif.AtomS
/-!
# Model of atom arrays and of the list functions of the expression language

`osc_atom_array_u.c`, `osc_array.c` (through `OscArray.lean`), `osc_atom_u_copyInto`, and from `osc_expr.c`: `length`,
`reverse`, `nonzero`, `list`, `nfill`, `first`, `last`, `rest`, `butlast`, `interleave`, `nth`, `assign_to_index`.

A `t_osc_atom_ar_u *` is NULL (`none`) or a list of atoms.  Arrays are taken to have less than 2^31 elements, as the loop
counters of the functions are `int`s.  Freeing is not modelled.  A function returns its code and `*out`, which is NULL when
it is called (`osc_expr.c` line 165 and the callers of `osc_expr_eval`).
-/

namespace Libo.Expr
open Libo

/-- A `t_osc_atom_ar_u *`. -/
abbrev Ar := Option (List UAtom)

/-- `osc_atom_array_u_getLen`, i.e. `osc_array_getLen` (`osc_array.c` lines 81-87). -/
def len (a : Ar) : Nat := (a.getD []).length

/-- `osc_atom_array_u_get`, i.e. `osc_array_get` (`osc_array.c` lines 71-79), for an index that is not negative: NULL
outside the array. -/
def at? (a : Ar) (i : Nat) : Option UAtom := (a.getD [])[i]?

/-- `osc_atom_array_u_alloc` (`osc_atom_array_u.c` lines 36-39): the memory is cleared (`osc.h` line 55). -/
def mk (n : Nat) : List UAtom := List.replicate n UAtom.fresh

/-- The loop `for(i = 0; i < n; i++)`. -/
def forN {σ : Type} (n : Nat) (f : Nat → σ → Option σ) (s : σ) : Option σ := (List.range n).foldlM (fun s i => f i s) s

/-- `osc_atom_u_copyInto` (`osc_atom_u.c` lines 72-108) for a source that is not NULL: the new contents of the destination.
A bundle is copied by `osc_bundle_u_copy` (`osc_bundle_u.c` lines 83-89): serialise and deserialise; a NULL bundle becomes an
empty one.  The number of a copied pointer is kept, although it is a new block; a NULL string or blob is a crash. -/
def copyAtom : UAtom → Option UAtom
  | .mk tag alloc w =>
    if tag = 115 then
      match w with
      | .str p s => some (.mk tag alloc (.str p s))
      | _ => none
    else if tag = 46 then
      match w with
      | .bndl p ms => (serialize ms).bind fun b => (deserialize b).map fun ms' => .mk tag alloc (.bndl p ms')
      | w => if w.raw = 0 then some (.mk tag alloc (.bndl 1 [])) else none
    else if tag = 98 then
      match w with
      | .blob p blk => (rdI32 blk 0).bind fun l => (slice blk 0 (l + 4)).map fun b => .mk tag alloc (.blob p b)
      | _ => none
    else some (.mk tag alloc w)

/-- `t_osc_atom_u *d = osc_atom_array_u_get(out, i); osc_atom_u_copyInto(&d, src);`: nothing is copied from NULL, and
nothing into the array if `i` is outside. -/
def copyTo (out : List UAtom) (i : Nat) (src : Option UAtom) : Option (List UAtom) :=
  match src with
  | none => some out
  | some a => (copyAtom a).map fun a' => out.set i a'

/-- A setter applied to `osc_atom_array_u_get(out, i)`; setters do nothing on NULL. -/
def setTo (out : List UAtom) (i : Nat) (f : UAtom → Option UAtom) : Option (List UAtom) :=
  match out[i]? with
  | none => some out
  | some a => (f a).map fun a' => out.set i a'

/-- `osc_atom_array_u_copy` (`osc_atom_array_u.c` lines 194-209). -/
def copyAr (a : Ar) : Option Ar :=
  match a with
  | none => some none
  | some l => (forN l.length (fun i out => copyTo out i l[i]?) (mk l.length)).map some

/-- `osc_atom_array_u_copyInto` (`osc_atom_array_u.c` lines 211-231) into an array, which is resized when it is too short
(the new elements are cleared, `osc_array.c` lines 130-134). -/
def copyIntoAr (out : List UAtom) (src : Ar) (offset : Nat) : Option (List UAtom) :=
  match src with
  | none => some out
  | some l =>
    let out := if out.length < l.length + offset then out ++ mk (l.length + offset - out.length) else out
    forN l.length (fun i out => copyTo out (i + offset) l[i]?) out

/-- `osc_atom_u_getBool` (`osc_atom_u.c` lines 827-864); NULL is false. -/
def getBool : Option UAtom → Bool
  | none => false
  | some (.mk tag _ w) =>
    if tag = 84 then true
    else if tag = 105 ∨ tag = 73 then !(w.raw % M32 == 0)
    else if tag = 104 ∨ tag = 72 then !(w.raw % M64 == 0)
    else if tag = 102 then !(w.raw % 2147483648 == 0)
    else if tag = 100 then !(w.raw % 9223372036854775808 == 0)
    else if tag = 99 ∨ tag = 67 then !(w.raw % M8 == 0)
    else if tag = 117 ∨ tag = 85 then !(w.raw % M16 == 0)
    else false

/-- The getters return 0 for NULL. -/
def intOf (g : UAtom → Option Int) : Option UAtom → Option Int
  | none => some 0
  | some a => g a

/-- A function's result: UB, or code and `*out`. -/
abbrev Res := Option (Int × Ar)

/-- Sum of the lengths of the arguments in an `int` (`osc_expr.c` lines 3675-3677, 3876-3878). -/
def total : List Ar → Option Int
  | [] => some 0
  | a :: as => (total as).bind fun s => i32 (len a + s)

/-- `osc_expr_length` (`osc_expr.c` lines 3669-3680). -/
def length (argv : List Ar) : Res :=
  (total argv).bind fun n => (setTo (mk 1) 0 (·.setInt32 n)).map fun out => (0, some out)

/-- `osc_expr_reverse` (`osc_expr.c` lines 3735-3746).  Without arguments `*argv` is undefined, here and below. -/
def reverse : List Ar → Res
  | [] => none
  | a :: _ => (forN (len a) (fun i out => copyTo out i (at? a (len a - i - 1))) (mk (len a))).map fun out => (0, some out)

/-- `osc_expr_nonzero` (`osc_expr.c` lines 3852-3869): the two loops, the first collecting the indices. -/
def nonzero : List Ar → Res
  | [] => none
  | a :: _ =>
    let idxs := (List.range (len a)).filter fun i => getBool (at? a i)
    (forN idxs.length (fun i out => setTo out i (·.setInt32 (idxs.getD i 0 : Nat))) (mk idxs.length)).map fun out => (0, some out)

/-- The copying loop of `osc_expr_list` (`osc_expr.c` lines 3883-3887). -/
def listLoop : List Ar → Nat → List UAtom → Option (List UAtom)
  | [], _, out => some out
  | a :: as, pos, out => (copyIntoAr out a pos).bind fun out => listLoop as (pos + len a) out

/-- `osc_expr_list` (`osc_expr.c` lines 3871-3888). -/
def list (argv : List Ar) : Res :=
  (total argv).bind fun n =>
    if n ≤ 0 then some (0, none)
    else (listLoop argv 0 (mk n.toNat)).map fun out => (0, some out)

/-- `osc_expr_nfill` (`osc_expr.c` lines 3890-3907). -/
def nfill : List Ar → Res
  | a :: b :: _ =>
    (intOf UAtom.getInt (at? a 0)).bind fun n =>
      let n := if n < 0 then 0 else n
      (i32 (n * len b)).bind fun outlen =>
        (forN n.toNat (fun i out => copyIntoAr out b (i * len b)) (mk outlen.toNat)).map fun out => (0, some out)
  | _ => some (1, none)

/-- `osc_expr_first` (`osc_expr.c` lines 4002-4012). -/
def first : List Ar → Res
  | [] => some (0, none)
  | a :: _ => if len a = 0 then some (0, none) else (copyTo (mk 1) 0 (at? a 0)).map fun out => (0, some out)

/-- `osc_expr_last` (`osc_expr.c` lines 4014-4025). -/
def last : List Ar → Res
  | [] => some (0, none)
  | a :: _ => if len a = 0 then some (0, none) else (copyTo (mk 1) 0 (at? a (len a - 1))).map fun out => (0, some out)

/-- `osc_expr_rest` (`osc_expr.c` lines 4027-4041). -/
def rest : List Ar → Res
  | [] => some (0, none)
  | a :: _ =>
    if len a = 0 then some (0, none)
    else (forN (len a - 1) (fun i out => copyTo out i (at? a (i + 1))) (mk (len a - 1))).map fun out => (0, some out)

/-- `osc_expr_butlast` (`osc_expr.c` lines 4043-4057). -/
def butlast : List Ar → Res
  | [] => some (0, none)
  | a :: _ =>
    if len a = 0 then some (0, none)
    else (forN (len a - 1) (fun i out => copyTo out i (at? a i)) (mk (len a - 1))).map fun out => (0, some out)

/-- The length of the shortest argument (`osc_expr.c` lines 4061-4068). -/
def minLen : Nat → List Ar → Nat
  | m, [] => m
  | m, a :: as => minLen (if len a < m then len a else m) as

/-- `osc_expr_interleave` (`osc_expr.c` lines 4059-4078). -/
def interleave : List Ar → Res
  | [] => none
  | a :: as =>
    let argv := a :: as
    let m := minLen (len a) as
    (i32 (argv.length * m)).bind fun n =>
      (forN argv.length (fun i out => forN m (fun j out => copyTo out (i + j * argv.length) (at? (argv.getD i none) j)) out)
        (mk n.toNat)).map fun out => (0, some out)

/-- The inner body of `osc_expr_nth` (`osc_expr.c` lines 3264-3278, 3284-3299) with `n` elements to choose from: `none` in
the state is the error exit, which frees the output. -/
def nthStep (n : Int) (f : Nat → UAtom → Option UAtom) (st : Option (List UAtom × Nat)) (idx : UAtom) :
    Option (Option (List UAtom × Nat)) :=
  match st with
  | none => some none
  | some (out, k) =>
    (idx.getInt32).bind fun l =>
      if l < 0 then some none
      else if l > n - 1 then some none
      else (setTo out k (f l.toNat)).map fun out => some (out, k + 1)

/-- `osc_expr_nth` (`osc_expr.c` lines 3242-3301): the indices are all elements of the second and later arguments.  A list
consisting of one blob is indexed by bytes. -/
def nth : List Ar → Res
  | [] => none
  | a :: idxs =>
    (total idxs).bind fun n =>
      let all := (idxs.map fun x => x.getD []).flatten
      let run (m : Int) (f : Nat → UAtom → Option UAtom) : Res :=
        (all.foldlM (nthStep m f) (some (mk n.toNat, 0))).map fun st =>
          match st with
          | none => (1, none)
          | some (out, _) => (0, some out)
      match a.getD [] with
      | [.mk 98 _ w] =>
        match w with
        | .blob _ blk => (rdI32 blk 0).bind fun m => run m fun l x => (rd8 blk (4 + l)).bind fun c => x.setInt8 c.toNat
        | _ => none
      | as => run as.length fun l _ => as[l]?.bind copyAtom

/-- The assignment at one index (`osc_expr.c` lines 3326-3335, 3344-3352); an index outside is skipped. -/
def assignAt (out : List UAtom) (idx : Option UAtom) (src : Option UAtom) : Option (List UAtom) :=
  (intOf UAtom.getInt idx).bind fun i => if i ≥ out.length ∨ i < 0 then some out else copyTo out i.toNat src

/-- `osc_expr_assign_to_index` (`osc_expr.c` lines 3303-3355). -/
def assignToIndex : List Ar → Res
  | [a, idx, data] =>
    (copyAr a).bind fun out =>
      if len idx = 0 ∨ len data = 0 then some (1, out)
      else if len idx = 1 ∧ 1 < len data then
        (intOf UAtom.getInt (at? idx 0)).bind fun i =>
          if i ≥ len out ∨ i < 0 then some (1, out)
          else (copyTo (out.getD []) i.toNat (at? data 0)).map fun o => (0, some o)
      else if 1 < len idx ∧ len data = 1 then
        (forN (len idx) (fun i o => assignAt o (at? idx i) (at? data 0)) (out.getD [])).map fun o => (0, out.map fun _ => o)
      else
        (forN (min (len idx) (len data)) (fun i o => assignAt o (at? idx i) (at? data i)) (out.getD [])).map fun o =>
          (0, out.map fun _ => o)
  | _ => some (1, none)

end Libo.Expr
