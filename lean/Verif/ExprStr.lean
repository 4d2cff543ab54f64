import Verif.ExprArith
import Verif.TextFmt
/-!
# Model of the string functions of the expression language

From `osc_expr.c`: `strcmp`, `strlen`, `strchar`, `strfind`, `split`, `join`; from `osc_atom_u.c`: `osc_atom_u_getString` with a NULL
buffer.  The strings of atoms have no NUL inside.  Freeing is not modelled; the conversion of numbers in floating point to text is a
parameter, and so is the contents of new memory (`Printf`).
-/

namespace Libo.Expr
open Libo Libo.Text

/-- The bytes of a new block. -/
def newBlock (P : Printf) (n : Nat) : Bytes := (List.range n).map P.junk

/-- `char *st = NULL; osc_atom_u_getString(a, 0, &st);` (`osc_atom_u.c` lines 760-825) for an atom: the new block.  `strncpy` copies the
string with its NUL; a tag without case leaves the block as it is. -/
def getStrBlk (P : Printf) : UAtom → Option Bytes
  | .mk tag _ w =>
    if tag = 115 then
      match w with
      | .str _ s => some (s ++ [0])
      | _ => none
    else (stringLen P tag w).bind fun k => (getStringInto P tag w (newBlock P (k + 1)) (k + 1 : Nat)).map (·.2)

/-- The same for an atom that may be NULL, as a C string; NULL for NULL. -/
def getStr (P : Printf) : Option UAtom → Option (Option Bytes)
  | none => some none
  | some a => (getStrBlk P a).bind fun b => (cstr b 0).map some

/-- The sign of `strncmp`; `n` is converted to `size_t`. -/
def strncmp (s t : Bytes) (n : Int) : Int := if n < 0 then strcmp s t else strcmp (s.take n.toNat) (t.take n.toNat)

/-- `osc_expr_strcmp` (`osc_expr.c` lines 5063-5084); only the sign of the result is modelled. `strcmp(NULL, …)` is undefined. -/
def strcmpF (P : Printf) : List Ar → Res
  | a :: b :: rest =>
    (getStr P (at? a 0)).bind fun s => (getStr P (at? b 0)).bind fun t => s.bind fun s => t.bind fun t =>
      (match rest with
        | [c] => (intOf UAtom.getInt (at? c 0)).map fun n => strncmp s t n
        | _ => some (strcmp s t)).bind fun r => (setTo (mk 1) 0 (·.setInt32 r)).map fun out => (0, some out)
  | _ => some (1, none)

/-- `osc_expr_strlen` (`osc_expr.c` lines 5086-5104). -/
def strlenF (P : Printf) : List Ar → Res
  | [] => some (1, none)
  | a :: _ =>
    (forN (len a) (fun i out => (getStr P (at? a i)).bind fun s => s.bind fun s => setTo out i (·.setInt64 s.length)) (mk (len a))).map
      fun out => (0, some out)

/-- The inner loop of `osc_expr_strchar` (`osc_expr.c` lines 5125-5138): `none` inside for an index out of range. -/
def strcharLoop (str : Bytes) : List UAtom → Option (Option Bytes)
  | [] => some (some [])
  | a :: as => a.getInt32.bind fun pos =>
    if 0 ≤ pos ∧ pos < str.length then (strcharLoop str as).map fun r => r.map (str.getD pos.toNat 0 :: ·)
    else some none

/-- The outer loop of `osc_expr_strchar` (`osc_expr.c` lines 5119-5143), with the number of elements done. -/
def strcharAll (P : Printf) (chars : List UAtom) : List UAtom → Nat → List UAtom → Res
  | [], _, out => some (0, some out)
  | a :: as, i, out => (getStr P (some a)).bind fun s => s.bind fun s => (strcharLoop s chars).bind fun r =>
    match r with
    | some buf => (setTo out i fun a => some (setString a buf)).bind fun out => strcharAll P chars as (i + 1) out
    | none => some (1, some out)

/-- `osc_expr_strchar` (`osc_expr.c` lines 5107-5145). -/
def strchar (P : Printf) : List Ar → Res
  | [c, a] => strcharAll P (c.getD []) (a.getD []) 0 (mk (len a))
  | _ => some (1, none)

/-- `strstr`: how far behind `p` the text is found first. -/
def strstr (sub : Bytes) : Bytes → Option Nat
  | [] => if sub.isPrefixOf [] then some 0 else none
  | c :: s => if sub.isPrefixOf (c :: s) then some 0 else (strstr sub s).map (· + 1)

/-- The loop of `osc_expr_strfind` (`osc_expr.c` lines 5172-5177): `p` is `off` bytes into the string, `i` results are stored.  The
number counts the rounds (`none` if it does not suffice). -/
def strfindLoop (sub : Bytes) : Nat → Bytes → Nat → Nat → List UAtom → Option (Nat × List UAtom)
  | 0, _, _, _, _ => none
  | f + 1, p, off, i, ar =>
    match strstr sub p with
    | none => some (i, ar)
    | some k => (setTo ar i (·.setInt64 (off + k : Nat))).bind fun ar =>
      strfindLoop sub f (p.drop (k + sub.length)) (off + k + sub.length) (i + 1) ar

/-- `osc_atom_array_u_resize` (`osc_array.c` lines 123-141): new elements are cleared. -/
def resizeAr (l : List UAtom) (n : Nat) : List UAtom := l.take n ++ mk (n - l.length)

/-- `osc_expr_strfind` (`osc_expr.c` lines 5147-5189); nothing is returned for an empty text. -/
def strfind (P : Printf) : List Ar → Res
  | [a, b] =>
    (getStr P (at? b 0)).bind fun str => (getStr P (at? a 0)).bind fun sub =>
      match str, sub with
      | some str, some sub =>
        if sub.length = 0 then some (0, none)
        else (strfindLoop sub (str.length + 1) str 0 0 (mk str.length)).map fun (i, ar) => (0, some (resizeAr ar i))
      | _, _ => some (1, none)
  | _ => some (1, none)

/-- `strtok_r`: skip separators; the token up to the next separator, and what is behind that. -/
def strtok (sep : Bytes) (s : Bytes) : Option (Bytes × Bytes) :=
  let s := s.dropWhile sep.contains
  if s.isEmpty then none else some (s.takeWhile (!sep.contains ·), (s.dropWhile (!sep.contains ·)).drop 1)

/-- The loop of `osc_expr_split` (`osc_expr.c` lines 5216-5225): `n` is the size of the array, which grows by 16. -/
def splitLoop (sep : Bytes) : Nat → Bytes → Nat → Nat → List UAtom → Option (Nat × List UAtom)
  | 0, _, _, _, _ => none
  | f + 1, s, n, i, ar =>
    match strtok sep s with
    | none => some (i, ar)
    | some (tok, s) =>
      let (n, ar) := if i ≥ n then (n + 16, resizeAr ar (n + 16)) else (n, ar)
      (setTo ar i fun a => some (setString a tok)).bind fun ar => splitLoop sep f s n (i + 1) ar

/-- `osc_expr_split` (`osc_expr.c` lines 5192-5235). -/
def split (P : Printf) : List Ar → Res
  | [a, b] =>
    (getStr P (at? b 0)).bind fun str => (getStr P (at? a 0)).bind fun sep =>
      match str, sep with
      | some str, some sep =>
        if sep.length = 0 then
          (forN str.length (fun i out => setTo out i (·.setInt8 (castS M8 (str.getD i 0).toNat))) (mk str.length)).map fun out => (0, some out)
        else (splitLoop sep (str.length + 1) str 16 0 (mk 16)).map fun (i, ar) => (0, some (resizeAr ar i))
      | _, _ => some (1, none)
  | _ => some (1, none)

/-- The string of an element in `osc_expr_join` (`osc_expr.c` lines 5257-5265): of 8-bit numbers the character between the quotes. -/
def joinPtr (P : Printf) (a : UAtom) : Option Bytes :=
  (getStrBlk P a).bind fun b =>
    if a.tag = 99 ∨ a.tag = 67 then
      match b with
      | _ :: x :: b => cstr (x :: 0 :: b) 0
      | _ => none
    else cstr b 0

/-- `sprintf(buf + off, "%s", t)`: the new offset. -/
def sprintf (buf : Bytes) (off : Nat) (t : Bytes) : Option (Nat × Bytes) :=
  if off + t.length + 1 ≤ buf.length then some (off + t.length, buf.take off ++ t ++ 0 :: buf.drop (off + t.length + 1)) else none

/-- The second loop of `osc_expr_join` (`osc_expr.c` lines 5274-5283). -/
def joinLoop (sep : Bytes) : List Bytes → Nat → Bytes → Option Bytes
  | [], _, buf => some buf
  | p :: ps, off, buf => (sprintf buf off (if ps.isEmpty then p else p ++ sep)).bind fun (off, buf) => joinLoop sep ps off buf

/-- `osc_expr_join` (`osc_expr.c` lines 5237-5294).  Without a separator the code frees a string literal: undefined. -/
def join (P : Printf) : List Ar → Res
  | s :: args@(_ :: _) =>
    (getStr P (at? s 0)).bind fun sep => sep.bind fun sep =>
      ((args.flatMap fun a => a.getD []).mapM (joinPtr P)).bind fun ptrs =>
        let n := (ptrs.map fun p => p.length + sep.length).sum + 1
        (joinLoop sep ptrs 0 (newBlock P n)).bind fun buf => (cstr buf 0).bind fun t =>
          (setTo (mk 1) 0 fun a => (a.clear).map fun _ => .mk 115 true (.str 1 t)).map fun out => (0, some out)
  | _ => some (1, none)

end Libo.Expr
