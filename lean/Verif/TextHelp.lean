import Verif.StrFmt
import Verif.Timetag
/-!
# Adding quotes, padded lengths, and strings stored into arguments of messages

Modelled: `osc_strfmt_addQuotes` and `osc_strfmt_strlenPadded` of `/repo/osc_strfmt.c`, and the functions of `/repo/osc_atom_s.c` that store
a string or a time tag in the data of an atom.
Simplified: memory is a list of bytes, an access outside of it is `none`; a length given by the caller is not negative.
-/

namespace Libo

/-- `osc_strfmt_strlenPadded`, `osc_strfmt.c` lines 277-286, for a string shorter than 2 GiB. -/
def strlenPadded (str : Bytes) : Option Nat :=
  (cstrlen str 0).bind fun len =>
    if 2147483644 ≤ len then none
    else
      let rem := len % 4
      some (if rem ≠ 0 then len + (4 - rem) else len + 4)

/-- `strncpy(dst, buf, len)`, C standard 7.24.2.4: the `len` bytes stored; `osc_strfmt.c` line 214. -/
def strncpyBytes (buf : Bytes) (len : Nat) : Option Bytes :=
  let s := (buf.take len).takeWhile (· != 0)
  if s.length = buf.length ∧ s.length < len then none else some (s ++ List.replicate (len - s.length) 0)

/-- The part of `osc_strfmt_addQuotes` after the allocation, `osc_strfmt.c` lines 210-220.  `buf[len - 1]` is outside for `len = 0`. -/
def addQuotesTo (len : Nat) (buf out : Bytes) : Option (Nat × Bytes) :=
  (buf[0]?).bind fun a =>
  (if a ≠ 34 then (wr8 out 0 34).map fun o => (o, 1) else some (out, 0)).bind fun (out, i) =>
  (strncpyBytes buf len).bind fun s =>
  (blit out i s).bind fun out =>
  (if len = 0 then none else buf[len - 1]?).bind fun z =>
  (if z ≠ 34 then (wr8 out (i + len) 34).map fun o => (o, i + len + 1) else some (out, i + len)).bind fun (out, i) =>
  (wr8 out i 0).map fun out => (i, out)

/-- `osc_strfmt_addQuotes`, `osc_strfmt.c` lines 202-221: the number returned and the buffer; `out` is the buffer of the caller, `none` for
NULL, in which case `len + 3` bytes with unknown contents `junk` are allocated. -/
def addQuotes (junk : Nat → UInt8) (len : Nat) (buf : Bytes) (out : Option Bytes) : Option (Nat × Bytes) :=
  addQuotesTo len buf (out.getD ((List.range (len + 3)).map junk))

/-- `strcpy(a->data, v)` with `a->data` at offset `i` of a buffer, `osc_atom_s.c` line 844. -/
def strcpyAt (buf : Bytes) (i : Nat) (v : Bytes) : Option Bytes := blit buf i (v ++ [0])

/-- `osc_atom_s_setString`, `osc_atom_s.c` lines 835-845: the type tag stored in the atom and the memory with its data; `none` as data is
NULL, in which case `strlen(v) + 1` bytes with unknown contents `junk` are allocated and the data begins there. -/
def AtomS.setString (junk : Nat → UInt8) (data : Option (Bytes × Nat)) (v : Bytes) : Option (UInt8 × Bytes × Nat) :=
  match data with
  | none => (strcpyAt ((List.range (v.length + 1)).map junk) 0 v).map fun b => (115, b, 0)
  | some (buf, i) => (strcpyAt buf i v).map fun b => (115, b, i)

/-- `osc_atom_s_setTimetag`, `osc_atom_s.c` lines 871-882, in the same way; `OSC_TIMETAG_SIZEOF` is 8. -/
def AtomS.setTimetag (junk : Nat → UInt8) (data : Option (Bytes × Nat)) (t : Timetag) : Option (UInt8 × Bytes × Nat) :=
  match data with
  | none => (blit ((List.range 8).map junk) 0 t.encode).map fun b => (116, b, 0)
  | some (buf, i) => (blit buf i t.encode).map fun b => (116, b, i)

end Libo
