import Verif.StrFmt
import Verif.IsoText
import Verif.AtomU
/-!
# Model of the text form of unserialised bundles (`osc_strfmt.c`, `osc_atom_u.c`, `osc_message_u.c`, `osc_bundle_u.c`)

The functions are called twice: with a NULL buffer, to find the size (`len…` below, returning the number), and with a buffer
(`put…` below).  A buffer is the list of the bytes from the pointer passed to the end of its block; `n` is the size passed along.

Simplifications: `int` and `long` are unbounded.  A negative `n`, which becomes a huge `size_t`, is undefined (`none`).  Not modelled:
the text of floating point numbers (`%g`), which is a parameter.
-/

namespace Libo.Text
open Libo

/-- What the C library and the machine are free to choose: what `printf` makes of numbers in floating point (from the bits), the contents of
uninitialised memory, how `qsort` orders an array of some length with a comparison function (of positions; the result are the old positions
in the new order), and the functions of `math.h` of one `double`, of two, and of an `int` and a `double`, by name (from bits to bits). -/
structure Printf where
  f32 : Nat → Bytes
  f64 : Nat → Bytes
  junk : Nat → UInt8
  qsort : Nat → (Nat → Nat → Int) → List Nat
  lib1 : Bytes → Nat → Nat
  lib2 : Bytes → Nat → Nat → Nat
  libn : Bytes → Int → Nat → Nat

/-- `offset += f(buf + offset, n - offset); offset += g(buf + offset, n - offset);`. -/
def andThen (f g : Writer) : Writer := fun b n =>
  (f b n).bind fun (k, b) =>
    if k ≤ b.length then (g (b.drop k) (n - k)).map fun (l, c) => (k + l, b.take k ++ c) else none

/-- Nothing is written and 0 returned. -/
def noText : Writer := fun b _ => some (0, b)

/-- The text of `osc_strfmt_blob` (`osc_strfmt.c` lines 118-141) after the first number: `, %d` for each of the other bytes. -/
def putBlobRest : Bytes → Writer
  | [] => snprintf [41]
  | c :: s => andThen (snprintf ([44, 32] ++ decI (castS M8 c.toNat))) (putBlobRest s)

/-- The same with a NULL buffer. -/
def lenBlobRest : Bytes → Nat
  | [] => 1
  | c :: s => ([44, 32] ++ decI (castS M8 c.toNat)).length + lenBlobRest s

/-- `osc_strfmt_blob` (`osc_strfmt.c` lines 118-141) with a buffer.  The first byte is printed even if the length is 0; it may then be
outside of the block (`none`). -/
def putBlob (blk : Bytes) : Writer := fun b n =>
  (rdI32 blk 0).bind fun l => (rd8 blk 4).bind fun c => (slice blk 5 (max (l - 1) 0)).bind fun rest =>
    andThen (snprintf ([98, 108, 111, 98, 40] ++ decI (castS M8 c.toNat))) (putBlobRest rest) b n

/-- `osc_strfmt_blob` (`osc_strfmt.c` lines 118-141) with a NULL buffer. -/
def lenBlob (blk : Bytes) : Option Nat :=
  (rdI32 blk 0).bind fun l => (rd8 blk 4).bind fun c => (slice blk 5 (max (l - 1) 0)).map fun rest =>
    ([98, 108, 111, 98, 40] ++ decI (castS M8 c.toNat)).length + lenBlobRest rest

/-- The text that `osc_atom_u_getString` (`osc_atom_u.c` lines 760-825) passes to one `snprintf` for atoms that are not strings, blobs
or time tags, by the functions of `osc_strfmt.c` lines 40-116; `none` if it writes nothing. -/
def plainText (P : Printf) (tag : UInt8) (w : W) : Option Bytes :=
  if tag = 105 then some (decI w.i)
  else if tag = 102 then some (P.f32 (w.raw % M32))
  else if tag = 100 then some (P.f64 (w.raw % M64))
  else if tag = 104 then some (decI w.h)
  else if tag = 73 then some (decI w.I)
  else if tag = 72 then some (decI w.H)
  else if tag = 99 then some [39, UInt8.ofNat (w.raw % M8), 39]
  else if tag = 67 then some [39, UInt8.ofNat (w.raw % M8), 39]
  else if tag = 117 then some (decI w.u)
  else if tag = 85 then some (decI w.U)
  else if tag = 84 then some [116, 114, 117, 101]
  else if tag = 70 then some [102, 97, 108, 115, 101]
  else if tag = 78 then some [110, 105, 108]
  else none

/-- The union's `w.t`. -/
def wTime (w : W) : Timetag := ⟨UInt32.ofNat w.raw, UInt32.ofNat (w.raw / M32)⟩

/-- `osc_atom_u_getStringLen` (`osc_atom_u.c` lines 718-758) for atoms that are not strings.  For an unsigned 8-bit number it is the
length of the decimal number. -/
def stringLen (P : Printf) (tag : UInt8) (w : W) : Option Nat :=
  if tag = 116 then Iso.isoLen (wTime w)
  else if tag = 98 then
    match w with
    | .blob _ blk => lenBlob blk
    | _ => none
  else if tag = 67 then some (decI w.C).length
  else some (match plainText P tag w with | some t => t.length | none => 0)

/-- `osc_atom_u_getString` (`osc_atom_u.c` lines 760-825) with a buffer, for atoms that are not strings.  It returns the length found by
`osc_atom_u_getStringLen`, not what was written, except for blobs and time tags. -/
def getStringInto (P : Printf) (tag : UInt8) (w : W) : Writer := fun b n =>
  if tag = 116 then Iso.putIso (wTime w) b n
  else if tag = 98 then
    match w with
    | .blob _ blk => putBlob blk b n
    | _ => none
  else (stringLen P tag w).bind fun k =>
    match plainText P tag w with
    | some t => (snprintf t b n).map fun (_, b) => (k, b)
    | none => some (k, b)

/-- `tabs`: the indentation (`osc_message_u.c` lines 1069-1074, `osc_bundle_u.c` lines 692-697); `OSC_SUBBUNDLE_INDENT` is 2. -/
def tabs (k : Nat) : Bytes := List.replicate (k * 2) 32

/-- The first `snprintf` of `osc_message_u_nformat` (`osc_message_u.c` lines 1076-1084 and 1096-1104). -/
def msgHead (ind : Nat) (addr : Bytes) (argc : Nat) : Bytes :=
  if argc = 0 then tabs ind ++ addr
  else if argc > 1 then tabs ind ++ addr ++ [32, 58, 32, 91]
  else tabs ind ++ addr ++ [32, 58, 32]

mutual
/-- `osc_atom_u_nformat` (`osc_atom_u.c` lines 1469-1491) and `osc_bundle_u_nformatNestedBndl` (`osc_bundle_u.c` lines 686-709) with a
NULL buffer.  A NULL pointer in the word gives 0; a word that does not hold what the tag promises is undefined. -/
def lenAtom (P : Printf) (ind : Nat) : UAtom → Option Nat
  | .mk tag _ w =>
    if tag = 46 then
      match w with
      | .bndl _ ms => (lenMsgs P (ind + 1) ms).map fun k => 2 + k + ([10] ++ tabs ind ++ [125]).length
      | w => if w.raw = 0 then some 0 else none
    else if tag = 115 then
      match w with
      | .str _ s => quotedStringWithQuotedMetaLen s
      | w => if w.raw = 0 then some 0 else none
    else stringLen P tag w
/-- The loop of `osc_message_u_nformat` (`osc_message_u.c` lines 1085-1091) with a NULL buffer. -/
def lenArgs (P : Printf) (ind : Nat) : List UAtom → Option Nat
  | [] => some 0
  | a :: as => (lenAtom P ind a).bind fun k => (lenArgs P ind as).map fun l => k + (if as.isEmpty then 0 else 2) + l
/-- `osc_message_u_nformat` (`osc_message_u.c` lines 1061-1118) with a NULL buffer; a NULL address given to `%s` is undefined. -/
def lenMsg (P : Printf) (ind : Nat) : UMsg → Option Nat
  | .mk none _ => none
  | .mk (some a) args =>
    (lenArgs P ind args).map fun k => (msgHead ind a args.length).length + k + if args.length > 1 then 1 else 0
/-- `osc_bundle_u_nformat` (`osc_bundle_u.c` lines 659-684) with a NULL buffer. -/
def lenMsgs (P : Printf) (ind : Nat) : List UMsg → Option Nat
  | [] => some 0
  | m :: ms => (lenMsg P ind m).bind fun k => (lenMsgs P ind ms).map fun l => k + (if ms.isEmpty then 0 else 2) + l
end

mutual
/-- `osc_atom_u_nformat` (`osc_atom_u.c` lines 1469-1491) and `osc_bundle_u_nformatNestedBndl` (`osc_bundle_u.c` lines 686-709) with a
buffer. -/
def putAtom (P : Printf) (ind : Nat) : UAtom → Writer
  | .mk tag _ w =>
    if tag = 46 then
      match w with
      | .bndl _ ms => andThen (andThen (snprintf [123, 10]) (putMsgs P (ind + 1) ms)) (snprintf ([10] ++ tabs ind ++ [125]))
      | w => if w.raw = 0 then noText else fun _ _ => none
    else if tag = 115 then
      match w with
      | .str _ s => fun b n => if n < 0 then none else quotedStringWithQuotedMeta ((List.range n.toNat).map P.junk) b n.toNat s
      | w => if w.raw = 0 then noText else fun _ _ => none
    else getStringInto P tag w
/-- The loop of `osc_message_u_nformat` (`osc_message_u.c` lines 1105-1111) with a buffer. -/
def putArgs (P : Printf) (ind : Nat) : List UAtom → Writer
  | [] => noText
  | a :: as => andThen (andThen (putAtom P ind a) (if as.isEmpty then noText else snprintf [44, 32])) (putArgs P ind as)
/-- `osc_message_u_nformat` (`osc_message_u.c` lines 1061-1118) with a buffer. -/
def putMsg (P : Printf) (ind : Nat) : UMsg → Writer
  | .mk none _ => fun _ _ => none
  | .mk (some a) args =>
    andThen (andThen (snprintf (msgHead ind a args.length)) (putArgs P ind args)) (if args.length > 1 then snprintf [93] else noText)
/-- The loop of `osc_bundle_u_nformat` (`osc_bundle_u.c` lines 674-680) with a buffer; `offset < n` is tested before each message. -/
def putMsgs (P : Printf) (ind : Nat) : List UMsg → Writer
  | [] => noText
  | m :: ms => fun b n =>
    if 0 < n then andThen (andThen (putMsg P ind m) (if ms.isEmpty then noText else snprintf [44, 10])) (putMsgs P ind ms) b n
    else some (0, b)
end

/-- `osc_bundle_u_getFormattedSize` (`osc_bundle_u.c` lines 642-645). -/
def formattedSize (P : Printf) (ms : List UMsg) : Option Nat := lenMsgs P 0 ms

/-- `osc_bundle_u_format` (`osc_bundle_u.c` lines 647-657): the contents of the allocated block. -/
def format (P : Printf) (ms : List UMsg) : Option Bytes :=
  (lenMsgs P 0 ms).bind fun k => (putMsgs P 0 ms ((List.range (k + 1)).map P.junk) (k + 1 : Nat)).map (·.2)

end Libo.Text
