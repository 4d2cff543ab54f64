import Verif.TextFmt
import Verif.MsgS
import Verif.AtomS
/-!
# Model of the text form of serialised bundles (`osc_atom_s.c`, `osc_message_s.c`, `osc_bundle_s.c`)

As in `TextFmt.lean`, each function is called with a NULL buffer to find the size (`len…`), and with a buffer (`put…`).  The bundle is the list
of the bytes from its first one to the end of its block; nested bundles are parts of it.  The recursion into nested bundles has fuel; as every
bundle begins after the one that it is in, the length of the block suffices.

Simplifications: as in `TextFmt.lean`.
-/

namespace Libo.Text
open Libo

/-- The text that `osc_atom_s_getString` (`osc_atom_s.c` lines 478-576) passes to one `snprintf` for atoms that are not strings, blobs or time
tags; the inner `none` says that it writes nothing. -/
def plainTextS (P : Printf) (buf : Bytes) (a : AtomS) : Option (Option Bytes) :=
  if a.tag = 105 then (rd32 buf a.ptr).map fun n => some (decI (castS M32 n))
  else if a.tag = 102 then (rd32 buf a.ptr).map fun n => some (P.f32 n)
  else if a.tag = 100 then (rd64 buf a.ptr).map fun n => some (P.f64 n)
  else if a.tag = 104 then (rd64 buf a.ptr).map fun n => some (decI (castS M64 n))
  else if a.tag = 99 then (rd32 buf a.ptr).map fun n => some [39, UInt8.ofNat (n % M8), 39]
  else if a.tag = 67 then (rd32 buf a.ptr).map fun n => some [39, UInt8.ofNat (n % M8), 39]
  else if a.tag = 117 then (rd32 buf a.ptr).map fun n => some (decI (castS M16 n))
  else if a.tag = 85 then (rd32 buf a.ptr).map fun n => some (decI (castU M16 n))
  else if a.tag = 73 then (rd32 buf a.ptr).map fun n => some (decI (castU M32 n))
  else if a.tag = 72 then (rd64 buf a.ptr).map fun n => some (decI (castU M64 n))
  else if a.tag = 84 then some (some [116, 114, 117, 101])
  else if a.tag = 70 then some (some [102, 97, 108, 115, 101])
  else if a.tag = 78 then some (some [110, 105, 108])
  else some none

/-- `osc_atom_s_getStringLen` (`osc_atom_s.c` lines 403-476) for atoms that are not strings.  For an unsigned 8-bit number it is the length of
the decimal number. -/
def stringLenS (P : Printf) (buf : Bytes) (a : AtomS) : Option Nat :=
  if a.tag = 116 then (Timetag.decode buf a.ptr).bind Iso.isoLen
  else if a.tag = 98 then lenBlob (buf.drop a.ptr)
  else if a.tag = 67 then (rd32 buf a.ptr).map fun n => (decI (castU M8 n)).length
  else (plainTextS P buf a).map fun | some t => t.length | none => 0

/-- `osc_atom_s_getString` (`osc_atom_s.c` lines 478-576) with a buffer, for atoms that are not strings.  It returns the length found by
`osc_atom_s_getStringLen`, not what was written, except for blobs and time tags. -/
def getStringIntoS (P : Printf) (buf : Bytes) (a : AtomS) : Writer := fun b n =>
  if a.tag = 116 then (Timetag.decode buf a.ptr).bind fun t => Iso.putIso t b n
  else if a.tag = 98 then putBlob (buf.drop a.ptr) b n
  else (stringLenS P buf a).bind fun k => (plainTextS P buf a).bind fun
    | some t => (snprintf t b n).map fun (_, b) => (k, b)
    | none => some (k, b)

/-- The first `snprintf` of `osc_message_s_nformat` (`osc_message_s.c` lines 317-325 and 343-351); the number of arguments is -1 if the type
tags are an empty string. -/
def msgHeadS (ind : Nat) (addr : Bytes) (argc : Int) : Bytes :=
  if argc = 0 then tabs ind ++ addr
  else if argc > 1 then tabs ind ++ addr ++ [32, 58, 32, 91]
  else tabs ind ++ addr ++ [32, 58, 32]

/-- `osc_atom_s_nformat` (`osc_atom_s.c` lines 1034-1059) and `osc_bundle_s_nformatNestedBndl` (`osc_bundle_s.c` lines 663-684) with a NULL
buffer; `lenB` is `osc_bundle_s_nformat`. -/
def lenAtomS (P : Printf) (lenB : Nat → Int → Bytes → Option Nat) (ind : Nat) (buf : Bytes) (a : AtomS) : Option Nat :=
  if a.tag = 46 then
    (rd32 buf a.ptr).bind fun len => (lenB (ind + 1) len (buf.drop (a.ptr + 4))).map fun k => 2 + k + ([10] ++ tabs ind ++ [125]).length
  else if a.tag = 115 then (cstr buf a.ptr).bind quotedStringWithQuotedMetaLen
  else stringLenS P buf a

/-- The loop of `osc_message_s_nformat` (`osc_message_s.c` lines 326-337) with a NULL buffer. -/
def lenArgsS (P : Printf) (lenB : Nat → Int → Bytes → Option Nat) (ind : Nat) (buf : Bytes) : List AtomS → Option Nat
  | [] => some 0
  | a :: as => (lenAtomS P lenB ind buf a).bind fun k => (lenArgsS P lenB ind buf as).map fun l => k + (if as.isEmpty then 0 else 2) + l

/-- `osc_message_s_nformat` (`osc_message_s.c` lines 302-370) with a NULL buffer. -/
def lenMsgS (P : Printf) (lenB : Nat → Int → Bytes → Option Nat) (ind : Nat) (buf : Bytes) (v : View) : Option Nat :=
  (MsgS.argCount buf v).bind fun argc => (cstr buf v.address).bind fun addr => (MsgS.iterate buf ⟨v, none⟩).bind fun as =>
    (lenArgsS P lenB ind buf as).map fun k => (msgHeadS ind addr argc).length + k + if argc > 1 then 1 else 0

/-- The loop of `osc_bundle_s_nformat` (`osc_bundle_s.c` lines 643-649) with a NULL buffer. -/
def lenMsgsS (P : Printf) (lenB : Nat → Int → Bytes → Option Nat) (ind : Nat) (buf : Bytes) : List View → Option Nat
  | [] => some 0
  | v :: vs => (lenMsgS P lenB ind buf v).bind fun k => (lenMsgsS P lenB ind buf vs).map fun l => k + (if vs.isEmpty then 0 else 2) + l

/-- `osc_bundle_s_nformat` (`osc_bundle_s.c` lines 627-661) with a NULL buffer. -/
def lenBundleS (P : Printf) : Nat → Nat → Int → Bytes → Option Nat
  | 0, _, _, _ => none
  | f + 1, ind, len, buf => (getMsgCount len (some buf)).bind fun c =>
    if c.1 ≠ 0 ∨ c.2 = 0 then some 0 else (iterate len buf).bind (lenMsgsS P (lenBundleS P f) ind buf)

/-- `osc_atom_s_nformat` (`osc_atom_s.c` lines 1034-1059) and `osc_bundle_s_nformatNestedBndl` (`osc_bundle_s.c` lines 663-684) with a buffer. -/
def putAtomS (P : Printf) (putB : Nat → Int → Bytes → Writer) (ind : Nat) (buf : Bytes) (a : AtomS) : Writer := fun b n =>
  if a.tag = 46 then
    (rd32 buf a.ptr).bind fun len =>
      andThen (andThen (snprintf [123, 10]) (putB (ind + 1) len (buf.drop (a.ptr + 4)))) (snprintf ([10] ++ tabs ind ++ [125])) b n
  else if a.tag = 115 then
    (cstr buf a.ptr).bind fun s => if n < 0 then none else quotedStringWithQuotedMeta ((List.range n.toNat).map P.junk) b n.toNat s
  else getStringIntoS P buf a b n

/-- The loop of `osc_message_s_nformat` (`osc_message_s.c` lines 352-363) with a buffer. -/
def putArgsS (P : Printf) (putB : Nat → Int → Bytes → Writer) (ind : Nat) (buf : Bytes) : List AtomS → Writer
  | [] => noText
  | a :: as =>
    andThen (andThen (putAtomS P putB ind buf a) (if as.isEmpty then noText else snprintf [44, 32])) (putArgsS P putB ind buf as)

/-- `osc_message_s_nformat` (`osc_message_s.c` lines 302-370) with a buffer. -/
def putMsgS (P : Printf) (putB : Nat → Int → Bytes → Writer) (ind : Nat) (buf : Bytes) (v : View) : Writer := fun b n =>
  (MsgS.argCount buf v).bind fun argc => (cstr buf v.address).bind fun addr => (MsgS.iterate buf ⟨v, none⟩).bind fun as =>
    andThen (andThen (snprintf (msgHeadS ind addr argc)) (putArgsS P putB ind buf as)) (if argc > 1 then snprintf [93] else noText) b n

/-- The loop of `osc_bundle_s_nformat` (`osc_bundle_s.c` lines 651-657) with a buffer. -/
def putMsgsS (P : Printf) (putB : Nat → Int → Bytes → Writer) (ind : Nat) (buf : Bytes) : List View → Writer
  | [] => noText
  | v :: vs =>
    andThen (andThen (putMsgS P putB ind buf v) (if vs.isEmpty then noText else snprintf [44, 10])) (putMsgsS P putB ind buf vs)

/-- `osc_bundle_s_nformat` (`osc_bundle_s.c` lines 627-661) with a buffer. -/
def putBundleS (P : Printf) : Nat → Nat → Int → Bytes → Writer
  | 0, _, _, _ => fun _ _ => none
  | f + 1, ind, len, buf => fun b n => (getMsgCount len (some buf)).bind fun c =>
    if c.1 ≠ 0 ∨ c.2 = 0 then some (0, b) else (iterate len buf).bind fun vs => putMsgsS P (putBundleS P f) ind buf vs b n

/-- `osc_bundle_s_getFormattedSize` (`osc_bundle_s.c` lines 606-609). -/
def formattedSizeS (P : Printf) (len : Int) (buf : Bytes) : Option Nat := lenBundleS P (buf.length + 1) 0 len buf

/-- `osc_bundle_s_nformat` (`osc_bundle_s.c` lines 627-661) as called by users, with a buffer and without indentation. -/
def nformatS (P : Printf) (len : Int) (buf : Bytes) : Writer := putBundleS P (buf.length + 1) 0 len buf

/-- `osc_bundle_s_format` (`osc_bundle_s.c` lines 611-620): the contents of the allocated block. -/
def formatS (P : Printf) (len : Int) (buf : Bytes) : Option Bytes :=
  (formattedSizeS P len buf).bind fun k => (nformatS P len buf ((List.range (k + 1)).map P.junk) (k + 1 : Nat)).map (·.2)

end Libo.Text
