import Verif.Basic
/-!
# Model of string quoting (`osc_strfmt.c`)

A C string is the list of its bytes before the NUL.  Simplification: the `int` counters and lengths are unbounded (strings
shorter than 2^30).  A buffer is a block of memory; writing outside it is undefined behaviour (`none`).
-/

namespace Libo

/-- `buf[i] = x`. -/
def wr8 (buf : Bytes) (i : Nat) (x : UInt8) : Option Bytes := if i < buf.length then some (buf.set i x) else none

/-- `OSC_STRFMT_META_CHARS` (`osc_strfmt.h` line 44). -/
def metaChars : Bytes := [34, 92]

/-- The loop of `osc_strfmt_isMeta` (`osc_strfmt.c` lines 235-244); `sizeof` of the array is its number of elements. -/
def isMetaLoop (c : UInt8) : Bytes → Bool
  | [] => false
  | m :: ms => if c = m then true else isMetaLoop c ms

/-- `osc_strfmt_isMeta` (`osc_strfmt.c` lines 235-244). -/
def isMeta (c : UInt8) : Bool := isMetaLoop c metaChars

/-- The loop of `osc_strfmt_countMeta` (`osc_strfmt.c` lines 223-233) over the remaining bytes. -/
def countMetaLoop (n : Nat) : Bytes → Nat
  | [] => n
  | c :: cs => countMetaLoop (if isMeta c then n + 1 else n) cs

/-- `osc_strfmt_countMeta` (`osc_strfmt.c` lines 223-233) for the first `len` bytes of `buf`. -/
def countMeta (len : Nat) (buf : Bytes) : Option Nat := if len ≤ buf.length then some (countMetaLoop 0 (buf.take len)) else none

/-- `if(i < n){ buf[i] = x; }` (`osc_strfmt.c` lines 168-170 and 173-175). -/
def putIf (n : Nat) (buf : Bytes) (i : Nat) (x : UInt8) : Option Bytes := if i < n then wr8 buf i x else some buf

/-- The loop of `osc_strfmt_stringWithQuotedMeta` (`osc_strfmt.c` lines 166-177) over the remaining bytes of the string. -/
def quoteMetaLoop (n : Nat) : Bytes → Bytes → Nat → Option (Bytes × Nat)
  | [], buf, i => some (buf, i)
  | c :: cs, buf, i =>
    if isMeta c then
      (putIf n buf i 92).bind fun buf => (putIf n buf (i + 1) c).bind fun buf => quoteMetaLoop n cs buf (i + 2)
    else
      (putIf n buf i c).bind fun buf => quoteMetaLoop n cs buf (i + 1)

/-- `osc_strfmt_stringWithQuotedMeta` (`osc_strfmt.c` lines 154-185) with a NULL buffer. -/
def stringWithQuotedMetaLen (str : Bytes) : Option Nat := (countMeta str.length str).map (· + str.length)

/-- `osc_strfmt_stringWithQuotedMeta` (`osc_strfmt.c` lines 154-185) with a buffer: the returned number and the buffer
afterwards.  If the text does not fit, the NUL goes to `buf[i - 1]`, wherever that is. -/
def stringWithQuotedMeta (buf : Bytes) (n : Nat) (str : Bytes) : Option (Nat × Bytes) :=
  (quoteMetaLoop n str buf 0).bind fun (buf, i) =>
    if i < n then (wr8 buf i 0).map fun buf => (i, buf)
    else if i = 0 then none
    else (wr8 buf (i - 1) 0).map fun buf => (i, buf)

/-- `snprintf(buf, n, "\"%s\"", str)` in `osc_strfmt_quotedString` (`osc_strfmt.c` lines 146-152), with a buffer. -/
def quotedString (buf : Bytes) (n : Nat) (str : Bytes) : Option (Nat × Bytes) :=
  let text := 34 :: str ++ [34]
  if n = 0 then some (text.length, buf)
  else
    let out := text.take (n - 1) ++ [0]
    if out.length ≤ buf.length then some (text.length, out ++ buf.drop out.length) else none

/-- `osc_strfmt_quotedStringWithQuotedMeta` (`osc_strfmt.c` lines 187-200) with a NULL buffer. -/
def quotedStringWithQuotedMetaLen (str : Bytes) : Option Nat := (stringWithQuotedMetaLen str).map (· + 2)

/-- `osc_strfmt_quotedStringWithQuotedMeta` (`osc_strfmt.c` lines 187-200) with a buffer.  `tmp` is the uninitialised
variable length array of `n` bytes. -/
def quotedStringWithQuotedMeta (tmp buf : Bytes) (n : Nat) (str : Bytes) : Option (Nat × Bytes) :=
  if tmp.length ≠ n ∨ n = 0 then none
  else
    (stringWithQuotedMeta tmp n str).bind fun (nn, tmp) =>
      (cstr tmp 0).bind fun s =>
        (quotedString buf n s).map fun (_, buf) => (nn + 2, buf)

/-- The loop of `osc_strfmt_addQuotesAndQuoteMeta` (`osc_strfmt.c` lines 262-268). -/
def addMetaLoop : Bytes → Bytes → Nat → Option (Bytes × Nat)
  | [], out, i => some (out, i)
  | c :: cs, out, i =>
    if isMeta c then
      (wr8 out i 92).bind fun out => (wr8 out (i + 1) c).bind fun out => addMetaLoop cs out (i + 2)
    else
      (wr8 out i c).bind fun out => addMetaLoop cs out (i + 1)

/-- The part of `osc_strfmt_addQuotesAndQuoteMeta` after the allocation (`osc_strfmt.c` lines 255-274). -/
def addQuotesInto (len : Nat) (buf : Bytes) (n : Nat) (out : Bytes) : Option (Nat × Bytes) :=
  (wr8 out 0 34).bind fun out =>
    (addMetaLoop (buf.take len) out 1).bind fun (out, i) =>
      (wr8 out i 34).bind fun out => (wr8 out (i + 1) 0).map fun out => (n, out)

/-- `osc_strfmt_addQuotesAndQuoteMeta` (`osc_strfmt.c` lines 246-275); `out` is the caller's buffer, `none` for NULL, in
which case `n` bytes with unknown contents `junk` are allocated. -/
def addQuotesAndQuoteMeta (junk : Nat → UInt8) (len : Nat) (buf : Bytes) (out : Option Bytes) : Option (Nat × Bytes) :=
  (countMeta len buf).bind fun k =>
    let n := len + 2 + k
    addQuotesInto len buf n (match out with | some o => o | none => (List.range n).map junk)

end Libo
