/-!
# Bytes, memory reads and padding

Common vocabulary of the model.  A C buffer is a list of bytes together with an offset.  Reads outside the
list are undefined behaviour in C; the model returns `none` for them ("UB").
-/

namespace Libo

/-- A block of memory. -/
abbrev Bytes := List UInt8

/-- One byte read `buf[i]`; `none` is an out-of-bounds access. -/
def rd8 (buf : Bytes) (i : Nat) : Option UInt8 := buf[i]?

/-- Most-significant-first encoding of the low 32 bits of `n`
(`hton32` followed by a 4-byte store on a little-endian host; `/repo/osc_byteorder.h` lines 36-40, 76).
`Verif/ByteOrder.lean` proves that the macro does this. -/
def be32 (n : Nat) : Bytes :=
  [UInt8.ofNat (n / 16777216), UInt8.ofNat (n / 65536), UInt8.ofNat (n / 256), UInt8.ofNat n]

/-- A 4-byte load followed by `ntoh32`, as an unsigned number (`/repo/osc_byteorder.h` lines 36-40, 77). -/
def rd32 (buf : Bytes) (i : Nat) : Option Nat := do
  let a ← rd8 buf i
  let b ← rd8 buf (i + 1)
  let c ← rd8 buf (i + 2)
  let d ← rd8 buf (i + 3)
  return a.toNat * 16777216 + b.toNat * 65536 + c.toNat * 256 + d.toNat

/-- Conversion of an unsigned 32-bit number to `int32_t` (two's complement). -/
def toI32 (n : Nat) : Int := if n < 2147483648 then (n : Int) else (n : Int) - 4294967296

/-- `strlen(buf + i)`: the number of bytes before the first NUL at or after `i`; UB when there is none
inside the block. -/
def cstrlen (buf : Bytes) (i : Nat) : Option Nat :=
  let s := buf.drop i
  let n := (s.takeWhile (· != 0)).length
  if n < s.length then some n else none

/-- The C string at `buf + i` (without its NUL). -/
def cstr (buf : Bytes) (i : Nat) : Option Bytes := do
  let n ← cstrlen buf i
  return (buf.drop i).take n

/-- `osc_util_getPaddingForNBytes` (`/repo/osc_util.c` lines 53-56): `(n + 4) & 0xfffffffc` on a 64-bit `size_t`. -/
def padN (n : Nat) : Nat := (n + 4) &&& 0xfffffffc

/-- `osc_util_getPaddedStringLen` (`/repo/osc_util.c` lines 43-51) for a non-NULL string of length `n`. -/
def padStrLen (n : Nat) : Nat := (n + 4) &&& 0xfffffffc

/-- `osc_util_getBlobLength` (`/repo/osc_util.c` lines 58-65). -/
def blobLen (n : Nat) : Nat :=
  let len := 4 + n
  if len % 4 != 0 then len + (4 - len % 4) else len

/-- `n` zero bytes. -/
def zeros (n : Nat) : Bytes := List.replicate n 0

/-- A C string as stored on the wire: the bytes, a NUL and further NULs up to a multiple of four. -/
def padStr (s : Bytes) : Bytes := s ++ zeros (padN s.length - s.length)

end Libo
