import Verif.Basic
/-!
# Byte order macros and `osc_mem_encodeByteorder` / `osc_mem_decodeByteorder`

Modelled: `/repo/osc_byteorder.h` lines 28-53 and 74-86 (little-endian host), `/repo/osc_mem.c` (the table
`osc_data_lengths`, `osc_sizeof`, `osc_mem_shouldByteswap`, `osc_mem_encodeByteorder`, `osc_mem_decodeByteorder`).
-/

namespace Libo

/-- `OSC_BYTE_SWAP16`, `osc_byteorder.h` lines 32-34. -/
def swap16 (x : UInt16) : UInt16 := ((x &&& 0xff00) >>> 8) ||| ((x &&& 0x00ff) <<< 8)

/-- `OSC_BYTE_SWAP32`, `osc_byteorder.h` lines 36-40. -/
def swap32 (x : UInt32) : UInt32 :=
  ((x &&& 0xff000000) >>> 24) ||| ((x &&& 0x00ff0000) >>> 8) ||| ((x &&& 0x0000ff00) <<< 8) ||| ((x &&& 0x000000ff) <<< 24)

/-- `OSC_BYTE_SWAP64`, `osc_byteorder.h` lines 42-50. -/
def swap64 (x : UInt64) : UInt64 :=
  ((x &&& 0xff00000000000000) >>> 56) ||| ((x &&& 0x00ff000000000000) >>> 40) |||
  ((x &&& 0x0000ff0000000000) >>> 24) ||| ((x &&& 0x000000ff00000000) >>> 8) |||
  ((x &&& 0x00000000ff000000) <<< 8) ||| ((x &&& 0x0000000000ff0000) <<< 24) |||
  ((x &&& 0x000000000000ff00) <<< 40) ||| ((x &&& 0x00000000000000ff) <<< 56)

/-- `OSC_BYTE_SWAP128`, `osc_byteorder.h` lines 52-53: the pair `(l1, l2)`. -/
def swap128 (x : UInt64 × UInt64) : UInt64 × UInt64 := (swap64 x.2, swap64 x.1)

/-- A store of a 16 bit number on a little-endian host. -/
def st16 (x : UInt16) : Bytes := [x.toUInt8, (x >>> 8).toUInt8]
/-- A store of a 32 bit number on a little-endian host. -/
def st32 (x : UInt32) : Bytes := [x.toUInt8, (x >>> 8).toUInt8, (x >>> 16).toUInt8, (x >>> 24).toUInt8]
/-- A store of a 64 bit number on a little-endian host. -/
def st64 (x : UInt64) : Bytes :=
  [x.toUInt8, (x >>> 8).toUInt8, (x >>> 16).toUInt8, (x >>> 24).toUInt8,
   (x >>> 32).toUInt8, (x >>> 40).toUInt8, (x >>> 48).toUInt8, (x >>> 56).toUInt8]
/-- A store of the struct `uint128_t` (members in memory order). -/
def st128 (x : UInt64 × UInt64) : Bytes := st64 x.1 ++ st64 x.2

/-- A 16 bit load on a little-endian host; `none` is a read outside the block. -/
def ld16 (b : Bytes) (i : Nat) : Option UInt16 := do
  let a0 ← rd8 b i; let a1 ← rd8 b (i + 1)
  return a0.toUInt16 ||| (a1.toUInt16 <<< 8)
/-- A 32 bit load on a little-endian host. -/
def ld32 (b : Bytes) (i : Nat) : Option UInt32 := do
  let a0 ← rd8 b i; let a1 ← rd8 b (i + 1); let a2 ← rd8 b (i + 2); let a3 ← rd8 b (i + 3)
  return a0.toUInt32 ||| (a1.toUInt32 <<< 8) ||| (a2.toUInt32 <<< 16) ||| (a3.toUInt32 <<< 24)
/-- A 64 bit load on a little-endian host. -/
def ld64 (b : Bytes) (i : Nat) : Option UInt64 := do
  let lo ← ld32 b i; let hi ← ld32 b (i + 4)
  return lo.toUInt64 ||| (hi.toUInt64 <<< 32)
/-- A load of the struct `uint128_t`. -/
def ld128 (b : Bytes) (i : Nat) : Option (UInt64 × UInt64) := do
  let x ← ld64 b i; let y ← ld64 b (i + 8)
  return (x, y)

/-- `(size_t)-1`. -/
def SIZE_MAX : Nat := 18446744073709551615

/-- `osc_data_lengths`, `osc_mem.c` lines 76-205, as the `size_t` it is converted to (`-1` becomes `SIZE_MAX`). -/
def dataLength (t : UInt8) : Nat :=
  if t = 65 then 3 else if t = 67 then 4 else if t = 70 then 0 else if t = 72 then 8 else if t = 73 then 4
  else if t = 74 then 16 else if t = 78 then 0 else if t = 83 then 8 else if t = 84 then 0 else if t = 85 then 4
  else if t = 98 then 8 else if t = 99 then 4 else if t = 100 then 8 else if t = 102 then 4 else if t = 104 then 8
  else if t = 105 then 4 else if t = 106 then 16 else if t = 109 then 4 else if t = 114 then 4 else if t = 115 then 8
  else if t = 117 then 4 else SIZE_MAX

/-- `osc_sizeof`, `osc_mem.c` lines 207-227, for data at offset `i` of a block. -/
def oscSizeof (t : UInt8) (data : Option (Bytes × Nat)) : Option Nat :=
  if t > 127 then some SIZE_MAX
  else match data with
  | none => some SIZE_MAX
  | some (buf, i) =>
    if t = 98 then (rd32 buf i).map blobLen
    else if t = 115 ∨ t = 83 then (cstrlen buf i).map padStrLen
    else if t = 46 then (rd32 buf i).map fun n => (n + 4) % 4294967296
    else if t = 116 then some 8
    else some (dataLength t)

/-- `osc_mem_shouldByteswap`, `osc_mem.c` lines 229-254. -/
def shouldByteswap (t : UInt8) : Bool :=
  t ∈ ([99, 117, 97, 105, 104, 106, 67, 85, 65, 73, 72, 74, 101, 102, 100, 113] : List UInt8)

/-- `osc_mem_encodeByteorder`, `osc_mem.c` lines 256-282: the bytes written to `*out`.  For a size other than 2, 4, 8 or 16
the temporary array is copied without having been written; the model calls that UB. -/
def encodeByteorder (t : UInt8) (data : Bytes) : Option Bytes := do
  let size ← oscSizeof t (some (data, 0))
  if !shouldByteswap t then
    if size ≤ data.length then return data.take size else none
  else if size = 2 then return st16 (swap16 (← ld16 data 0))
  else if size = 4 then return st32 (swap32 (← ld32 data 0))
  else if size = 8 then return st64 (swap64 (← ld64 data 0))
  else if size = 16 then return st128 (swap128 (← ld128 data 0))
  else none

/-- `osc_mem_decodeByteorder`, `osc_mem.c` lines 284-310: the same operations with `ntoh` in place of `hton`. -/
def decodeByteorder (t : UInt8) (data : Bytes) : Option Bytes := do
  let size ← oscSizeof t (some (data, 0))
  if !shouldByteswap t then
    if size ≤ data.length then return data.take size else none
  else if size = 2 then return st16 (swap16 (← ld16 data 0))
  else if size = 4 then return st32 (swap32 (← ld32 data 0))
  else if size = 8 then return st64 (swap64 (← ld64 data 0))
  else if size = 16 then return st128 (swap128 (← ld128 data 0))
  else none

end Libo
