import Verif.ByteOrderLemmas
/-!
# Properties C07 (padding) and C08 (byte order)
-/

namespace Libo.Props
open Libo

/-! ## C07 -/

/-- `m` is the smallest number satisfying `P`. -/
def Smallest (P : Nat → Prop) (m : Nat) : Prop := P m ∧ ∀ k, P k → m ≤ k

/-- **C07 (strings).**  The padded length of a string is the smallest multiple of 4 strictly larger than its length (for
strings below 4 GiB: the mask has 32 bits). -/
theorem C07_string (n : Nat) (h : n < 4294967292) :
    Smallest (fun m => 4 ∣ m ∧ n < m) (padStrLen n) ∧ Smallest (fun m => 4 ∣ m ∧ n < m) (padN n) := by
  rw [padStrLen_eq n (by omega), padN_eq n (by omega)]
  refine ⟨⟨⟨by omega, by omega⟩, ?_⟩, ⟨⟨by omega, by omega⟩, ?_⟩⟩
  all_goals
    rintro k ⟨⟨q, rfl⟩, hk⟩
    omega

/-- **C07 (blobs).**  The padded length of a blob is the smallest multiple of 4 not smaller than size field plus contents. -/
theorem C07_blob (n : Nat) : Smallest (fun m => 4 ∣ m ∧ 4 + n ≤ m) (blobLen n) := by
  rw [blobLen_eq]
  refine ⟨⟨by omega, by omega⟩, ?_⟩
  rintro k ⟨⟨q, rfl⟩, hk⟩
  omega

/-- **C07 (contents).**  A padded string is the string, at least one and at most four NULs, and reads back as the string. -/
theorem C07_contents (s rest : Bytes) (h0 : (0 : UInt8) ∉ s) (h : s.length < 4294967292) :
    ∃ k, 1 ≤ k ∧ k ≤ 4 ∧ padStr s = s ++ List.replicate k 0 ∧ 4 ∣ (padStr s).length ∧ cstr (padStr s ++ rest) 0 = some s := by
  have e := padN_eq s.length (by omega)
  refine ⟨padN s.length - s.length, by omega, by omega, rfl, ?_, cstr_padStr s rest h0 (by omega)⟩
  rw [length_padStr s (by omega), e]
  omega

/-- The bound in `C07_string` is needed: the mask truncates lengths from 4 GiB on. -/
theorem C07_string_4GiB : padStrLen 4294967292 = 0 := by decide

example : Smallest (fun m => 4 ∣ m ∧ 5 < m) 8 := (C07_string 5 (by omega)).1
example : Smallest (fun m => 4 ∣ m ∧ 8 < m) 12 := (C07_string 8 (by omega)).1
example : Smallest (fun m => 4 ∣ m ∧ 4 + 4 ≤ m) 8 := C07_blob 4

/-! ## C08 -/

/-- The `k` bytes of a number, most significant first. -/
def msbFirst : Nat → Nat → Bytes
  | 0, _ => []
  | k + 1, n => UInt8.ofNat (n / 256 ^ k) :: msbFirst k n

/-- The number a 128 bit memory block holds on a little-endian host. -/
def num128 (x : UInt64 × UInt64) : Nat := x.1.toNat + x.2.toNat * 2 ^ 64

/-- **C08 (round trip).**  Converting to network order and back is the identity. -/
theorem C08_roundtrip : (∀ x, swap16 (swap16 x) = x) ∧ (∀ x, swap32 (swap32 x) = x) ∧ (∀ x, swap64 (swap64 x) = x) ∧
    (∀ x, swap128 (swap128 x) = x) := by
  refine ⟨swap16_swap16, swap32_swap32, swap64_swap64, ?_⟩
  intro x
  simp [swap128, swap64_swap64]

theorem msb_ofNat_mod (n m : Nat) (h : 256 ∣ m) : UInt8.ofNat (n % m) = UInt8.ofNat n := by
  apply UInt8.toNat_inj.mp
  simp [Nat.mod_mod_of_dvd n h]

/-- **C08 (wire).**  The bytes stored after conversion are the number, most significant byte first. -/
theorem C08_wire : (∀ x, st16 (swap16 x) = msbFirst 2 x.toNat) ∧ (∀ x, st32 (swap32 x) = msbFirst 4 x.toNat) ∧
    (∀ x, st64 (swap64 x) = msbFirst 8 x.toNat) ∧ (∀ x, st128 (swap128 x) = msbFirst 16 (num128 x)) := by
  have h64 : ∀ x : UInt64, (st64 x).reverse = msbFirst 8 x.toNat := by
    intro x
    rw [st64_reverse]
    simp [msbFirst, be32, Nat.div_div_eq_div_mul]
  refine ⟨?_, ?_, ?_, ?_⟩
  · intro x; rw [st16_swap, st16_reverse]; simp [msbFirst]
  · intro x; rw [st32_swap, st32_reverse]; simp [msbFirst, be32]
  · intro x; rw [st64_swap, h64]
  · rintro ⟨x, y⟩
    rw [st128_swap, st128, List.reverse_append, h64, h64]
    have hx := x.toNat_lt
    simp only [num128, msbFirst, List.cons_append, List.nil_append, List.cons.injEq, and_true]
    simp only [Nat.reducePow, Nat.div_one]
    refine ⟨?_, ?_, ?_, ?_, ?_, ?_, ?_, ?_, ?_, ?_, ?_, ?_, ?_, ?_, ?_, ?_⟩
    all_goals
      apply UInt8.toNat_inj.mp
      simp only [UInt8.toNat_ofNat']
      omega

/-- The numeric type tags with the bytes a value takes on the wire: integers of 8, 16 and 32 bits take 4, of 64 bits 8, of
128 bits 16; float 4 and double 8. -/
def numericTags : List (UInt8 × Nat) :=
  [(99, 4), (67, 4), (117, 4), (85, 4), (105, 4), (73, 4), (104, 8), (72, 8), (106, 16), (74, 16), (102, 4), (100, 8)]

/-- The other tags whose size does not depend on the value: T, F, N take nothing, a time tag 8 bytes. -/
def plainTags : List (UInt8 × Nat) := [(84, 0), (70, 0), (78, 0), (116, 8)]

/-- **C08 (sizes).**  The library's size of a value on the wire is the one its type has, whatever the value. -/
theorem C08_sizes (t : UInt8) (n : Nat) (ht : (t, n) ∈ numericTags ++ plainTags) (buf : Bytes) (i : Nat) :
    oscSizeof t (some (buf, i)) = some n := by
  simp only [numericTags, plainTags, List.cons_append, List.nil_append, List.mem_cons, List.not_mem_nil, or_false,
    Prod.mk.injEq] at ht
  rcases ht with ⟨rfl, rfl⟩ | ⟨rfl, rfl⟩ | ⟨rfl, rfl⟩ | ⟨rfl, rfl⟩ | ⟨rfl, rfl⟩ | ⟨rfl, rfl⟩ | ⟨rfl, rfl⟩ | ⟨rfl, rfl⟩ |
    ⟨rfl, rfl⟩ | ⟨rfl, rfl⟩ | ⟨rfl, rfl⟩ | ⟨rfl, rfl⟩ | ⟨rfl, rfl⟩ | ⟨rfl, rfl⟩ | ⟨rfl, rfl⟩ | ⟨rfl, rfl⟩ <;> rfl

/-- **C08 (library entry points).**  For every numeric type tag, encoding a value of its size reverses its bytes in memory
(so on a little-endian host the most significant byte comes first) and decoding gives the value back. -/
theorem C08_encode_decode (t : UInt8) (n : Nat) (ht : (t, n) ∈ numericTags) (v : Bytes) (hv : v.length = n) :
    encodeByteorder t v = some v.reverse ∧ decodeByteorder t v.reverse = some v := by
  have hs : ∀ w : Bytes, oscSizeof t (some (w, 0)) = some n := fun w => C08_sizes t n (List.mem_append_left _ ht) w 0
  have hsw : shouldByteswap t = true ∧ (n = 4 ∨ n = 8 ∨ n = 16) := by
    simp only [numericTags, List.mem_cons, List.not_mem_nil, or_false, Prod.mk.injEq] at ht
    rcases ht with ⟨rfl, rfl⟩ | ⟨rfl, rfl⟩ | ⟨rfl, rfl⟩ | ⟨rfl, rfl⟩ | ⟨rfl, rfl⟩ | ⟨rfl, rfl⟩ | ⟨rfl, rfl⟩ | ⟨rfl, rfl⟩ |
      ⟨rfl, rfl⟩ | ⟨rfl, rfl⟩ | ⟨rfl, rfl⟩ | ⟨rfl, rfl⟩ <;> decide
  obtain ⟨hsw, hc⟩ := hsw
  unfold encodeByteorder decodeByteorder
  simp only [hs, Option.bind_eq_bind, Option.bind_some, hsw, Bool.not_true, Bool.false_eq_true, if_false]
  rcases hc with h | h | h <;> rw [h] at hv <;> simp only [h, Nat.reduceEqDiff, if_false, if_true]
  · match v, hv with
    | [a, b, c, d], _ =>
      obtain ⟨x, hx⟩ := exists_st32 a b c d
      rw [← hx]
      have h1 := ld32_st32 x []
      have h2 := ld32_st32 (swap32 x) []
      rw [List.append_nil] at h1 h2
      rw [h1, ← st32_swap, h2]
      simp only [Option.bind_some, Option.pure_def, swap32_swap32, and_self]
  · obtain ⟨x, rfl⟩ := exists_st64 v hv
    have h1 := ld64_st64 x []
    have h2 := ld64_st64 (swap64 x) []
    rw [List.append_nil] at h1 h2
    rw [h1, ← st64_swap, h2]
    simp only [Option.bind_some, Option.pure_def, swap64_swap64, and_self]
  · obtain ⟨x, rfl⟩ := exists_st128 v hv
    have h1 := ld128_st128 x []
    have h2 := ld128_st128 (swap128 x) []
    rw [List.append_nil] at h1 h2
    rw [h1, ← st128_swap, h2]
    simp only [Option.bind_some, Option.pure_def, C08_roundtrip.2.2.2, and_self]

example : swap32 0x01020304 = 0x04030201 ∧ st32 (swap32 0x01020304) = [1, 2, 3, 4] := by decide
example : encodeByteorder 104 [1, 2, 3, 4, 5, 6, 7, 8] = some [8, 7, 6, 5, 4, 3, 2, 1] :=
  (C08_encode_decode 104 8 (by decide) _ rfl).1

/-- The table has no size for the 24 bit and half/quad float tags although they are listed as numbers to be swapped:
encoding them runs with a garbage size. -/
theorem C08_unsized_tags : ∀ t ∈ ([97, 65, 101, 113] : List UInt8), ∀ v, shouldByteswap t = true ∧ encodeByteorder t v = none := by
  intro t ht v
  simp only [List.mem_cons, List.not_mem_nil, or_false] at ht
  rcases ht with rfl | rfl | rfl | rfl <;> exact ⟨by decide, by rfl⟩

end Libo.Props
