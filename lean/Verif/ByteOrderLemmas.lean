import Verif.ByteOrder
import Verif.BasicLemmas
/-! Bit-level lemmas about the byte order macros. -/

namespace Libo

theorem swap16_byte0 (x : UInt16) : (swap16 x).toUInt8 = (x >>> 8).toUInt8 := by
  apply UInt8.toBitVec_inj.mp
  apply BitVec.eq_of_getLsbD_eq
  intro i hi
  unfold swap16
  simp only [UInt16.toBitVec_toUInt8, UInt16.toBitVec_or, UInt16.toBitVec_and, UInt16.toBitVec_shiftLeft, UInt16.toBitVec_shiftRight]
  match i, hi with
  | 0, _ | 1, _ | 2, _ | 3, _ | 4, _ | 5, _ | 6, _ | 7, _ => simp
  | n+8, h => omega

theorem swap16_byte1 (x : UInt16) : (swap16 x >>> 8).toUInt8 = x.toUInt8 := by
  apply UInt8.toBitVec_inj.mp
  apply BitVec.eq_of_getLsbD_eq
  intro i hi
  unfold swap16
  simp only [UInt16.toBitVec_toUInt8, UInt16.toBitVec_or, UInt16.toBitVec_and, UInt16.toBitVec_shiftLeft, UInt16.toBitVec_shiftRight]
  match i, hi with
  | 0, _ | 1, _ | 2, _ | 3, _ | 4, _ | 5, _ | 6, _ | 7, _ => simp
  | n+8, h => omega

theorem swap32_byte0 (x : UInt32) : (swap32 x).toUInt8 = (x >>> 24).toUInt8 := by
  apply UInt8.toBitVec_inj.mp
  apply BitVec.eq_of_getLsbD_eq
  intro i hi
  unfold swap32
  simp only [UInt32.toBitVec_toUInt8, UInt32.toBitVec_or, UInt32.toBitVec_and, UInt32.toBitVec_shiftLeft, UInt32.toBitVec_shiftRight]
  match i, hi with
  | 0, _ | 1, _ | 2, _ | 3, _ | 4, _ | 5, _ | 6, _ | 7, _ => simp
  | n+8, h => omega

theorem swap32_byte1 (x : UInt32) : (swap32 x >>> 8).toUInt8 = (x >>> 16).toUInt8 := by
  apply UInt8.toBitVec_inj.mp
  apply BitVec.eq_of_getLsbD_eq
  intro i hi
  unfold swap32
  simp only [UInt32.toBitVec_toUInt8, UInt32.toBitVec_or, UInt32.toBitVec_and, UInt32.toBitVec_shiftLeft, UInt32.toBitVec_shiftRight]
  match i, hi with
  | 0, _ | 1, _ | 2, _ | 3, _ | 4, _ | 5, _ | 6, _ | 7, _ => simp
  | n+8, h => omega

theorem swap32_byte2 (x : UInt32) : (swap32 x >>> 16).toUInt8 = (x >>> 8).toUInt8 := by
  apply UInt8.toBitVec_inj.mp
  apply BitVec.eq_of_getLsbD_eq
  intro i hi
  unfold swap32
  simp only [UInt32.toBitVec_toUInt8, UInt32.toBitVec_or, UInt32.toBitVec_and, UInt32.toBitVec_shiftLeft, UInt32.toBitVec_shiftRight]
  match i, hi with
  | 0, _ | 1, _ | 2, _ | 3, _ | 4, _ | 5, _ | 6, _ | 7, _ => simp
  | n+8, h => omega

theorem swap32_byte3 (x : UInt32) : (swap32 x >>> 24).toUInt8 = x.toUInt8 := by
  apply UInt8.toBitVec_inj.mp
  apply BitVec.eq_of_getLsbD_eq
  intro i hi
  unfold swap32
  simp only [UInt32.toBitVec_toUInt8, UInt32.toBitVec_or, UInt32.toBitVec_and, UInt32.toBitVec_shiftLeft, UInt32.toBitVec_shiftRight]
  match i, hi with
  | 0, _ | 1, _ | 2, _ | 3, _ | 4, _ | 5, _ | 6, _ | 7, _ => simp
  | n+8, h => omega

theorem swap64_byte0 (x : UInt64) : (swap64 x).toUInt8 = (x >>> 56).toUInt8 := by
  apply UInt8.toBitVec_inj.mp
  apply BitVec.eq_of_getLsbD_eq
  intro i hi
  unfold swap64
  simp only [UInt64.toBitVec_toUInt8, UInt64.toBitVec_or, UInt64.toBitVec_and, UInt64.toBitVec_shiftLeft, UInt64.toBitVec_shiftRight]
  match i, hi with
  | 0, _ | 1, _ | 2, _ | 3, _ | 4, _ | 5, _ | 6, _ | 7, _ => simp
  | n+8, h => omega

theorem swap64_byte1 (x : UInt64) : (swap64 x >>> 8).toUInt8 = (x >>> 48).toUInt8 := by
  apply UInt8.toBitVec_inj.mp
  apply BitVec.eq_of_getLsbD_eq
  intro i hi
  unfold swap64
  simp only [UInt64.toBitVec_toUInt8, UInt64.toBitVec_or, UInt64.toBitVec_and, UInt64.toBitVec_shiftLeft, UInt64.toBitVec_shiftRight]
  match i, hi with
  | 0, _ | 1, _ | 2, _ | 3, _ | 4, _ | 5, _ | 6, _ | 7, _ => simp
  | n+8, h => omega

theorem swap64_byte2 (x : UInt64) : (swap64 x >>> 16).toUInt8 = (x >>> 40).toUInt8 := by
  apply UInt8.toBitVec_inj.mp
  apply BitVec.eq_of_getLsbD_eq
  intro i hi
  unfold swap64
  simp only [UInt64.toBitVec_toUInt8, UInt64.toBitVec_or, UInt64.toBitVec_and, UInt64.toBitVec_shiftLeft, UInt64.toBitVec_shiftRight]
  match i, hi with
  | 0, _ | 1, _ | 2, _ | 3, _ | 4, _ | 5, _ | 6, _ | 7, _ => simp
  | n+8, h => omega

theorem swap64_byte3 (x : UInt64) : (swap64 x >>> 24).toUInt8 = (x >>> 32).toUInt8 := by
  apply UInt8.toBitVec_inj.mp
  apply BitVec.eq_of_getLsbD_eq
  intro i hi
  unfold swap64
  simp only [UInt64.toBitVec_toUInt8, UInt64.toBitVec_or, UInt64.toBitVec_and, UInt64.toBitVec_shiftLeft, UInt64.toBitVec_shiftRight]
  match i, hi with
  | 0, _ | 1, _ | 2, _ | 3, _ | 4, _ | 5, _ | 6, _ | 7, _ => simp
  | n+8, h => omega

theorem swap64_byte4 (x : UInt64) : (swap64 x >>> 32).toUInt8 = (x >>> 24).toUInt8 := by
  apply UInt8.toBitVec_inj.mp
  apply BitVec.eq_of_getLsbD_eq
  intro i hi
  unfold swap64
  simp only [UInt64.toBitVec_toUInt8, UInt64.toBitVec_or, UInt64.toBitVec_and, UInt64.toBitVec_shiftLeft, UInt64.toBitVec_shiftRight]
  match i, hi with
  | 0, _ | 1, _ | 2, _ | 3, _ | 4, _ | 5, _ | 6, _ | 7, _ => simp
  | n+8, h => omega

theorem swap64_byte5 (x : UInt64) : (swap64 x >>> 40).toUInt8 = (x >>> 16).toUInt8 := by
  apply UInt8.toBitVec_inj.mp
  apply BitVec.eq_of_getLsbD_eq
  intro i hi
  unfold swap64
  simp only [UInt64.toBitVec_toUInt8, UInt64.toBitVec_or, UInt64.toBitVec_and, UInt64.toBitVec_shiftLeft, UInt64.toBitVec_shiftRight]
  match i, hi with
  | 0, _ | 1, _ | 2, _ | 3, _ | 4, _ | 5, _ | 6, _ | 7, _ => simp
  | n+8, h => omega

theorem swap64_byte6 (x : UInt64) : (swap64 x >>> 48).toUInt8 = (x >>> 8).toUInt8 := by
  apply UInt8.toBitVec_inj.mp
  apply BitVec.eq_of_getLsbD_eq
  intro i hi
  unfold swap64
  simp only [UInt64.toBitVec_toUInt8, UInt64.toBitVec_or, UInt64.toBitVec_and, UInt64.toBitVec_shiftLeft, UInt64.toBitVec_shiftRight]
  match i, hi with
  | 0, _ | 1, _ | 2, _ | 3, _ | 4, _ | 5, _ | 6, _ | 7, _ => simp
  | n+8, h => omega

theorem swap64_byte7 (x : UInt64) : (swap64 x >>> 56).toUInt8 = x.toUInt8 := by
  apply UInt8.toBitVec_inj.mp
  apply BitVec.eq_of_getLsbD_eq
  intro i hi
  unfold swap64
  simp only [UInt64.toBitVec_toUInt8, UInt64.toBitVec_or, UInt64.toBitVec_and, UInt64.toBitVec_shiftLeft, UInt64.toBitVec_shiftRight]
  match i, hi with
  | 0, _ | 1, _ | 2, _ | 3, _ | 4, _ | 5, _ | 6, _ | 7, _ => simp
  | n+8, h => omega

/-- Swapping reverses the bytes in memory. -/
theorem st16_swap (x : UInt16) : st16 (swap16 x) = (st16 x).reverse := by
  simp only [st16, swap16_byte0, swap16_byte1]; rfl
theorem st32_swap (x : UInt32) : st32 (swap32 x) = (st32 x).reverse := by
  simp only [st32, swap32_byte0, swap32_byte1, swap32_byte2, swap32_byte3]; rfl
theorem st64_swap (x : UInt64) : st64 (swap64 x) = (st64 x).reverse := by
  simp only [st64, swap64_byte0, swap64_byte1, swap64_byte2, swap64_byte3, swap64_byte4, swap64_byte5, swap64_byte6,
    swap64_byte7]; rfl

theorem join16 (x : UInt16) : x.toUInt8.toUInt16 ||| ((x >>> 8).toUInt8.toUInt16 <<< 8) = x := by
  apply UInt16.toBitVec_inj.mp
  apply BitVec.eq_of_getLsbD_eq
  intro i hi
  skip
  simp only [UInt16.toBitVec_toUInt8, UInt16.toBitVec_or, UInt16.toBitVec_and, UInt16.toBitVec_shiftLeft, UInt16.toBitVec_shiftRight, UInt8.toBitVec_toUInt16]
  match i, hi with
  | 0, _ | 1, _ | 2, _ | 3, _ | 4, _ | 5, _ | 6, _ | 7, _ | 8, _ | 9, _ | 10, _ | 11, _ | 12, _ | 13, _ | 14, _ | 15, _ => simp
  | n+16, h => omega

theorem join32 (x : UInt32) : x.toUInt8.toUInt32 ||| ((x >>> 8).toUInt8.toUInt32 <<< 8) ||| ((x >>> 16).toUInt8.toUInt32 <<< 16) |||
    ((x >>> 24).toUInt8.toUInt32 <<< 24) = x := by
  apply UInt32.toBitVec_inj.mp
  apply BitVec.eq_of_getLsbD_eq
  intro i hi
  skip
  simp only [UInt32.toBitVec_toUInt8, UInt32.toBitVec_or, UInt32.toBitVec_and, UInt32.toBitVec_shiftLeft, UInt32.toBitVec_shiftRight, UInt8.toBitVec_toUInt32]
  match i, hi with
  | 0, _ | 1, _ | 2, _ | 3, _ | 4, _ | 5, _ | 6, _ | 7, _ | 8, _ | 9, _ | 10, _ | 11, _ | 12, _ | 13, _ | 14, _ | 15, _ | 16, _ | 17, _ | 18, _ | 19, _ | 20, _ | 21, _ | 22, _ | 23, _ | 24, _ | 25, _ | 26, _ | 27, _ | 28, _ | 29, _ | 30, _ | 31, _ => simp
  | n+32, h => omega

theorem join64 (x : UInt64) : x.toUInt32.toUInt64 ||| ((x >>> 32).toUInt32.toUInt64 <<< 32) = x := by
  apply UInt64.toBitVec_inj.mp
  apply BitVec.eq_of_getLsbD_eq
  intro i hi
  skip
  simp only [UInt64.toBitVec_toUInt8, UInt64.toBitVec_or, UInt64.toBitVec_and, UInt64.toBitVec_shiftLeft, UInt64.toBitVec_shiftRight, UInt32.toBitVec_toUInt64, UInt64.toBitVec_toUInt32]
  match i, hi with
  | 0, _ | 1, _ | 2, _ | 3, _ | 4, _ | 5, _ | 6, _ | 7, _ | 8, _ | 9, _ | 10, _ | 11, _ | 12, _ | 13, _ | 14, _ | 15, _ | 16, _ | 17, _ | 18, _ | 19, _ | 20, _ | 21, _ | 22, _ | 23, _ | 24, _ | 25, _ | 26, _ | 27, _ | 28, _ | 29, _ | 30, _ | 31, _ | 32, _ | 33, _ | 34, _ | 35, _ | 36, _ | 37, _ | 38, _ | 39, _ | 40, _ | 41, _ | 42, _ | 43, _ | 44, _ | 45, _ | 46, _ | 47, _ | 48, _ | 49, _ | 50, _ | 51, _ | 52, _ | 53, _ | 54, _ | 55, _ | 56, _ | 57, _ | 58, _ | 59, _ | 60, _ | 61, _ | 62, _ | 63, _ => simp
  | n+64, h => omega

theorem hi0 (x : UInt64) : (x >>> 32).toUInt32.toUInt8 = (x >>> 32).toUInt8 := by
  apply UInt8.toBitVec_inj.mp
  apply BitVec.eq_of_getLsbD_eq
  intro i hi
  skip
  simp only [UInt64.toBitVec_toUInt8, UInt64.toBitVec_or, UInt64.toBitVec_and, UInt64.toBitVec_shiftLeft, UInt64.toBitVec_shiftRight, UInt32.toBitVec_toUInt8, UInt32.toBitVec_or, UInt32.toBitVec_and, UInt32.toBitVec_shiftLeft, UInt32.toBitVec_shiftRight, UInt64.toBitVec_toUInt32]
  match i, hi with
  | 0, _ | 1, _ | 2, _ | 3, _ | 4, _ | 5, _ | 6, _ | 7, _ => simp
  | n+8, h => omega

theorem lo1 (x : UInt64) : (x.toUInt32 >>> 8).toUInt8 = (x >>> 8).toUInt8 := by
  apply UInt8.toBitVec_inj.mp
  apply BitVec.eq_of_getLsbD_eq
  intro i hi
  skip
  simp only [UInt64.toBitVec_toUInt8, UInt64.toBitVec_or, UInt64.toBitVec_and, UInt64.toBitVec_shiftLeft, UInt64.toBitVec_shiftRight, UInt32.toBitVec_toUInt8, UInt32.toBitVec_or, UInt32.toBitVec_and, UInt32.toBitVec_shiftLeft, UInt32.toBitVec_shiftRight, UInt64.toBitVec_toUInt32]
  match i, hi with
  | 0, _ | 1, _ | 2, _ | 3, _ | 4, _ | 5, _ | 6, _ | 7, _ => simp
  | n+8, h => omega

theorem hi1 (x : UInt64) : ((x >>> 32).toUInt32 >>> 8).toUInt8 = (x >>> 40).toUInt8 := by
  apply UInt8.toBitVec_inj.mp
  apply BitVec.eq_of_getLsbD_eq
  intro i hi
  skip
  simp only [UInt64.toBitVec_toUInt8, UInt64.toBitVec_or, UInt64.toBitVec_and, UInt64.toBitVec_shiftLeft, UInt64.toBitVec_shiftRight, UInt32.toBitVec_toUInt8, UInt32.toBitVec_or, UInt32.toBitVec_and, UInt32.toBitVec_shiftLeft, UInt32.toBitVec_shiftRight, UInt64.toBitVec_toUInt32]
  match i, hi with
  | 0, _ | 1, _ | 2, _ | 3, _ | 4, _ | 5, _ | 6, _ | 7, _ => simp
  | n+8, h => omega

theorem lo2 (x : UInt64) : (x.toUInt32 >>> 16).toUInt8 = (x >>> 16).toUInt8 := by
  apply UInt8.toBitVec_inj.mp
  apply BitVec.eq_of_getLsbD_eq
  intro i hi
  skip
  simp only [UInt64.toBitVec_toUInt8, UInt64.toBitVec_or, UInt64.toBitVec_and, UInt64.toBitVec_shiftLeft, UInt64.toBitVec_shiftRight, UInt32.toBitVec_toUInt8, UInt32.toBitVec_or, UInt32.toBitVec_and, UInt32.toBitVec_shiftLeft, UInt32.toBitVec_shiftRight, UInt64.toBitVec_toUInt32]
  match i, hi with
  | 0, _ | 1, _ | 2, _ | 3, _ | 4, _ | 5, _ | 6, _ | 7, _ => simp
  | n+8, h => omega

theorem hi2 (x : UInt64) : ((x >>> 32).toUInt32 >>> 16).toUInt8 = (x >>> 48).toUInt8 := by
  apply UInt8.toBitVec_inj.mp
  apply BitVec.eq_of_getLsbD_eq
  intro i hi
  skip
  simp only [UInt64.toBitVec_toUInt8, UInt64.toBitVec_or, UInt64.toBitVec_and, UInt64.toBitVec_shiftLeft, UInt64.toBitVec_shiftRight, UInt32.toBitVec_toUInt8, UInt32.toBitVec_or, UInt32.toBitVec_and, UInt32.toBitVec_shiftLeft, UInt32.toBitVec_shiftRight, UInt64.toBitVec_toUInt32]
  match i, hi with
  | 0, _ | 1, _ | 2, _ | 3, _ | 4, _ | 5, _ | 6, _ | 7, _ => simp
  | n+8, h => omega

theorem lo3 (x : UInt64) : (x.toUInt32 >>> 24).toUInt8 = (x >>> 24).toUInt8 := by
  apply UInt8.toBitVec_inj.mp
  apply BitVec.eq_of_getLsbD_eq
  intro i hi
  skip
  simp only [UInt64.toBitVec_toUInt8, UInt64.toBitVec_or, UInt64.toBitVec_and, UInt64.toBitVec_shiftLeft, UInt64.toBitVec_shiftRight, UInt32.toBitVec_toUInt8, UInt32.toBitVec_or, UInt32.toBitVec_and, UInt32.toBitVec_shiftLeft, UInt32.toBitVec_shiftRight, UInt64.toBitVec_toUInt32]
  match i, hi with
  | 0, _ | 1, _ | 2, _ | 3, _ | 4, _ | 5, _ | 6, _ | 7, _ => simp
  | n+8, h => omega

theorem hi3 (x : UInt64) : ((x >>> 32).toUInt32 >>> 24).toUInt8 = (x >>> 56).toUInt8 := by
  apply UInt8.toBitVec_inj.mp
  apply BitVec.eq_of_getLsbD_eq
  intro i hi
  skip
  simp only [UInt64.toBitVec_toUInt8, UInt64.toBitVec_or, UInt64.toBitVec_and, UInt64.toBitVec_shiftLeft, UInt64.toBitVec_shiftRight, UInt32.toBitVec_toUInt8, UInt32.toBitVec_or, UInt32.toBitVec_and, UInt32.toBitVec_shiftLeft, UInt32.toBitVec_shiftRight, UInt64.toBitVec_toUInt32]
  match i, hi with
  | 0, _ | 1, _ | 2, _ | 3, _ | 4, _ | 5, _ | 6, _ | 7, _ => simp
  | n+8, h => omega

theorem lo0 (x : UInt64) : x.toUInt32.toUInt8 = x.toUInt8 := by
  apply UInt8.toBitVec_inj.mp
  apply BitVec.eq_of_getLsbD_eq
  intro i hi
  skip
  simp only [UInt64.toBitVec_toUInt8, UInt64.toBitVec_or, UInt64.toBitVec_and, UInt64.toBitVec_shiftLeft, UInt64.toBitVec_shiftRight, UInt32.toBitVec_toUInt8, UInt32.toBitVec_or, UInt32.toBitVec_and, UInt32.toBitVec_shiftLeft, UInt32.toBitVec_shiftRight, UInt64.toBitVec_toUInt32]
  match i, hi with
  | 0, _ | 1, _ | 2, _ | 3, _ | 4, _ | 5, _ | 6, _ | 7, _ => simp
  | n+8, h => omega

theorem ld16_st16 (x : UInt16) (r : Bytes) : ld16 (st16 x ++ r) 0 = some x := by
  have := join16 x
  simp only [ld16, st16, rd8]
  simpa using this
theorem ld32_st32 (x : UInt32) (r : Bytes) : ld32 (st32 x ++ r) 0 = some x := by
  have := join32 x
  simp only [ld32, st32, rd8]
  simpa using this
theorem st64_halves (x : UInt64) : st64 x = st32 x.toUInt32 ++ st32 (x >>> 32).toUInt32 := by
  simp only [st64, st32, lo0, lo1, lo2, lo3, hi0, hi1, hi2, hi3]; rfl
theorem ld32_append_right (a b : Bytes) (i : Nat) : ld32 (a ++ b) (a.length + i) = ld32 b i := by
  simp only [ld32, Nat.add_assoc, rd8_append_right]
theorem ld64_append_right (a b : Bytes) (i : Nat) : ld64 (a ++ b) (a.length + i) = ld64 b i := by
  simp only [ld64, Nat.add_assoc, ld32_append_right]
@[simp] theorem length_st16 (x : UInt16) : (st16 x).length = 2 := rfl
@[simp] theorem length_st32 (x : UInt32) : (st32 x).length = 4 := rfl
@[simp] theorem length_st64 (x : UInt64) : (st64 x).length = 8 := rfl
@[simp] theorem length_st128 (x : UInt64 × UInt64) : (st128 x).length = 16 := rfl
theorem ld64_st64 (x : UInt64) (r : Bytes) : ld64 (st64 x ++ r) 0 = some x := by
  rw [ld64, st64_halves, List.append_assoc, ld32_st32]
  have h := ld32_append_right (st32 x.toUInt32) (st32 (x >>> 32).toUInt32 ++ r) 0
  rw [length_st32, Nat.add_zero] at h
  rw [show (0 + 4 : Nat) = 4 from rfl, h, ld32_st32]
  have := join64 x
  simpa using this
theorem ld128_st128 (x : UInt64 × UInt64) (r : Bytes) : ld128 (st128 x ++ r) 0 = some x := by
  rw [ld128, st128, List.append_assoc, ld64_st64]
  have h := ld64_append_right (st64 x.1) (st64 x.2 ++ r) 0
  rw [length_st64, Nat.add_zero] at h
  rw [show (0 + 8 : Nat) = 8 from rfl, h, ld64_st64]
  rfl

theorem st16_inj {x y : UInt16} (h : st16 x = st16 y) : x = y := by
  have a := ld16_st16 x []; rw [h, ld16_st16] at a; exact (Option.some.inj a).symm
theorem st32_inj {x y : UInt32} (h : st32 x = st32 y) : x = y := by
  have a := ld32_st32 x []; rw [h, ld32_st32] at a; exact (Option.some.inj a).symm
theorem st64_inj {x y : UInt64} (h : st64 x = st64 y) : x = y := by
  have a := ld64_st64 x []; rw [h, ld64_st64] at a; exact (Option.some.inj a).symm

theorem swap16_swap16 (x : UInt16) : swap16 (swap16 x) = x := st16_inj (by rw [st16_swap, st16_swap, List.reverse_reverse])
theorem swap32_swap32 (x : UInt32) : swap32 (swap32 x) = x := st32_inj (by rw [st32_swap, st32_swap, List.reverse_reverse])
theorem swap64_swap64 (x : UInt64) : swap64 (swap64 x) = x := st64_inj (by rw [st64_swap, st64_swap, List.reverse_reverse])

/-- Every four bytes are the store of some number. -/
theorem exists_st16 (a b : UInt8) : ∃ x, st16 x = [a, b] := by
  refine ⟨a.toUInt16 ||| (b.toUInt16 <<< 8), ?_⟩
  simp only [st16, List.cons.injEq, and_true]
  refine ⟨?_, ?_⟩ <;>
  · apply UInt8.toBitVec_inj.mp
    apply BitVec.eq_of_getLsbD_eq
    intro i hi
    simp only [UInt16.toBitVec_toUInt8, UInt16.toBitVec_or, UInt16.toBitVec_and, UInt16.toBitVec_shiftLeft, UInt16.toBitVec_shiftRight, UInt8.toBitVec_toUInt16]
    match i, hi with
    | 0, _ | 1, _ | 2, _ | 3, _ | 4, _ | 5, _ | 6, _ | 7, _ => simp
    | n+8, h => omega

theorem exists_st32 (a b c d : UInt8) : ∃ x, st32 x = [a, b, c, d] := by
  refine ⟨a.toUInt32 ||| (b.toUInt32 <<< 8) ||| (c.toUInt32 <<< 16) ||| (d.toUInt32 <<< 24), ?_⟩
  simp only [st32, List.cons.injEq, and_true]
  refine ⟨?_, ?_, ?_, ?_⟩ <;>
  · apply UInt8.toBitVec_inj.mp
    apply BitVec.eq_of_getLsbD_eq
    intro i hi
    simp only [UInt32.toBitVec_toUInt8, UInt32.toBitVec_or, UInt32.toBitVec_and, UInt32.toBitVec_shiftLeft, UInt32.toBitVec_shiftRight, UInt8.toBitVec_toUInt32]
    match i, hi with
    | 0, _ | 1, _ | 2, _ | 3, _ | 4, _ | 5, _ | 6, _ | 7, _ => simp
    | n+8, h => omega

/-- The bytes of a 32 bit number by division. -/
theorem st32_reverse (x : UInt32) : (st32 x).reverse = be32 x.toNat := by
  simp only [st32, be32, List.reverse_cons, List.reverse_nil, List.nil_append, List.cons_append, List.cons.injEq, and_true]
  refine ⟨?_, ?_, ?_, ?_⟩ <;> apply UInt8.toNat_inj.mp <;> simp [Nat.shiftRight_eq_div_pow]

theorem low_half (a b : UInt32) : (a.toUInt64 ||| (b.toUInt64 <<< 32)).toUInt32 = a := by
  apply UInt32.toBitVec_inj.mp
  apply BitVec.eq_of_getLsbD_eq
  intro i hi
  simp only [UInt64.toBitVec_toUInt32, UInt64.toBitVec_or, UInt64.toBitVec_shiftLeft, UInt64.toBitVec_shiftRight, UInt32.toBitVec_toUInt64]
  match i, hi with
  | 0, _ | 1, _ | 2, _ | 3, _ | 4, _ | 5, _ | 6, _ | 7, _ | 8, _ | 9, _ | 10, _ | 11, _ | 12, _ | 13, _ | 14, _ | 15, _ | 16, _ | 17, _ | 18, _ | 19, _ | 20, _ | 21, _ | 22, _ | 23, _ | 24, _ | 25, _ | 26, _ | 27, _ | 28, _ | 29, _ | 30, _ | 31, _ => simp
  | n+32, h => omega
theorem high_half (a b : UInt32) : ((a.toUInt64 ||| (b.toUInt64 <<< 32)) >>> 32).toUInt32 = b := by
  apply UInt32.toBitVec_inj.mp
  apply BitVec.eq_of_getLsbD_eq
  intro i hi
  simp only [UInt64.toBitVec_toUInt32, UInt64.toBitVec_or, UInt64.toBitVec_shiftLeft, UInt64.toBitVec_shiftRight, UInt32.toBitVec_toUInt64]
  match i, hi with
  | 0, _ | 1, _ | 2, _ | 3, _ | 4, _ | 5, _ | 6, _ | 7, _ | 8, _ | 9, _ | 10, _ | 11, _ | 12, _ | 13, _ | 14, _ | 15, _ | 16, _ | 17, _ | 18, _ | 19, _ | 20, _ | 21, _ | 22, _ | 23, _ | 24, _ | 25, _ | 26, _ | 27, _ | 28, _ | 29, _ | 30, _ | 31, _ => simp
  | n+32, h => omega
theorem exists_st64 (l : Bytes) (h : l.length = 8) : ∃ x, st64 x = l := by
  match l, h with
  | [a, b, c, d, e, f, g, i], _ =>
    obtain ⟨x, hx⟩ := exists_st32 a b c d
    obtain ⟨y, hy⟩ := exists_st32 e f g i
    exact ⟨x.toUInt64 ||| (y.toUInt64 <<< 32), by rw [st64_halves, low_half, high_half, hx, hy]; rfl⟩
theorem exists_st128 (l : Bytes) (h : l.length = 16) : ∃ x, st128 x = l := by
  obtain ⟨x, hx⟩ := exists_st64 (l.take 8) (by simp [h])
  obtain ⟨y, hy⟩ := exists_st64 (l.drop 8) (by simp [h])
  exact ⟨(x, y), by rw [st128, hx, hy, List.take_append_drop]⟩
theorem st128_swap (x : UInt64 × UInt64) : st128 (swap128 x) = (st128 x).reverse := by
  simp only [st128, swap128, st64_swap, List.reverse_append]
theorem st64_reverse (x : UInt64) : (st64 x).reverse = be32 (x.toNat / 4294967296) ++ be32 x.toNat := by
  simp only [st64, be32, List.reverse_cons, List.reverse_nil, List.nil_append, List.cons_append, List.cons.injEq, and_true]
  refine ⟨?_, ?_, ?_, ?_, ?_, ?_, ?_, ?_⟩ <;> apply UInt8.toNat_inj.mp <;> simp [Nat.shiftRight_eq_div_pow, Nat.div_div_eq_div_mul]
theorem st16_reverse (x : UInt16) : (st16 x).reverse = [UInt8.ofNat (x.toNat / 256), UInt8.ofNat x.toNat] := by
  simp only [st16, List.reverse_cons, List.reverse_nil, List.nil_append, List.cons_append, List.cons.injEq, and_true]
  refine ⟨?_, ?_⟩ <;> apply UInt8.toNat_inj.mp <;> simp [Nat.shiftRight_eq_div_pow]

end Libo
