import Verif.Basic
/-! Lemmas about the common vocabulary. -/

namespace Libo

theorem land_mask (m : Nat) : m &&& 0xfffffffc = m % 4294967296 - m % 4 := by
  have h1 : (0xfffffffc : Nat) = (2^30 - 1) <<< 2 := by decide
  have : m &&& 0xfffffffc = (m >>> 2 &&& (2^30 - 1)) <<< 2 := by
    apply Nat.eq_of_testBit_eq
    intro i
    rw [h1]
    simp only [Nat.testBit_and, Nat.testBit_shiftLeft, Nat.testBit_shiftRight]
    by_cases h : 2 ≤ i
    · simp [h]
    · simp [h]
  rw [this, Nat.and_two_pow_sub_one_eq_mod, Nat.shiftLeft_eq, Nat.shiftRight_eq_div_pow]
  omega

theorem padN_eq (n : Nat) (h : n + 4 < 4294967296) : padN n = n / 4 * 4 + 4 := by
  unfold padN; rw [land_mask]; omega

theorem padStrLen_eq (n : Nat) (h : n + 4 < 4294967296) : padStrLen n = n / 4 * 4 + 4 := by
  unfold padStrLen; rw [land_mask]; omega

theorem blobLen_eq (n : Nat) : blobLen n = (n + 7) / 4 * 4 := by
  unfold blobLen; simp only [bne_iff_ne]; split <;> omega

@[simp] theorem length_be32 (n : Nat) : (be32 n).length = 4 := rfl

@[simp] theorem length_zeros (n : Nat) : (zeros n).length = n := by simp [zeros]

theorem rd8_append_right (a b : Bytes) (i : Nat) : rd8 (a ++ b) (a.length + i) = rd8 b i := by
  unfold rd8
  rw [List.getElem?_append_right (by omega), Nat.add_sub_cancel_left]

theorem rd8_append_left (a b : Bytes) (i : Nat) (h : i < a.length) : rd8 (a ++ b) i = rd8 a i := by
  simp [rd8, List.getElem?_append_left h]

theorem rd32_append_right (a b : Bytes) (i : Nat) : rd32 (a ++ b) (a.length + i) = rd32 b i := by
  simp only [rd32, Nat.add_assoc, rd8_append_right]

theorem rd32_be32 (n : Nat) (rest : Bytes) : rd32 (be32 n ++ rest) 0 = some (n % 4294967296) := by
  simp [rd32, be32, rd8]
  omega

theorem rd32_lt {buf : Bytes} {i n : Nat} (h : rd32 buf i = some n) : n < 4294967296 := by
  simp only [rd32, Option.bind_eq_bind, Option.bind_eq_some_iff, Option.pure_def, Option.some.injEq] at h
  obtain ⟨a, _, b, _, c, _, d, _, rfl⟩ := h
  have := a.toNat_lt; have := b.toNat_lt; have := c.toNat_lt; have := d.toNat_lt
  omega

theorem rd32_isSome {buf : Bytes} {i : Nat} : (rd32 buf i).isSome ↔ i + 4 ≤ buf.length := by
  constructor
  · intro h
    obtain ⟨n, h⟩ := Option.isSome_iff_exists.mp h
    simp only [rd32, Option.bind_eq_bind, Option.bind_eq_some_iff] at h
    obtain ⟨a, _, b, _, c, _, d, hd, _⟩ := h
    simp only [rd8] at hd
    have := (List.getElem?_eq_some_iff.mp hd).1
    omega
  · intro h
    simp only [rd32, rd8]
    rw [List.getElem?_eq_getElem (by omega), List.getElem?_eq_getElem (by omega),
      List.getElem?_eq_getElem (by omega), List.getElem?_eq_getElem (by omega)]
    rfl

theorem takeWhile_ne_zero (s rest : Bytes) (h : (0 : UInt8) ∉ s) :
    (s ++ 0 :: rest).takeWhile (· != 0) = s := by
  induction s with
  | nil => simp
  | cons x s ih =>
    simp only [List.mem_cons, not_or] at h
    have hx : (x != 0) = true := by simp; exact fun e => h.1 e.symm
    simp [hx, ih h.2]

theorem cstrlen_eq (s rest : Bytes) (h : (0 : UInt8) ∉ s) : cstrlen (s ++ 0 :: rest) 0 = some s.length := by
  simp only [cstrlen, List.drop_zero]
  rw [takeWhile_ne_zero s rest h]
  simp

theorem cstr_eq (s rest : Bytes) (h : (0 : UInt8) ∉ s) : cstr (s ++ 0 :: rest) 0 = some s := by
  simp [cstr, cstrlen_eq s rest h]

theorem drop_append_add (a b : Bytes) (i : Nat) : (a ++ b).drop (a.length + i) = b.drop i := by
  rw [List.drop_append, List.drop_eq_nil_of_le (by omega), Nat.add_sub_cancel_left, List.nil_append]

theorem cstrlen_append_right (a b : Bytes) (i : Nat) : cstrlen (a ++ b) (a.length + i) = cstrlen b i := by
  simp only [cstrlen, drop_append_add]

theorem cstr_append_right (a b : Bytes) (i : Nat) : cstr (a ++ b) (a.length + i) = cstr b i := by
  simp only [cstr, cstrlen_append_right, drop_append_add]

theorem padN_gt (n : Nat) (h : n + 4 < 4294967296) : n < padN n := by rw [padN_eq n h]; omega

theorem length_padStr (s : Bytes) (h : s.length + 4 < 4294967296) : (padStr s).length = padN s.length := by
  have := padN_gt s.length h
  simp [padStr]; omega

theorem padStr_eq_cons (s : Bytes) (h : s.length + 4 < 4294967296) :
    ∃ k, padStr s = s ++ 0 :: zeros k := by
  have := padN_gt s.length h
  refine ⟨padN s.length - s.length - 1, ?_⟩
  unfold padStr zeros
  rw [← List.replicate_succ]
  congr 2; omega

theorem cstrlen_padStr (s rest : Bytes) (h0 : (0 : UInt8) ∉ s) (h : s.length + 4 < 4294967296) :
    cstrlen (padStr s ++ rest) 0 = some s.length := by
  obtain ⟨k, hk⟩ := padStr_eq_cons s h
  rw [hk, List.append_assoc, List.cons_append, cstrlen_eq _ _ h0]

theorem cstr_padStr (s rest : Bytes) (h0 : (0 : UInt8) ∉ s) (h : s.length + 4 < 4294967296) :
    cstr (padStr s ++ rest) 0 = some s := by
  obtain ⟨k, hk⟩ := padStr_eq_cons s h
  rw [hk, List.append_assoc, List.cons_append, cstr_eq _ _ h0]

end Libo
