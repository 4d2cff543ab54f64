import Verif.ValSpec
import Verif.BundleSLemmas
/-!
# Property C09 (typed values read back as stored)
-/

namespace Libo.Props
open Libo

theorem store_mod (w : W) (m : Nat) (hm : 0 < m) (v : Int) : ((w.store m v).raw : Int) % m = v % m := by
  have h1 : (w.store m v).raw = w.raw - w.raw % m + (v % m).toNat := rfl
  have h2 : w.raw - w.raw % m = m * (w.raw / m) := by
    have := Nat.div_add_mod w.raw m
    omega
  have h3 : 0 ≤ v % m := Int.emod_nonneg _ (by omega)
  rw [h1, h2, Int.natCast_add, Int.natCast_mul, Int.toNat_of_nonneg h3, Int.add_comm, Int.add_mul_emod_self_left,
    Int.emod_emod]

theorem castS_congr {m : Nat} {x y : Int} (h : x % m = y % m) : castS m x = castS m y := by simp [castS, h]
theorem castU_congr {m : Nat} {x y : Int} (h : x % m = y % m) : castU m x = castU m y := by simp [castU, h]

theorem store_c (w : W) (v : Int) : (w.store M8 v).c = castS M8 v := castS_congr (store_mod _ _ (by decide) _)
theorem store_C (w : W) (v : Int) : (w.store M8 v).C = castU M8 v := castU_congr (store_mod _ _ (by decide) _)
theorem store_u (w : W) (v : Int) : (w.store M16 v).u = castS M16 v := castS_congr (store_mod _ _ (by decide) _)
theorem store_U (w : W) (v : Int) : (w.store M16 v).U = castU M16 v := castU_congr (store_mod _ _ (by decide) _)
theorem store_i (w : W) (v : Int) : (w.store M32 v).i = castS M32 v := castS_congr (store_mod _ _ (by decide) _)
theorem store_I (w : W) (v : Int) : (w.store M32 v).I = castU M32 v := castU_congr (store_mod _ _ (by decide) _)
theorem store_h (w : W) (v : Int) : (w.store M64 v).h = castS M64 v := castS_congr (store_mod _ _ (by decide) _)
theorem store_H (w : W) (v : Int) : (w.store M64 v).H = castU M64 v := castU_congr (store_mod _ _ (by decide) _)

/-- **C09 (unserialised).**  Whatever the atom held before: after a typed setter every integer getter returns the value
converted to its type (so the getter of the same type returns the value itself, `ITy.conv_self`). -/
theorem C09_unserialised (s g : ITy) (a a' : UAtom) (v : Int) (hv : s.has v) (h : setU s a v = some a') :
    getU g a' = some (g.conv v) ∧ a'.getInt = some (ITy.i32.conv v) := by
  cases s <;>
  · simp only [setU, UAtom.setInt8, UAtom.setInt16, UAtom.setInt32, UAtom.setInt64, UAtom.setUInt8, UAtom.setUInt16,
      UAtom.setUInt32, UAtom.setUInt64] at h
    cases hc : a.clear with
    | none => simp [hc] at h
    | some c =>
      rw [hc, bnd] at h
      simp only [Option.some.injEq] at h
      subst h
      simp only [ITy.has, ITy.signed, ITy.width] at hv
      cases g <;>
      · simp [getU, UAtom.getInt8, UAtom.getInt16, UAtom.getInt32, UAtom.getInt64, UAtom.getUInt8, UAtom.getUInt16,
          UAtom.getUInt32, UAtom.getUInt64, UAtom.getInt, UAtom.tag, store_c, store_C, store_u, store_U, store_i,
          store_I, store_h, store_H] at hv ⊢
        simp only [UAtom.w, store_c, store_C, store_u, store_U, store_i, store_I, store_h, store_H]
        simp [castS, castU, ITy.conv, ITy.signed, ITy.width, Int.bmod]
        omega

theorem rd32_mid (pre post : Bytes) (n : Nat) : rd32 (pre ++ be32 n ++ post) pre.length = some (n % M32) := by
  rw [List.append_assoc]
  have := rd32_append_right pre (be32 n ++ post) 0
  rw [Nat.add_zero] at this
  rw [this, rd32_be32]

theorem rd64_mid (pre post : Bytes) (n : Nat) : rd64 (pre ++ be64 n ++ post) pre.length = some (n % M64) := by
  have h1 : rd32 (pre ++ be64 n ++ post) pre.length = some (n / M32 % M32) := by
    have e : pre ++ be64 n ++ post = pre ++ be32 (n / M32) ++ (be32 n ++ post) := by simp [be64]
    rw [e, rd32_mid]
  have h2 : rd32 (pre ++ be64 n ++ post) (pre.length + 4) = some (n % M32) := by
    have e : pre ++ be64 n ++ post = (pre ++ be32 (n / M32)) ++ be32 n ++ post := by simp [be64]
    have l : pre.length + 4 = (pre ++ be32 (n / M32)).length := by simp
    rw [e, l, rd32_mid]
  unfold rd64
  rw [h1, bnd, h2, bnd]
  congr 1
  simp only [M32, M64]
  omega

/-- What the serialised form of an integer atom is: the low 4 or 8 bytes of the word. -/
theorem ser_int (s : ITy) (a a' : UAtom) (v : Int) (h : setU s a v = some a') :
    ∃ c, a.clear = some c ∧ (
      (s = .i8 ∧ serializeAtom a' = some (99, be32 ((c.w.store M8 v).raw % M32)) ∧ a'.tag = 99) ∨
      (s = .i16 ∧ serializeAtom a' = some (117, be32 ((c.w.store M16 v).raw % M32)) ∧ a'.tag = 117) ∨
      (s = .i32 ∧ serializeAtom a' = some (105, be32 ((c.w.store M32 v).raw % M32)) ∧ a'.tag = 105) ∨
      (s = .i64 ∧ serializeAtom a' = some (104, be64 ((c.w.store M64 v).raw % M64)) ∧ a'.tag = 104) ∨
      (s = .u8 ∧ serializeAtom a' = some (67, be32 ((c.w.store M8 v).raw % M32)) ∧ a'.tag = 67) ∨
      (s = .u16 ∧ serializeAtom a' = some (85, be32 ((c.w.store M16 v).raw % M32)) ∧ a'.tag = 85) ∨
      (s = .u32 ∧ serializeAtom a' = some (73, be32 ((c.w.store M32 v).raw % M32)) ∧ a'.tag = 73) ∨
      (s = .u64 ∧ serializeAtom a' = some (72, be64 ((c.w.store M64 v).raw % M64)) ∧ a'.tag = 72)) := by
  cases s <;>
  · simp only [setU, UAtom.setInt8, UAtom.setInt16, UAtom.setInt32, UAtom.setInt64, UAtom.setUInt8, UAtom.setUInt16,
      UAtom.setUInt32, UAtom.setUInt64] at h
    cases hc : a.clear with
    | none => simp [hc] at h
    | some c =>
      rw [hc, bnd] at h
      simp only [Option.some.injEq] at h
      subst h
      refine ⟨c, rfl, ?_⟩
      simp [serializeAtom, sizeAtom, serAtom, UAtom.tag]

theorem emod_dvd {m M : Nat} (h : m ∣ M) (x : Int) : (x % M) % m = x % m :=
  Int.emod_emod_of_dvd x (Int.natCast_dvd_natCast.mpr h)

theorem castS_mod {m M : Nat} (h : m ∣ M) (x : Int) : (castS M x) % m = x % m := by
  unfold castS
  split
  · exact emod_dvd h x
  · obtain ⟨k, rfl⟩ := h
    have e : x % ((m * k : Nat) : Int) - ((m * k : Nat) : Int) = x % ((m * k : Nat) : Int) + (m : Int) * (-(k : Int)) := by
      rw [Int.natCast_mul, Int.mul_neg, Int.sub_eq_add_neg]
    rw [e, Int.add_mul_emod_self_left]
    exact emod_dvd ⟨k, rfl⟩ x

theorem castU_mod {m M : Nat} (h : m ∣ M) (x : Int) : (castU M x) % m = x % m := emod_dvd h x

theorem nat_mod {m M : Nat} (h : m ∣ M) (n : Nat) : ((n % M : Nat) : Int) % m = (n : Int) % m := by
  rw [Int.natCast_emod]; exact emod_dvd h n

theorem d8_32 : M8 ∣ M32 := by decide
theorem d16_32 : M16 ∣ M32 := by decide
theorem d8_64 : M8 ∣ M64 := by decide
theorem d16_64 : M16 ∣ M64 := by decide
theorem d32_64 : M32 ∣ M64 := by decide
theorem d8_16 : M8 ∣ M16 := by decide

theorem conv_i8 (v : Int) : ITy.i8.conv v = castS M8 v := by
  simp [castS, ITy.conv, ITy.signed, ITy.width, Int.bmod, M8]; omega
theorem conv_i16 (v : Int) : ITy.i16.conv v = castS M16 v := by
  simp [castS, ITy.conv, ITy.signed, ITy.width, Int.bmod, M16]; omega
theorem conv_i32 (v : Int) : ITy.i32.conv v = castS M32 v := by
  simp [castS, ITy.conv, ITy.signed, ITy.width, Int.bmod, M32]; omega
theorem conv_i64 (v : Int) : ITy.i64.conv v = castS M64 v := by
  simp [castS, ITy.conv, ITy.signed, ITy.width, Int.bmod, M64]; omega
theorem conv_u8 (v : Int) : ITy.u8.conv v = castU M8 v := rfl
theorem conv_u16 (v : Int) : ITy.u16.conv v = castU M16 v := rfl
theorem conv_u32 (v : Int) : ITy.u32.conv v = castU M32 v := rfl
theorem conv_u64 (v : Int) : ITy.u64.conv v = castU M64 v := rfl

/-- Each getter on a 4 byte integer type, except the two 64 bit ones, converts the low bits. -/
theorem getS_4 (g : ITy) (hg : g.width ≤ 32) (t : UInt8) (ht : t ∈ ([99, 117, 105, 67, 85, 73] : List UInt8))
    (pre post : Bytes) (n : Nat) (v : Int) (hn : (n : Int) % (2 ^ g.width : Nat) = v % (2 ^ g.width : Nat)) :
    getS g (pre ++ be32 n ++ post) ⟨t, pre.length⟩ = some (g.conv v) := by
  have h32 : AtomS.getInt32 (pre ++ be32 n ++ post) ⟨t, pre.length⟩ = some (castS M32 ((n % M32 : Nat) : Int)) ∧
      AtomS.getUInt32 (pre ++ be32 n ++ post) ⟨t, pre.length⟩ = some (castU M32 ((n % M32 : Nat) : Int)) := by
    simp only [List.mem_cons, List.not_mem_nil, or_false] at ht
    rcases ht with rfl | rfl | rfl | rfl | rfl | rfl <;>
      simp [AtomS.getInt32, AtomS.getUInt32, AtomS.sg, AtomS.un, -List.append_assoc, rd32_mid]
  cases g <;> simp only [ITy.width] at hg hn <;> try omega
  · simp only [getS, AtomS.getInt8, h32, Option.map_some, conv_i8]
    exact congrArg some (castS_congr ((castS_mod d8_32 _).trans ((nat_mod d8_32 _).trans hn)))
  · simp only [getS, AtomS.getInt16, h32, Option.map_some, conv_i16]
    exact congrArg some (castS_congr ((castS_mod d16_32 _).trans ((nat_mod d16_32 _).trans hn)))
  · simp only [getS, h32, conv_i32]
    exact congrArg some (castS_congr ((nat_mod (Nat.dvd_refl _) _).trans hn))
  · simp only [getS, AtomS.getUInt8, h32, Option.map_some, conv_u8]
    exact congrArg some (castU_congr ((castU_mod d8_32 _).trans ((nat_mod d8_32 _).trans hn)))
  · simp only [getS, AtomS.getUInt16, h32, Option.map_some, conv_u16]
    exact congrArg some (castU_congr ((castU_mod d16_32 _).trans ((nat_mod d16_32 _).trans hn)))
  · simp only [getS, h32, conv_u32]
    exact congrArg some (castU_congr ((nat_mod (Nat.dvd_refl _) _).trans hn))

/-- Every getter on an 8 byte integer type converts the low bits. -/
theorem getS_8 (g : ITy) (t : UInt8) (ht : t ∈ ([104, 72] : List UInt8)) (pre post : Bytes) (n : Nat) (v : Int)
    (hn : (n : Int) % M64 = v % M64) :
    getS g (pre ++ be64 n ++ post) ⟨t, pre.length⟩ = some (g.conv v) := by
  have red : ∀ {m : Nat}, m ∣ M64 → ((n % M64 : Nat) : Int) % m = v % m := by
    intro m hm
    rw [nat_mod hm, ← emod_dvd hm, hn, emod_dvd hm]
  have h32 : AtomS.getInt32 (pre ++ be64 n ++ post) ⟨t, pre.length⟩ = some (castS M32 ((n % M64 : Nat) : Int)) ∧
      AtomS.getUInt32 (pre ++ be64 n ++ post) ⟨t, pre.length⟩ = some (castU M32 ((n % M64 : Nat) : Int)) ∧
      AtomS.getInt64 (pre ++ be64 n ++ post) ⟨t, pre.length⟩ = some (castS M64 ((n % M64 : Nat) : Int)) ∧
      AtomS.getUInt64 (pre ++ be64 n ++ post) ⟨t, pre.length⟩ = some (castU M64 ((n % M64 : Nat) : Int)) := by
    simp only [List.mem_cons, List.not_mem_nil, or_false] at ht
    rcases ht with rfl | rfl <;>
      simp [AtomS.getInt32, AtomS.getUInt32, AtomS.getInt64, AtomS.getUInt64, AtomS.sg, AtomS.un, -List.append_assoc, rd64_mid]
  cases g
  · simp only [getS, AtomS.getInt8, h32, Option.map_some, conv_i8]
    exact congrArg some (castS_congr ((castS_mod d8_32 _).trans (red d8_64)))
  · simp only [getS, AtomS.getInt16, h32, Option.map_some, conv_i16]
    exact congrArg some (castS_congr ((castS_mod d16_32 _).trans (red d16_64)))
  · simp only [getS, h32, conv_i32]
    exact congrArg some (castS_congr (red d32_64))
  · simp only [getS, h32, conv_i64]
    exact congrArg some (castS_congr (red (Nat.dvd_refl _)))
  · simp only [getS, AtomS.getUInt8, h32, Option.map_some, conv_u8]
    exact congrArg some (castU_congr ((castU_mod d8_32 _).trans (red d8_64)))
  · simp only [getS, AtomS.getUInt16, h32, Option.map_some, conv_u16]
    exact congrArg some (castU_congr ((castU_mod d16_32 _).trans (red d16_64)))
  · simp only [getS, h32, conv_u32]
    exact congrArg some (castU_congr (red d32_64))
  · simp only [getS, h32, conv_u64]
    exact congrArg some (castU_congr (red (Nat.dvd_refl _)))

/-- The 64 bit getters on a 4 byte integer type take the bytes as an unsigned number. -/
theorem getS_64 (t : UInt8) (ht : t ∈ ([99, 117, 105, 73] : List UInt8)) (pre post : Bytes) (n : Nat) :
    getS .i64 (pre ++ be32 n ++ post) ⟨t, pre.length⟩ = some ((n % M32 : Nat) : Int) := by
  have : castS M64 ((n % M32 : Nat) : Int) = ((n % M32 : Nat) : Int) := by
    simp only [castS, M32, M64]; omega
  simp only [List.mem_cons, List.not_mem_nil, or_false] at ht
  rcases ht with rfl | rfl | rfl | rfl <;>
    simp [getS, AtomS.getInt64, AtomS.sg, -List.append_assoc, rd32_mid, -Int.natCast_emod, this]

theorem getS_U64 (t : UInt8) (ht : t ∈ ([99, 117, 105, 67, 85, 73] : List UInt8)) (pre post : Bytes) (n : Nat) :
    getS .u64 (pre ++ be32 n ++ post) ⟨t, pre.length⟩ = some ((n % M32 : Nat) : Int) := by
  have : castU M64 ((n % M32 : Nat) : Int) = ((n % M32 : Nat) : Int) := by
    simp only [castU, M32, M64]; omega
  simp only [List.mem_cons, List.not_mem_nil, or_false] at ht
  rcases ht with rfl | rfl | rfl | rfl | rfl | rfl <;>
    simp [getS, AtomS.getUInt64, AtomS.un, -List.append_assoc, rd32_mid, -Int.natCast_emod, this]

/-- Dividing moduli of a getter not wider than `k` bits. -/
theorem dvd_width (g : ITy) {k : Nat} (h : g.width ≤ k) : 2 ^ g.width ∣ 2 ^ k := Nat.pow_dvd_pow 2 h

theorem narrow_mod {g : ITy} {k r : Nat} {v : Int} (hw : g.width ≤ k) (h32 : g.width ≤ 32)
    (hm : (r : Int) % (2 ^ k : Nat) = v % (2 ^ k : Nat)) :
    ((r % M32 : Nat) : Int) % (2 ^ g.width : Nat) = v % (2 ^ g.width : Nat) := by
  rw [nat_mod (show 2 ^ g.width ∣ M32 from dvd_width g h32), ← emod_dvd (dvd_width g hw), hm, emod_dvd (dvd_width g hw)]

/-- **C09 (serialised, same or narrower type).**  Whatever the atom held before: after a typed setter the serialised form of the
atom, anywhere in a buffer, returns the value converted to the type of any getter that is not wider than the setter; in
particular the getter of the same type returns the value. -/
theorem C09_serialised_narrow (s g : ITy) (a a' : UAtom) (v : Int) (h : setU s a v = some a')
    (hw : g.width ≤ s.width) :
    ∃ d, serializeAtom a' = some (a'.tag, d) ∧ ∀ pre post, getS g (pre ++ d ++ post) ⟨a'.tag, pre.length⟩ = some (g.conv v) := by
  obtain ⟨c, -, h⟩ := ser_int s a a' v h
  have m8 := store_mod c.w M8 (by decide) v
  have m16 := store_mod c.w M16 (by decide) v
  have m32 := store_mod c.w M32 (by decide) v
  have m64 := store_mod c.w M64 (by decide) v
  rcases h with ⟨rfl, h, ht⟩ | ⟨rfl, h, ht⟩ | ⟨rfl, h, ht⟩ | ⟨rfl, h, ht⟩ | ⟨rfl, h, ht⟩ | ⟨rfl, h, ht⟩ | ⟨rfl, h, ht⟩ | ⟨rfl, h, ht⟩ <;>
    rw [ht] <;> refine ⟨_, h, fun pre post => ?_⟩
  · have hw : g.width ≤ 8 := hw
    exact getS_4 g (by omega) _ (by decide) _ _ _ _ (narrow_mod hw (by omega) m8)
  · have hw : g.width ≤ 16 := hw
    exact getS_4 g (by omega) _ (by decide) _ _ _ _ (narrow_mod hw (by omega) m16)
  · have hw : g.width ≤ 32 := hw
    exact getS_4 g (by omega) _ (by decide) _ _ _ _ (narrow_mod hw (by omega) m32)
  · exact getS_8 g _ (by decide) _ _ _ _ ((nat_mod (Nat.dvd_refl _) _).trans m64)
  · have hw : g.width ≤ 8 := hw
    exact getS_4 g (by omega) _ (by decide) _ _ _ _ (narrow_mod hw (by omega) m8)
  · have hw : g.width ≤ 16 := hw
    exact getS_4 g (by omega) _ (by decide) _ _ _ _ (narrow_mod hw (by omega) m16)
  · have hw : g.width ≤ 32 := hw
    exact getS_4 g (by omega) _ (by decide) _ _ _ _ (narrow_mod hw (by omega) m32)
  · exact getS_8 g _ (by decide) _ _ _ _ ((nat_mod (Nat.dvd_refl _) _).trans m64)

theorem clear_raw {a c : UAtom} (h : a.clear = some c) (h0 : a.w.raw = 0) : c.w.raw = 0 := by
  obtain ⟨tag, al, w⟩ := a
  simp only [UAtom.clear] at h
  simp only [UAtom.w] at h0
  split at h
  · rename_i hh; exact absurd h0 hh.2.2
  · split at h
    · split at h
      · simp only [Option.some.injEq] at h; subst h; rfl
      · rw [if_pos h0] at h; simp only [Option.some.injEq] at h; subst h; rfl
    · split at h
      · exact absurd h (by simp)
      · simp only [Option.some.injEq] at h; subst h; exact h0

theorem store_raw0 {w : W} (h : w.raw = 0) {m : Nat} {v : Int} (h0 : 0 ≤ v) (hm : v < m) : ((w.store m v).raw : Int) = v := by
  have h1 : (w.store m v).raw = w.raw - w.raw % m + (v % m).toNat := rfl
  rw [h1, h, Nat.zero_mod, Int.emod_eq_of_lt h0 hm]
  omega

theorem conv_wide (g : ITy) (hg : ¬ g.width ≤ 32) (v : Int) (h0 : 0 ≤ v) (h : v < M32) : g.conv v = v := by
  cases g <;> simp [ITy.width] at hg <;> simp [ITy.conv, ITy.signed, ITy.width, Int.bmod] <;> simp only [M32] at h <;> omega

/-- What the getters return from the four bytes of a number that is not negative. -/
theorem getS_nonneg (g : ITy) (t : UInt8) (ht : t ∈ ([99, 117, 105, 67, 85, 73] : List UInt8)) (hx : ¬ ((t = 67 ∨ t = 85) ∧ g = .i64))
    (pre post : Bytes) (n : Nat) (v : Int) (h0 : 0 ≤ v) (h : v < M32) (hn : (n : Int) % M32 = v) :
    getS g (pre ++ be32 n ++ post) ⟨t, pre.length⟩ = some (g.conv v) := by
  by_cases hg : g.width ≤ 32
  · refine getS_4 g hg t ht pre post n v ?_
    rw [← hn]; exact (emod_dvd (dvd_width g hg) _).symm
  · rw [conv_wide g hg v h0 h]
    have e : ((n % M32 : Nat) : Int) = v := by rw [Int.natCast_emod]; exact hn
    rw [← e]
    cases g <;> simp [ITy.width] at hg
    · refine getS_64 t ?_ pre post n
      simp only [List.mem_cons, List.not_mem_nil, or_false] at ht ⊢
      rcases ht with h | h | h | h | h | h <;> simp [h] at hx ⊢
    · exact getS_U64 t ht pre post n

/-- **C09 (serialised, wider type; partial).**  If the atom is new (its word is zero) then after a typed setter with a value
that is not negative, *every* integer getter on the serialised form returns the value converted to its type, except that the
64 bit signed getter does not work on unsigned 8 and 16 bit atoms.  Missing from the full claim: negative values and reused
atoms with a wider getter, where it is false (`C09_full_fails`). -/
theorem C09_serialised_wide_partial (s g : ITy) (a a' : UAtom) (v : Int) (ha : a.w.raw = 0) (hv : s.has v) (h0 : 0 ≤ v)
    (h : setU s a v = some a') (hx : ¬ ((s = .u8 ∨ s = .u16) ∧ g = .i64)) :
    ∃ d, serializeAtom a' = some (a'.tag, d) ∧ ∀ pre post, getS g (pre ++ d ++ post) ⟨a'.tag, pre.length⟩ = some (g.conv v) := by
  by_cases hs : s.width = 64
  · exact C09_serialised_narrow s g a a' v h (by rw [hs]; cases g <;> decide)
  obtain ⟨c, hc, h⟩ := ser_int s a a' v h
  have hc := clear_raw hc ha
  rcases h with ⟨rfl, h, ht⟩ | ⟨rfl, h, ht⟩ | ⟨rfl, h, ht⟩ | ⟨rfl, h, ht⟩ | ⟨rfl, h, ht⟩ | ⟨rfl, h, ht⟩ | ⟨rfl, h, ht⟩ | ⟨rfl, h, ht⟩ <;>
    simp [ITy.width] at hs <;> simp [ITy.has, ITy.signed, ITy.width] at hv <;>
    rw [ht] <;> refine ⟨_, h, fun pre post => getS_nonneg g _ (by decide) (by simpa using hx) pre post _ v h0 (by simp only [M32]; omega) ?_⟩
  all_goals
    rw [Int.natCast_emod, Int.emod_emod]
    rw [store_raw0 hc h0 (by simp only [M8, M16, M32]; omega)]
    simp only [M32]; omega

/-- **C09 (serialised setters; partial).**  The same for values stored by the setters of serialised atoms: the getters
return the converted value for all values if they are not wider than 32 bits or the setter is a 64 bit one, and for values
that are not negative otherwise, with the same exception. -/
theorem C09_serialised_setter_partial (s g : ITy) (v : Int) (hv : s.has v) (h0 : 0 ≤ v ∨ g.width ≤ 32 ∨ s.width = 64)
    (hx : ¬ ((s = .u8 ∨ s = .u16) ∧ g = .i64)) (pre post : Bytes) :
    getS g (pre ++ (setS s v).2 ++ post) ⟨(setS s v).1, pre.length⟩ = some (g.conv v) := by
  by_cases hs : s.width = 64
  · have e : ((((v % M64).toNat : Nat) : Int)) % M64 = v % M64 := by
      rw [Int.toNat_of_nonneg (Int.emod_nonneg _ (by decide)), Int.emod_emod]
    cases s <;> simp [ITy.width] at hs
    · exact getS_8 g _ (by simp [setS, AtomS.setInt64, AtomS.setUInt64]) _ _ _ _ e
    · exact getS_8 g _ (by simp [setS, AtomS.setInt64, AtomS.setUInt64]) _ _ _ _ e
  · have e : ((((v % M32).toNat : Nat) : Int)) = v % M32 := Int.toNat_of_nonneg (Int.emod_nonneg _ (by decide))
    by_cases hg : g.width ≤ 32
    · have em : ((((v % M32).toNat : Nat) : Int)) % (2 ^ g.width : Nat) = v % (2 ^ g.width : Nat) := by
        rw [e]; exact emod_dvd (dvd_width g hg) v
      cases s <;> simp [ITy.width] at hs <;> exact getS_4 g hg _ (by simp [setS, AtomS.setInt8, AtomS.setInt16, AtomS.setInt32, AtomS.setUInt8, AtomS.setUInt16, AtomS.setUInt32]) _ _ _ _ em
    · have h1 : 0 ≤ v := by
        rcases h0 with h | h | h
        · exact h
        · exact absurd h hg
        · exact absurd h hs
      have hlt : v < M32 := by cases s <;> simp [ITy.width] at hs <;> simp [ITy.has, ITy.signed, ITy.width] at hv <;> simp only [M32] <;> omega
      have em : ((((v % M32).toNat : Nat) : Int)) % M32 = v := by
        rw [e, Int.emod_emod]; exact Int.emod_eq_of_lt h1 hlt
      cases s <;> simp [ITy.width] at hs <;>
        exact getS_nonneg g _ (by simp [setS, AtomS.setInt8, AtomS.setInt16, AtomS.setInt32, AtomS.setUInt8, AtomS.setUInt16, AtomS.setUInt32]) (by simpa [setS, AtomS.setInt8, AtomS.setInt16, AtomS.setInt32, AtomS.setUInt8, AtomS.setUInt16, AtomS.setUInt32] using hx) _ _ _ _ h1 hlt em

/-- The full claim on the serialised form: every getter returns the value converted to its type, even for new atoms. -/
def C09Full : Prop :=
  ∀ (s g : ITy) (a' : UAtom) (v : Int) (d : Bytes), s.has v → setU s .fresh v = some a' → serializeAtom a' = some (a'.tag, d) →
    getS g d ⟨a'.tag, 0⟩ = some (g.conv v)

/-- **C09 (the full claim is false).**  Stored -1 as an 8 bit number, a new atom serialises to `00 00 00 FF`, and the 32 bit
getter returns 255. -/
theorem C09_full_fails : ¬ C09Full := by
  intro h
  have := h .i8 .i32 (.mk 99 false (.bits 255)) (-1) [0, 0, 0, 255] (by simp [ITy.has, ITy.signed, ITy.width]) rfl (by decide +kernel)
  revert this
  decide +kernel

/-- Further failures on the serialised form: -1 as a 32 bit number read by the 64 bit getter is 4294967295; 5 as an unsigned
8 bit number makes the 64 bit signed getter read eight bytes, past the end of the atom; and the plain `int` getter takes the
bits of an 8 bit 100 for a floating point number and returns 0. -/
theorem C09_more_failures :
    getS .i64 (setS .i32 (-1)).2 ⟨105, 0⟩ = some 4294967295 ∧
    getS .i64 (setS .u8 5).2 ⟨67, 0⟩ = none ∧
    getS .i64 ((setS .u8 5).2 ++ [0, 0, 0, 0]) ⟨67, 0⟩ = some 21474836480 ∧
    AtomS.getInt (setS .i8 100).2 ⟨99, 0⟩ = some 0 := by
  decide +kernel

/-- A float or double stored in an atom comes back bit by bit from the serialised form. -/
theorem C09_float (a a' : UAtom) (b : Nat) (hb : b < M32) (h : a.setFloat b = some a') :
    ∃ d, serializeAtom a' = some (102, d) ∧ ∀ pre post, rd32 (pre ++ d ++ post) pre.length = some b := by
  simp only [UAtom.setFloat] at h
  cases hc : a.clear with
  | none => simp [hc] at h
  | some c =>
    rw [hc, bnd] at h
    simp only [Option.some.injEq] at h
    subst h
    refine ⟨be32 ((c.w.store M32 b).raw % M32), by simp [serializeAtom, sizeAtom, serAtom, UAtom.tag], fun pre post => ?_⟩
    rw [rd32_mid]
    have := store_mod c.w M32 (by decide) b
    congr 1
    simp only [M32] at *
    omega

theorem C09_double (a a' : UAtom) (b : Nat) (hb : b < M64) (h : a.setDouble b = some a') :
    ∃ d, serializeAtom a' = some (100, d) ∧ ∀ pre post, rd64 (pre ++ d ++ post) pre.length = some b := by
  simp only [UAtom.setDouble] at h
  cases hc : a.clear with
  | none => simp [hc] at h
  | some c =>
    rw [hc, bnd] at h
    simp only [Option.some.injEq] at h
    subst h
    refine ⟨be64 ((c.w.store M64 b).raw % M64), by simp [serializeAtom, sizeAtom, serAtom, UAtom.tag], fun pre post => ?_⟩
    rw [rd64_mid]
    have := store_mod c.w M64 (by decide) b
    congr 1
    simp only [M64] at *
    omega

/-! Concrete cases: a setter works on an atom that held an owned string, and -3 stored as 16 bit number comes back from the
serialised form through the getters of 16 and 8 bits. -/
example : ∃ a', setU .i16 (.mk 115 true (.str 4096 [104, 105])) (-3) = some a' ∧ ITy.i16.has (-3) ∧ getU .i64 a' = some (-3) ∧
    getU .u16 a' = some 65533 ∧ serializeAtom a' = some (117, [0, 0, 255, 253]) ∧
    getS .i16 [0, 0, 255, 253] ⟨117, 0⟩ = some (-3) ∧ getS .i8 [0, 0, 255, 253] ⟨117, 0⟩ = some (-3) :=
  ⟨.mk 117 false (.bits 65533), rfl, by simp [ITy.has, ITy.signed, ITy.width], by decide +kernel, by decide +kernel, by decide +kernel, by decide +kernel, by decide +kernel⟩

example : ∃ a', setU .u8 .fresh 200 = some a' ∧ UAtom.fresh.w.raw = 0 ∧ ITy.u8.has 200 ∧
    serializeAtom a' = some (67, [0, 0, 0, 200]) ∧ getS .i32 [0, 0, 0, 200] ⟨67, 0⟩ = some 200 ∧
    getS .i8 [0, 0, 0, 200] ⟨67, 0⟩ = some (-56) :=
  ⟨.mk 67 false (.bits 200), rfl, rfl, by simp [ITy.has, ITy.signed, ITy.width], by decide +kernel, by decide +kernel, by decide +kernel⟩

end Libo.Props
