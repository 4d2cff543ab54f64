import Verif.OscArray
/-!
# Property C28: arrays keep their elements and never touch memory outside
-/

namespace Libo.Props
open Libo Libo.Arr

/-- The array holds the elements `xs`, each of `membersize` bytes. -/
structure Holds (a : Arr) (xs : List Bytes) : Prop where
  len : a.len = xs.length
  size : ∀ x ∈ xs, x.length = a.membersize
  mem : a.ar.getD [] = xs.flatten

theorem length_flatten_const {xs : List Bytes} {m : Nat} (h : ∀ x ∈ xs, x.length = m) :
    xs.flatten.length = xs.length * m := by
  induction xs with
  | nil => simp
  | cons x xs ih =>
    simp only [List.flatten_cons, List.length_append, List.length_cons]
    rw [h x (by simp), ih (fun y hy => h y (by simp [hy])), Nat.succ_mul]; omega

theorem drop_flatten_const {xs : List Bytes} {m : Nat} (h : ∀ x ∈ xs, x.length = m) (k : Nat) :
    xs.flatten.drop (k * m) = (xs.drop k).flatten ∧ xs.flatten.take (k * m) = (xs.take k).flatten := by
  induction xs generalizing k with
  | nil => simp
  | cons x xs ih =>
    cases k with
    | zero => simp
    | succ k =>
      have hx := h x (by simp)
      obtain ⟨i1, i2⟩ := ih (fun y hy => h y (by simp [hy])) k
      have e : (k + 1) * m = x.length + k * m := by rw [Nat.succ_mul, hx]; omega
      simp only [List.flatten_cons, List.drop_succ_cons, List.take_succ_cons]
      rw [e, List.drop_append, List.take_append]
      constructor
      · rw [List.drop_of_length_le (by omega), ← i1]; simp
      · rw [List.take_of_length_le (by omega), ← i2]; simp

theorem flatten_zeros (n m : Nat) : (List.replicate n (zeros m)).flatten = zeros (n * m) := by
  unfold zeros
  rw [List.flatten_replicate_replicate]

theorem int_mul_toNat (a : Int) (m : Nat) (h : 0 ≤ a) : (a * m).toNat = a.toNat * m := by
  obtain ⟨n, rfl⟩ := Int.eq_ofNat_of_zero_le h
  simp only [Int.toNat_natCast]
  rw [← Int.natCast_mul, Int.toNat_natCast]

/-- A new array holds zeroed elements. -/
theorem C28_alloc (n m : Nat) : ∃ a, alloc n m = some a ∧ a.membersize = m ∧ Holds a (List.replicate n (zeros m)) := by
  unfold alloc
  rw [if_neg (by omega)]
  refine ⟨_, rfl, rfl, by simp, by simp [zeros], ?_⟩
  rw [flatten_zeros]
  simp only
  split
  · rename_i h
    rcases h with h | h
    · have : n = 0 := by omega
      subst this; simp [zeros]
    · subst h; simp [zeros]
  · simp

/-- **C28 (get).**  A valid index yields a pointer to that element — all of it inside the allocation — and an index at or past
the end is refused. -/
theorem C28_get (a : Arr) (xs : List Bytes) (h : Holds a xs) :
    (∀ (i : Nat) (hi : i < xs.length), ∃ off, Arr.get a i = some off ∧ deref a off a.membersize = some xs[i]) ∧
    (∀ i : Int, xs.length ≤ i → Arr.get a i = none) := by
  constructor
  · intro i hi
    refine ⟨i * a.membersize, ?_, ?_⟩
    · unfold Arr.get; rw [if_neg (by rw [h.len]; omega)]
    · have hl := length_flatten_const h.size
      have hm := h.mem
      have hle : i * a.membersize + a.membersize ≤ xs.length * a.membersize := by
        rw [← Nat.succ_mul]; exact Nat.mul_le_mul_right _ hi
      have hd := (drop_flatten_const h.size i).1
      have hx := h.size xs[i] (List.getElem_mem hi)
      unfold deref
      cases ha : a.ar with
      | none =>
        rw [ha] at hm
        simp only [Option.getD_none] at hm
        rw [← hm] at hl
        have hl := Nat.mul_eq_zero.mp hl.symm
        have h0 : a.membersize = 0 := by
          rcases hl with h | h
          · rw [h] at hi; simp at hi
          · exact h
        rw [h0] at hx ⊢
        simp only [if_true]
        rw [List.eq_nil_of_length_eq_zero hx]
      | some b =>
        rw [ha] at hm
        simp only [Option.getD_some] at hm
        subst hm
        have e : (i : Int) * (a.membersize : Int) = ((i * a.membersize : Nat) : Int) := by rw [Int.natCast_mul]
        simp only [e]
        rw [if_pos (by rw [hl]; omega), Int.toNat_natCast, hd, List.drop_eq_getElem_cons hi, List.flatten_cons, ← hx]
        simp
  · intro i hi
    unfold Arr.get; rw [if_pos (by rw [h.len]; exact hi)]

theorem whole {a : Arr} {xs : List Bytes} (h : Holds a xs) :
    deref a 0 (a.len.toNat * a.membersize) = some xs.flatten := by
  have hl := length_flatten_const h.size
  have hm := h.mem
  have e : a.len.toNat * a.membersize = xs.flatten.length := by rw [h.len, hl]; simp
  rw [e]
  unfold deref
  cases ha : a.ar with
  | none =>
    rw [ha] at hm
    simp only [Option.getD_none] at hm
    simp [← hm]
  | some b =>
    rw [ha] at hm
    simp only [Option.getD_some] at hm
    subst hm
    simp only
    rw [if_pos ⟨by omega, by omega⟩]
    simp only [Int.toNat_zero, List.drop_zero, List.take_length]

theorem assign_all {a : Arr} {xs ys : List Bytes} (h : Holds a xs) (hy : ∀ y ∈ ys, y.length = a.membersize) (k : Nat)
    (hk : k + ys.length ≤ xs.length) :
    ∃ a', assign a ((k : Int) * a.membersize) ys.flatten = some a' ∧
      Holds a' (xs.take k ++ ys ++ xs.drop (k + ys.length)) ∧ a'.membersize = a.membersize := by
  have hl := length_flatten_const h.size
  have hly := length_flatten_const hy
  have hm := h.mem
  have hle : k * a.membersize + ys.length * a.membersize ≤ xs.length * a.membersize := by
    rw [← Nat.add_mul]; exact Nat.mul_le_mul_right _ hk
  have hsz : ∀ y ∈ xs.take k ++ ys ++ xs.drop (k + ys.length), y.length = a.membersize := by
    intro y h'
    simp only [List.mem_append] at h'
    rcases h' with (h' | h') | h'
    · exact h.size y (List.mem_of_mem_take h')
    · exact hy y h'
    · exact h.size y (List.mem_of_mem_drop h')
  have hfl : (xs.take k ++ ys ++ xs.drop (k + ys.length)).flatten =
      xs.flatten.take (k * a.membersize) ++ ys.flatten ++ xs.flatten.drop (k * a.membersize + ys.flatten.length) := by
    rw [hly, ← Nat.add_mul, (drop_flatten_const h.size k).2, (drop_flatten_const h.size (k + ys.length)).1]
    simp
  have hlen : a.len = (xs.take k ++ ys ++ xs.drop (k + ys.length)).length := by
    rw [h.len]; simp; omega
  have e : (k : Int) * (a.membersize : Int) = ((k * a.membersize : Nat) : Int) := by rw [Int.natCast_mul]
  rw [e]
  unfold assign
  cases ha : a.ar with
  | none =>
    rw [ha] at hm
    simp only [Option.getD_none] at hm
    have h0 : ys.flatten = [] := by
      refine List.eq_nil_of_length_eq_zero ?_
      rw [← hm] at hl
      have hl := Nat.mul_eq_zero.mp hl.symm
      rw [hly]
      rcases hl with h | h
      · have : ys.length = 0 := by omega
        rw [this]; simp
      · rw [h]; simp
    refine ⟨a, by simp only [if_pos h0], ⟨hlen, hsz, ?_⟩, rfl⟩
    rw [hfl, h0, ← hm, ha]; simp
  | some b =>
    rw [ha] at hm
    simp only [Option.getD_some] at hm
    subst hm
    have hc : (0 : Int) ≤ ((k * a.membersize : Nat) : Int) ∧
        ((k * a.membersize : Nat) : Int) + (ys.flatten.length : Int) ≤ xs.flatten.length := by
      rw [hl, hly]; omega
    simp only [if_pos hc]
    refine ⟨_, rfl, ⟨hlen, hsz, ?_⟩, rfl⟩
    simp only [Option.getD_some, Int.toNat_natCast]
    rw [hfl]

/-- Storing an element through the pointer changes that element only. -/
theorem C28_set (a : Arr) (xs : List Bytes) (h : Holds a xs) (i : Nat) (hi : i < xs.length) (x : Bytes)
    (hx : x.length = a.membersize) :
    ∃ off a', Arr.get a i = some off ∧ assign a off x = some a' ∧ Holds a' (xs.set i x) := by
  obtain ⟨a', e, h', _⟩ := assign_all h (ys := [x]) (by simpa using hx) i (by simpa using Nat.succ_le_of_lt hi)
  refine ⟨_, a', by unfold Arr.get; rw [if_neg (by rw [h.len]; omega)], by simpa using e, ?_⟩
  rw [List.set_eq_take_append_cons_drop, if_pos hi]
  simpa using h'

/-- **C28 (copy).**  A copy holds the same elements. -/
theorem C28_copy (a : Arr) (xs : List Bytes) (h : Holds a xs) : ∃ c, copy a = some c ∧ Holds c xs ∧ c.membersize = a.membersize := by
  obtain ⟨c, e, ec, hc⟩ := C28_alloc xs.length a.membersize
  rw [← h.len] at e
  obtain ⟨c', e', h', m'⟩ := assign_all hc (ys := xs) (by rw [ec]; exact h.size) 0 (by simp)
  refine ⟨c', ?_, ?_, by rw [m', ec]⟩
  · unfold copy
    rw [e]
    simp only [Option.bind_eq_bind, Option.bind_some]
    rw [whole h]
    simpa using e'
  · simpa using h'

/-- Clearing makes all elements zero and keeps their number and size. -/
theorem C28_clear (a : Arr) (xs : List Bytes) (h : Holds a xs) :
    ∃ c, clear a = some c ∧ Holds c (List.replicate xs.length (zeros a.membersize)) ∧ c.membersize = a.membersize := by
  obtain ⟨c, e, h', m⟩ := assign_all h (ys := List.replicate xs.length (zeros a.membersize)) (by simp [zeros]) 0 (by simp)
  refine ⟨c, ?_, by simpa using h', m⟩
  unfold clear
  rw [int_mul_toNat _ _ (by rw [h.len]; omega), h.len, Int.toNat_natCast, ← flatten_zeros]
  simpa using e

/-- An array that takes over a block of `xs` gives the members of `xs` and refuses indices behind them, whatever it held before. -/
theorem C28_setBlock (a : Arr) (m : Nat) (xs : List Bytes) (hx : ∀ x ∈ xs, x.length = m) :
    (∀ i, (hi : i < xs.length) → ∃ off, Arr.get (setBlock a (some xs.flatten) xs.length m) i = some off ∧
      deref (setBlock a (some xs.flatten) xs.length m) off m = some xs[i]) ∧
    ∀ i : Nat, xs.length ≤ i → Arr.get (setBlock a (some xs.flatten) xs.length m) i = none := by
  refine ⟨(C28_get (setBlock a (some xs.flatten) xs.length m) xs ⟨rfl, hx, rfl⟩).1, fun i hi => ?_⟩
  exact if_pos (Int.ofNat_le.mpr hi)

/-- **C28 (resize).**  Resizing to a non-zero size keeps the common prefix and zero-fills growth, whatever was in the memory
before. -/
theorem C28_resize (a : Arr) (xs : List Bytes) (h : Holds a xs) (n : Nat) (hn : 0 < n * a.membersize) (junk : Bytes) :
    ∃ a', resize a n junk = some (a', true) ∧ a'.membersize = a.membersize ∧
      Holds a' (xs.take n ++ List.replicate (n - xs.length) (zeros a.membersize)) := by
  have hl := length_flatten_const h.size
  have hm := h.mem
  -- the reallocated block
  have hre : ∃ b, realloc a.ar (n * a.membersize) junk = some b ∧ b.length = n * a.membersize ∧
      ∀ k, k ≤ xs.length → k ≤ n → b.take (k * a.membersize) = xs.flatten.take (k * a.membersize) := by
    unfold realloc
    cases ha : a.ar with
    | none =>
      refine ⟨_, rfl, ?_, ?_⟩
      · simp [zeros]; omega
      · intro k hk _
        rw [ha] at hm
        simp only [Option.getD_none] at hm
        rw [← hm] at hl ⊢
        have hl := Nat.mul_eq_zero.mp hl.symm
        have : k * a.membersize = 0 := by
          rcases hl with h | h
          · have : k = 0 := by omega
            rw [this]; simp
          · rw [h]; simp
        rw [this]; simp
    | some b =>
      rw [ha] at hm
      simp only [Option.getD_some] at hm
      subst hm
      simp only
      rw [if_neg (by omega)]
      refine ⟨_, rfl, ?_, ?_⟩
      · simp [zeros]; omega
      · intro k hk hkn
        have h1 : k * a.membersize ≤ n * a.membersize := Nat.mul_le_mul_right _ hkn
        have h2 : k * a.membersize ≤ xs.length * a.membersize := Nat.mul_le_mul_right _ hk
        rw [List.take_append_of_le_length (by rw [List.length_take, hl]; omega), List.take_take, Nat.min_eq_left h1]
  obtain ⟨b, e, hb, hpre⟩ := hre
  unfold resize
  rw [e]
  simp only
  by_cases hg : (n : Int) > a.len
  · rw [if_pos hg]
    have hg' : xs.length < n := by rw [h.len] at hg; omega
    have hlen : a.len.toNat = xs.length := by rw [h.len]; simp
    have hz : (n - a.len.toNat) * a.membersize + xs.length * a.membersize = n * a.membersize := by
      rw [hlen, ← Nat.add_mul]; congr 1; omega
    unfold assign
    have e2 : a.len * (a.membersize : Int) = ((xs.length * a.membersize : Nat) : Int) := by rw [h.len, Int.natCast_mul]
    simp only [e2]
    rw [if_pos (by simp only [zeros, List.length_replicate]; rw [hb]; omega)]
    refine ⟨_, rfl, rfl, ⟨?_, ?_, ?_⟩⟩
    · simp; omega
    · intro x hx
      simp only [List.mem_append] at hx
      rcases hx with hx | hx
      · exact h.size x (List.mem_of_mem_take hx)
      · rw [List.eq_of_mem_replicate hx]; simp [zeros]
    · simp only [Option.getD_some, Int.toNat_natCast]
      rw [hpre xs.length (Nat.le_refl _) (by omega), List.flatten_append, flatten_zeros,
        List.take_of_length_le (by rw [hl]; exact Nat.le_refl _), List.take_of_length_le (show xs.length ≤ n by omega),
        List.drop_of_length_le (by simp only [zeros, List.length_replicate]; rw [hb]; omega), hlen]
      simp
  · rw [if_neg hg]
    have hg' : n ≤ xs.length := by rw [h.len] at hg; omega
    refine ⟨_, rfl, rfl, ⟨?_, ?_, ?_⟩⟩
    · simp; omega
    · intro x hx
      simp only [List.mem_append] at hx
      rcases hx with hx | hx
      · exact h.size x (List.mem_of_mem_take hx)
      · rw [List.eq_of_mem_replicate hx]; simp [zeros]
    · have : n - xs.length = 0 := by omega
      rw [this]
      simp only [Option.getD_some, List.replicate_zero, List.append_nil]
      rw [← (drop_flatten_const h.size n).2, ← hpre n hg' (Nat.le_refl _), List.take_of_length_le (by omega)]

/-- **C28 (copying into a new array).**  With no destination given, one is made: `offset` zeroed elements, then the source. -/
theorem C28_copyInto_new (s : Arr) (ys : List Bytes) (h : Holds s ys) (k : Nat) (junk : Bytes) :
    ∃ d, copyInto none s k junk = some d ∧ Holds d (List.replicate k (zeros s.membersize) ++ ys) := by
  obtain ⟨c, e, ec, hc⟩ := C28_alloc (ys.length + k) s.membersize
  obtain ⟨c', e', h', _⟩ := assign_all hc (ys := ys) (by rw [ec]; exact h.size) k (by simp; omega)
  refine ⟨c', ?_, ?_⟩
  · unfold copyInto
    simp only
    have : s.len + (k : Int) = ((ys.length + k : Nat) : Int) := by rw [h.len]; omega
    rw [this, e]
    simp only [Option.bind_eq_bind, Option.bind_some]
    rw [int_mul_toNat _ _ (by rw [h.len]; omega), whole h]
    simp only [Option.bind_some]
    rw [ec] at e'
    exact e'
  · have e1 : (List.replicate (ys.length + k) (zeros s.membersize)).take k = List.replicate k (zeros s.membersize) := by
      rw [List.take_replicate, Nat.min_eq_left (by omega)]
    rw [e1, List.drop_of_length_le (by simp; omega)] at h'
    simpa using h'

/-- **C28 (copying into an existing array that is large enough).**  The elements from `offset` on are overwritten and the
others kept.  Partial: see `C28_full_fails` for a destination that is too small. -/
theorem C28_copyInto_partial (d s : Arr) (xs ys : List Bytes) (hd : Holds d xs) (hs : Holds s ys)
    (hm : d.membersize = s.membersize) (k : Nat) (hk : k + ys.length ≤ xs.length) (junk : Bytes) :
    ∃ d', copyInto (some d) s k junk = some d' ∧ Holds d' (xs.take k ++ ys ++ xs.drop (k + ys.length)) := by
  obtain ⟨c', e', h', _⟩ := assign_all hd (ys := ys) (by rw [hm]; exact hs.size) k hk
  refine ⟨c', ?_, h'⟩
  unfold copyInto
  simp only
  have hge : ¬ (s.len + (k : Int)) * s.membersize < s.len * s.membersize := by
    have : s.len * (s.membersize : Int) ≤ (s.len + (k : Int)) * s.membersize :=
      Int.mul_le_mul_of_nonneg_right (by omega) (by omega)
    omega
  rw [if_neg hge]
  simp only [Option.bind_eq_bind, Option.bind_some]
  rw [int_mul_toNat _ _ (by rw [hs.len]; omega), whole hs]
  simp only [Option.bind_some]
  rw [hm] at e'
  exact e'

/-- The full claim about copying: the destination, if given, is grown when the copy does not fit, and nothing outside is
touched. -/
def C28_full : Prop :=
  ∀ (d s : Arr) (xs ys : List Bytes), Holds d xs → Holds s ys → d.membersize = s.membersize → ∀ (k : Nat) (junk : Bytes),
    ∃ d', copyInto (some d) s k junk = some d'

/-- The code violates it: copying two one-byte elements into an array of one writes past its allocation. -/
theorem C28_full_fails : ¬ C28_full := by
  intro h
  obtain ⟨d', e⟩ := h ⟨some [0], 1, 1⟩ ⟨some [1, 2], 2, 1⟩ [[0]] [[1], [2]] ⟨rfl, by simp, rfl⟩ ⟨rfl, by simp, rfl⟩ rfl 0 []
  revert e
  have : copyInto (some ⟨some [0], 1, 1⟩) ⟨some [1, 2], 2, 1⟩ ((0 : Nat) : Int) [] = none := by decide
  rw [this]; simp

/-- Negative indices are not refused: the pointer returned lies before the allocation, and using it is undefined. -/
theorem C28_negative_index (a : Arr) (xs : List Bytes) (h : Holds a xs) (hm : 0 < a.membersize) (i : Int) (hi : i < 0) :
    ∃ off, Arr.get a i = some off ∧ off < 0 ∧ (a.ar.isSome → deref a off a.membersize = none) := by
  have hneg : i * (a.membersize : Int) < 0 := Int.mul_neg_of_neg_of_pos hi (by omega)
  refine ⟨i * a.membersize, ?_, hneg, ?_⟩
  · unfold Arr.get; rw [if_neg (by rw [h.len]; omega)]
  · intro hs
    obtain ⟨b, hb⟩ := Option.isSome_iff_exists.mp hs
    unfold deref
    rw [hb]
    simp only
    rw [if_neg (by omega)]

/-- Resizing to zero reports being out of memory and leaves an empty array. -/
theorem C28_resize_zero (a : Arr) (ha : a.ar.isSome) (junk : Bytes) :
    resize a 0 junk = some ({ a with ar := none, len := 0 }, false) := by
  obtain ⟨b, hb⟩ := Option.isSome_iff_exists.mp ha
  simp [resize, realloc, hb]

/-! Two-byte elements. -/
def exArr : Arr := ⟨some [1, 2, 3, 4, 5, 6], 3, 2⟩
theorem exHolds : Holds exArr [[1, 2], [3, 4], [5, 6]] := ⟨rfl, by simp [exArr], rfl⟩
example : ∃ off, Arr.get exArr 1 = some off ∧ deref exArr off 2 = some [3, 4] := (C28_get _ _ exHolds).1 1 (by simp)
example : ∃ c, clear exArr = some c ∧ Holds c [[0, 0], [0, 0], [0, 0]] ∧ c.membersize = 2 := C28_clear _ _ exHolds
example : ∃ off, Arr.get (setBlock exArr (some [7, 8, 9]) 1 3) 0 = some off ∧ deref (setBlock exArr (some [7, 8, 9]) 1 3) off 3 = some [7, 8, 9] :=
  (C28_setBlock exArr 3 [[7, 8, 9]] (by simp)).1 0 (by simp)
example : ∃ a', resize exArr 4 [9, 9] = some (a', true) ∧ a'.membersize = 2 ∧ Holds a' [[1, 2], [3, 4], [5, 6], [0, 0]] :=
  C28_resize _ _ exHolds 4 (by decide) _
example : ∃ d', copyInto (some exArr) ⟨some [7, 8], 1, 2⟩ 1 [] = some d' ∧ Holds d' [[1, 2], [7, 8], [5, 6]] :=
  C28_copyInto_partial exArr ⟨some [7, 8], 1, 2⟩ _ [[7, 8]] exHolds ⟨rfl, by simp, rfl⟩ rfl 1 (by simp) []

end Libo.Props
