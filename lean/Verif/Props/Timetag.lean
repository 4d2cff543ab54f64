import Verif.TimetagLemmas
/-!
# Properties C29 (time tag arithmetic), C30 (wire), C31 (calendar)
-/

namespace Libo.Props
open Libo

/-- The number a time tag stands for: seconds with 32 fractional bits. -/
def ttValue (t : Timetag) : Nat := t.sec.toNat * 4294967296 + t.frac.toNat

theorem ttValue_lt (t : Timetag) : ttValue t < 18446744073709551616 := by
  have := t.sec.toNat_lt; have := t.frac.toNat_lt; unfold ttValue; omega

theorem ttValue_inj {a b : Timetag} (h : ttValue a = ttValue b) : a = b := by
  have := a.sec.toNat_lt; have := a.frac.toNat_lt; have := b.sec.toNat_lt; have := b.frac.toNat_lt
  unfold ttValue at h
  cases a; cases b
  simp only [Timetag.mk.injEq]
  exact ⟨UInt32.toNat_inj.mp (by simp only at *; omega), UInt32.toNat_inj.mp (by simp only at *; omega)⟩

/-! ## C29 -/

/-- **C29 (add).**  Adding adds the numbers modulo 2^64. -/
theorem C29_add (a b : Timetag) : ttValue (a.add b) = (ttValue a + ttValue b) % 18446744073709551616 := by
  have := a.sec.toNat_lt; have := a.frac.toNat_lt; have := b.sec.toNat_lt; have := b.frac.toNat_lt
  unfold Timetag.add
  simp only [UInt32.lt_iff_toNat_lt, UInt32.toNat_add]
  split
  · simp only [ttValue, UInt32.toNat_add, UInt32.toNat_one]; omega
  · simp only [ttValue, UInt32.toNat_add]; omega

/-- **C29 (subtract).**  Subtracting an earlier (or the same) time tag gives the exact difference. -/
theorem C29_subtract_partial (a b : Timetag) (h : ttValue b ≤ ttValue a) :
    ttValue (a.subtract b) = ttValue a - ttValue b := by
  have := a.sec.toNat_lt; have := a.frac.toNat_lt; have := b.sec.toNat_lt; have := b.frac.toNat_lt
  unfold Timetag.subtract
  simp only [gt_iff_lt, ge_iff_le, UInt32.lt_iff_toNat_lt, UInt32.le_iff_toNat_le, ← UInt32.toNat_inj, UInt32.toNat_sub,
    UInt32.toNat_zero]
  unfold ttValue at *
  repeat' split
  all_goals simp only [UInt32.toNat_sub, UInt32.toNat_one]
  all_goals omega

/-- **C29 (subtract, other order).**  With the later time tag second, the result is the distance when its fraction is not
smaller. -/
theorem C29_subtract_reversed_partial (a b : Timetag) (h : ttValue a < ttValue b) (hf : a.frac.toNat ≤ b.frac.toNat) :
    ttValue (a.subtract b) = ttValue b - ttValue a := by
  have := a.sec.toNat_lt; have := a.frac.toNat_lt; have := b.sec.toNat_lt; have := b.frac.toNat_lt
  unfold Timetag.subtract
  simp only [gt_iff_lt, ge_iff_le, UInt32.lt_iff_toNat_lt, UInt32.le_iff_toNat_le, ← UInt32.toNat_inj, UInt32.toNat_sub,
    UInt32.toNat_zero]
  unfold ttValue at *
  repeat' split
  all_goals simp only [UInt32.toNat_sub, UInt32.toNat_one]
  all_goals omega

/-- The full claim: the result is always the exact difference, either as a distance or modulo 2^64. -/
def C29_subtract_full : Prop :=
  (∀ a b : Timetag, ttValue (a.subtract b) = max (ttValue a) (ttValue b) - min (ttValue a) (ttValue b)) ∨
  (∀ a b : Timetag, ttValue (a.subtract b) = (ttValue a + 18446744073709551616 - ttValue b) % 18446744073709551616)

/-- It fails: 0.5 s minus 1.0 s gives 1.5 s, which is neither the distance (0.5 s) nor the difference modulo 2^64. -/
theorem C29_subtract_full_fails : ¬ C29_subtract_full := by
  rintro (h | h)
  · exact absurd (h ⟨0, 2147483648⟩ ⟨1, 0⟩) (by decide +kernel)
  · exact absurd (h ⟨0, 2147483648⟩ ⟨1, 0⟩) (by decide +kernel)

/-- **C29 (compare).**  Comparison is the order of the numbers. -/
theorem C29_compare (a b : Timetag) :
    (a.compare b = -1 ↔ ttValue a < ttValue b) ∧ (a.compare b = 0 ↔ a = b) ∧ (a.compare b = 1 ↔ ttValue b < ttValue a) := by
  have hinj : a = b ↔ ttValue a = ttValue b := ⟨fun h => by rw [h], ttValue_inj⟩
  rw [hinj]
  have := a.sec.toNat_lt; have := a.frac.toNat_lt; have := b.sec.toNat_lt; have := b.frac.toNat_lt
  unfold Timetag.compare
  simp only [gt_iff_lt, UInt32.lt_iff_toNat_lt, ← UInt32.toNat_inj]
  unfold ttValue
  repeat' split
  all_goals omega

/-- **C29 (there and back).**  Adding and then subtracting returns to the start unless the sum wraps, and the other way
round for a subtraction that is exact. -/
theorem C29_add_subtract (a b : Timetag) :
    (ttValue a + ttValue b < 18446744073709551616 → (a.add b).subtract b = a) ∧
    (ttValue b ≤ ttValue a → (a.subtract b).add b = a) := by
  constructor
  · intro h
    apply ttValue_inj
    rw [C29_subtract_partial _ _ (by rw [C29_add]; omega), C29_add]
    omega
  · intro h
    apply ttValue_inj
    rw [C29_add, C29_subtract_partial _ _ h]
    have := ttValue_lt a
    omega

/-- **C29 (immediate).**  Only the number 1 is the "immediately" time tag. -/
theorem C29_immediate (t : Timetag) : t.isImmediate = true ↔ ttValue t = 1 := by
  have := t.sec.toNat_lt; have := t.frac.toNat_lt
  unfold Timetag.isImmediate ttValue
  simp only [Bool.and_eq_true, beq_iff_eq, ← UInt32.toNat_inj, UInt32.toNat_zero, UInt32.toNat_one]
  omega

example : (Timetag.mk 1 4294967295).add ⟨2, 1⟩ = ⟨4, 0⟩ := by decide +kernel
example : (Timetag.mk 4 0).subtract ⟨2, 1⟩ = ⟨1, 4294967295⟩ ∧ ttValue ⟨2, 1⟩ ≤ ttValue ⟨4, 0⟩ := by decide +kernel

/-! ## C30 -/

/-- **C30 (wire).**  A time tag on the wire is its number, most significant byte first, and decodes to itself. -/
theorem C30_wire (t : Timetag) (pre post : Bytes) :
    Timetag.decode (pre ++ t.encode ++ post) pre.length = some t ∧
    t.encode = be32 t.sec.toNat ++ be32 t.frac.toNat := by
  constructor
  · unfold Timetag.decode Timetag.encode
    rw [List.append_assoc, List.append_assoc]
    have h1 := ld32_append_right pre (st32 (swap32 t.sec) ++ (st32 (swap32 t.frac) ++ post)) 0
    have h2 := ld32_append_right pre (st32 (swap32 t.sec) ++ (st32 (swap32 t.frac) ++ post)) 4
    have h3 := ld32_append_right (st32 (swap32 t.sec)) (st32 (swap32 t.frac) ++ post) 0
    rw [length_st32] at h3
    rw [Nat.add_zero] at h1
    rw [h1, h2, h3, ld32_st32, ld32_st32]
    simp [swap32_swap32]
  · unfold Timetag.encode
    rw [st32_swap, st32_swap, st32_reverse, st32_reverse]

/-- **C30 (bundle).**  Setting the time tag of a bundle replaces bytes 8 to 15 of the header only, so identifier and messages
are unchanged, and reading it gives the value set. -/
theorem C30_bundle (id tt msgs : Bytes) (t : Timetag) (hi : id.length = 8) (ht : tt.length = 8) :
    ∃ buf, setTimetag (id ++ tt ++ msgs).length (id ++ tt ++ msgs) t = some buf ∧
      buf = id ++ t.encode ++ msgs ∧ getTimetag buf.length (some buf) = some t := by
  have he : t.encode.length = 8 := rfl
  refine ⟨id ++ t.encode ++ msgs, ?_, rfl, ?_⟩
  · unfold setTimetag
    rw [if_neg (by simp only [List.length_append]; omega)]
    unfold blit
    rw [if_neg (by simp only [List.length_append]; omega)]
    congr 1
    have e1 : (id ++ tt ++ msgs).take 8 = id := by rw [List.append_assoc, ← hi, List.take_left]
    have e2 : (id ++ tt ++ msgs).drop (8 + t.encode.length) = msgs := by
      have : 8 + t.encode.length = (id ++ tt).length := by simp [hi, ht, he]
      rw [this, List.drop_left]
    rw [e1, e2]
  · unfold getTimetag
    simp only
    rw [if_neg (by simp only [List.length_append]; omega)]
    have := (C30_wire t id msgs).1
    rwa [hi] at this

example : ∃ buf, setTimetag 20 (ident ++ zeros 8 ++ [1, 2, 3, 4]) ⟨1, 2⟩ = some buf ∧
    buf = ident ++ [0, 0, 0, 1, 0, 0, 0, 2] ++ [1, 2, 3, 4] := ⟨_, by decide +kernel, rfl⟩

/-! ## C31 -/

open CalSpec Cal

/-- **C31 (parsing).**  For every date and time of the calendar from 1900 on, the seconds computed are the seconds since
1900-01-01, modulo 2^32. -/
theorem C31_parse (y m d h mi s : Nat) (hd : ValidDate y m d) (hy : y < 32768) (ht : ValidTime h mi s) :
    fromISO ⟨y, m, d, h, mi, s⟩ = some (seconds y m d h mi s % 4294967296) := by
  obtain ⟨h1, h2, h3, h4, h5⟩ := hd
  have hyears : ∀ k, 1900 + k ≤ 32768 → fromYears k = daysToYear k * 86400 % 4294967296 := by
    intro k
    induction k with
    | zero => intro _; rfl
    | succ k ih =>
      intro hk
      have hl := isleap_iff (k + 1900) (by omega)
      have e : daysToYear (k + 1) = daysToYear k + yearLen (1900 + k) := rfl
      rw [fromYears, ih (by omega), e, yearLen, Nat.add_comm 1900 k]
      cases hc : isleap (k + 1900) with
      | true => rw [if_pos (hl.mp hc)]; simp only [if_true]; omega
      | false =>
        have hL : ¬ Leap (k + 1900) := fun h => by rw [hl.mpr h] at hc; simp at hc
        rw [if_neg hL]
        simp only [Bool.false_eq_true, if_false]; omega
  have hl := isleap_iff y hy
  have hm : ∃ dm, daysInMonths[m - 1]? = some dm ∧
      dm + (if (isleap y = true ∧ m - 1 > 1) then 1 else 0) = daysToMonth y (m - 1) := by
    by_cases hL : Leap y
    · have hl1 := hl.mpr hL
      have : monthLen y 2 = 29 := by simp [monthLen, hL]
      match m, h2, h3 with
      | 1, _, _ | 2, _, _ | 3, _, _ | 4, _, _ | 5, _, _ | 6, _, _ | 7, _, _ | 8, _, _ | 9, _, _ | 10, _, _ | 11, _, _ | 12, _, _ =>
        exact ⟨_, rfl, by simp [daysToMonth, monthLen, hL, hl1]⟩
    · have hl1 : isleap y = false := by
        cases hc : isleap y with
        | true => exact absurd (hl.mp hc) hL
        | false => rfl
      match m, h2, h3 with
      | 1, _, _ | 2, _, _ | 3, _, _ | 4, _, _ | 5, _, _ | 6, _, _ | 7, _, _ | 8, _, _ | 9, _, _ | 10, _, _ | 11, _, _ | 12, _, _ =>
        exact ⟨_, rfl, by simp [daysToMonth, monthLen, hL, hl1]⟩
  obtain ⟨dm, hdm, hsum⟩ := hm
  unfold fromISO
  simp only
  rw [if_neg (by omega)]
  simp only [hdm, Option.bind_eq_bind, Option.bind_some, Option.pure_def, hsum, Option.some.injEq]
  rw [hyears (y - 1900) (by omega)]
  unfold seconds dayNumber
  omega

/-- The dates the printing loop gets right: the year 1900, and from 2001 on every day except 31 December of leap years. -/
def Printable (y m d : Nat) : Prop := y = 1900 ∨ (2001 ≤ y ∧ ¬ (Leap y ∧ m = 12 ∧ d = 31))

theorem codeDays_eq : ∀ k, k < 137 → (k = 0 ∨ 101 ≤ k) → codeDays k = daysToYear k := by decide +kernel

theorem daysToYear_137 : 4294967296 ≤ daysToYear 137 * 86400 := by decide +kernel

theorem daysToYear_mono (a b : Nat) : daysToYear a ≤ daysToYear (a + b) := by
  induction b with
  | zero => exact Nat.le_refl _
  | succ b ih => rw [← Nat.add_assoc, daysToYear]; omega

theorem getmonth_table_true : ∀ m, m < 13 → ∀ D, D < 367 → 1 ≤ m ∧ lastDay true (m - 1) < D ∧ D ≤ lastDay true m →
    getmonth D true = (m, D - lastDay true (m - 1)) := by decide +kernel

theorem getmonth_table_false : ∀ m, m < 13 → ∀ D, D < 367 → 1 ≤ m ∧ lastDay false (m - 1) < D ∧ D ≤ lastDay false m →
    getmonth D false = (m, D - lastDay false (m - 1)) := by decide +kernel

theorem getmonth_table (l : Bool) (m : Nat) (hm : m < 13) (D : Nat) (hD : D < 367) (h1 : 1 ≤ m) (h2 : lastDay l (m - 1) < D)
    (h3 : D ≤ lastDay l m) : getmonth D l = (m, D - lastDay l (m - 1)) := by
  cases l with
  | true => exact getmonth_table_true m hm D hD ⟨h1, h2, h3⟩
  | false => exact getmonth_table_false m hm D hD ⟨h1, h2, h3⟩

theorem lastDay_eq (y m : Nat) (hm : m ≤ 12) (l : Bool) (hl : l = true ↔ Leap y) : lastDay l m = daysToMonth y m := by
  by_cases hL : Leap y
  · have hl1 := hl.mpr hL
    subst hl1
    match m, hm with
    | 0, _ | 1, _ | 2, _ | 3, _ | 4, _ | 5, _ | 6, _ | 7, _ | 8, _ | 9, _ | 10, _ | 11, _ | 12, _ =>
      simp [daysToMonth, monthLen, hL, lastDay]
  · have hl1 : l = false := by
      cases l with
      | true => exact absurd (hl.mp rfl) hL
      | false => rfl
    subst hl1
    match m, hm with
    | 0, _ | 1, _ | 2, _ | 3, _ | 4, _ | 5, _ | 6, _ | 7, _ | 8, _ | 9, _ | 10, _ | 11, _ | 12, _ =>
      simp [daysToMonth, monthLen, hL, lastDay]

theorem daysToMonth_mono (y m : Nat) (h1 : 1 ≤ m) (h2 : m ≤ 12) : daysToMonth y (m - 1) + monthLen y m ≤ yearLen y := by
  rw [← daysToMonth_12]
  have hle : ∀ a b, daysToMonth y a ≤ daysToMonth y (a + b) := by
    intro a b
    induction b with
    | zero => exact Nat.le_refl _
    | succ b ih => rw [← Nat.add_assoc, daysToMonth]; omega
  obtain ⟨k, rfl⟩ : ∃ k, m = k + 1 := ⟨m - 1, by omega⟩
  have := hle (k + 1) (12 - (k + 1))
  rw [show k + 1 + (12 - (k + 1)) = 12 by omega] at this
  exact this

theorem getmonth_eq (y m d : Nat) (hd : ValidDate y m d) (l : Bool) (hl : l = true ↔ Leap y) :
    getmonth (1 + daysToMonth y (m - 1) + (d - 1)) l = (m, d) := by
  have hmono := daysToMonth_mono y m hd.2.1 hd.2.2.1
  obtain ⟨h1, h2, h3, h4, h5⟩ := hd
  have hy : yearLen y ≤ 366 := by unfold yearLen; split <;> omega
  have e1 := lastDay_eq y (m - 1) (by omega) l hl
  have e2 := lastDay_eq y m h3 l hl
  have e3 : daysToMonth y m = daysToMonth y (m - 1) + monthLen y m := by
    obtain ⟨k, rfl⟩ : ∃ k, m = k + 1 := ⟨m - 1, by omega⟩
    rfl
  rw [getmonth_table l m (by omega) _ (by omega) h2 (by omega) (by omega), e1]
  simp only [Prod.mk.injEq, true_and]
  omega

theorem split_arith (A D h mi s : Nat) (hX : A + D < 365) (t1 : h < 24) (t2 : mi < 60) (t3 : s < 60) :
    (A + D) * 86400 + h * 3600 + mi * 60 + s < 31536000 ∧
    1 + ((A + D) * 86400 + h * 3600 + mi * 60 + s) / 86400 = 1 + A + D ∧
    ((A + D) * 86400 + h * 3600 + mi * 60 + s) / 86400 < 366 ∧
    ((A + D) * 86400 + h * 3600 + mi * 60 + s) % 86400 = h * 3600 + mi * 60 + s ∧
    (h * 3600 + mi * 60 + s) / 3600 < 25 ∧
    (h * 3600 + mi * 60 + s) % 3600 / 60 < 61 ∧
    0 + (h * 3600 + mi * 60 + s) / 3600 = h ∧
    0 + (h * 3600 + mi * 60 + s) % 3600 / 60 = mi ∧
    (h * 3600 + mi * 60 + s) % 3600 % 60 = s := by
  refine ⟨?_, ?_, ?_, ?_, ?_, ?_, ?_, ?_, ?_⟩ <;> omega

/-- **C31 (printing), what holds.**  For every printable date whose seconds fit 32 bits, the date printed for these seconds is
that date.  Missing with respect to `C31_print_full`: the years 1901-2000 and 31 December of leap years. -/
theorem C31_print_partial (y m d h mi s : Nat) (hd : ValidDate y m d) (ht : ValidTime h mi s) (hp : Printable y m d)
    (hs : seconds y m d h mi s < 4294967296) : toISO (seconds y m d h mi s) = some ⟨y, m, d, h, mi, s⟩ := by
  have hd' := hd
  obtain ⟨h1, h2, h3, h4, h5⟩ := hd
  obtain ⟨t1, t2, t3⟩ := ht
  have hmono := daysToMonth_mono y m h2 h3
  -- the day of the year
  have hdoy : daysToMonth y (m - 1) + (d - 1) < 365 := by
    rcases hp with rfl | ⟨hy, hn⟩
    · have : yearLen 1900 = 365 := by decide
      omega
    · by_cases hL : Leap y
      · have e : yearLen y = 366 := by simp [yearLen, hL]
        by_cases hm : m = 12
        · subst hm
          have : d ≠ 31 := fun h => hn ⟨hL, rfl, h⟩
          have : monthLen y 12 = 31 := rfl
          omega
        · have : daysToMonth y (m - 1) + monthLen y m + monthLen y (m + 1) ≤ yearLen y := by
            have := daysToMonth_mono y (m + 1) (by omega) (by omega)
            obtain ⟨k, rfl⟩ : ∃ k, m = k + 1 := ⟨m - 1, by omega⟩
            exact this
          have := monthLen_pos y (m + 1) (by omega) (by omega)
          omega
      · have e : yearLen y = 365 := by simp [yearLen, hL]
        omega
  obtain ⟨hr, hq1, hq2, hq3, hq4, hq5, hq6, hq7, hq8⟩ := split_arith (daysToMonth y (m - 1)) (d - 1) h mi s hdoy t1 t2 t3
  obtain ⟨k, rfl⟩ : ∃ k, y = 1900 + k := ⟨y - 1900, by omega⟩
  have hk : k < 137 := by
    apply Classical.byContradiction
    intro hn
    have h := daysToYear_mono 137 (k - 137)
    rw [show 137 + (k - 137) = k by omega] at h
    have := daysToYear_137
    unfold seconds dayNumber at hs
    rw [show 1900 + k - 1900 = k by omega] at hs
    omega
  have hcd : codeDays k = daysToYear k := codeDays_eq k hk (by unfold Printable at hp; omega)
  have hyl : yearLoop 65536 0 (seconds (1900 + k) m d h mi s) =
      some (k, (daysToMonth (1900 + k) (m - 1) + (d - 1)) * 86400 + h * 3600 + mi * 60 + s) := by
    have hse : seconds (1900 + k) m d h mi s = (codeDays (0 + k) - codeDays 0) * 86400 +
        ((daysToMonth (1900 + k) (m - 1) + (d - 1)) * 86400 + h * 3600 + mi * 60 + s) := by
      rw [Nat.zero_add, show codeDays 0 = 0 from rfl, hcd]
      unfold seconds dayNumber
      rw [show 1900 + k - 1900 = k by omega]
      omega
    rw [hse] at hs ⊢
    have hlt : k < 65536 := Nat.lt_trans hk (by decide)
    have := yearLoop_eq k 65536 0 _ hlt hr hs
    rw [this, Nat.zero_add]
  clear hs hcd
  unfold toISO
  rw [hyl, bnd]
  simp only
  rw [divLoop_eq 86400 (by omega) 366 1 _ hq2, bnd]
  simp only
  rw [hq1, hq3, divLoop_eq 3600 (by omega) 25 0 _ hq4, bnd]
  simp only
  rw [divLoop_eq 60 (by omega) 61 0 _ hq5, bnd]
  simp only
  rw [Nat.add_comm k 1900, getmonth_eq (1900 + k) m d hd' _ (isleap_iff (1900 + k) (by omega))]
  simp only [Option.pure_def, Option.some.injEq, DateTime.mk.injEq]
  exact ⟨trivial, trivial, trivial, hq6, hq7, hq8⟩

/-- **C31 (round trip), what holds.**  Every second from 2001-01-01 to the end of the NTP era, except those of 31 December of
leap years, is printed as its calendar date and parsed back to the same second. -/
theorem C31_roundtrip_partial (n : Nat) (hn : n < 4294967296) :
    ∃ y m d h mi s, ValidDate y m d ∧ ValidTime h mi s ∧ seconds y m d h mi s = n ∧
      (Printable y m d → toISO n = some ⟨y, m, d, h, mi, s⟩ ∧ (toISO n >>= fromISO) = some n) := by
  obtain ⟨y, m, d, h, mi, s, hv, ht, he⟩ := exists_datetime n
  refine ⟨y, m, d, h, mi, s, hv, ht, he, ?_⟩
  intro hp
  have h1 := C31_print_partial y m d h mi s hv ht hp (by omega)
  rw [he] at h1
  refine ⟨h1, ?_⟩
  rw [h1, bnd, C31_parse y m d h mi s hv ?_ ht, he, Nat.mod_eq_of_lt hn]
  have hmono := daysToYear_mono 137 (y - 1900 - 137)
  have := daysToYear_137
  by_cases hy : y < 32768
  · exact hy
  · rw [show 137 + (y - 1900 - 137) = y - 1900 by omega] at hmono
    unfold seconds dayNumber at he
    omega

/-- The full claim. -/
def C31_print_full : Prop :=
  ∀ y m d h mi s, ValidDate y m d → ValidTime h mi s → seconds y m d h mi s < 4294967296 →
    toISO (seconds y m d h mi s) = some ⟨y, m, d, h, mi, s⟩

/-- It fails in the twentieth century: 1950-01-01 is printed as 1949-12-31. -/
theorem C31_print_1950 : seconds 1950 1 1 12 0 0 = 1577880000 ∧ toISO 1577880000 = some ⟨1949, 12, 31, 12, 0, 0⟩ := by
  decide +kernel

/-- It fails on the last day of leap years, where an unsigned subtraction wraps: 2020-12-31T12:00:00 is printed as a date in
the 22nd century. -/
theorem C31_print_leap_end :
    seconds 2020 12 31 12 0 0 = 3818404800 ∧ toISO 3818404800 ≠ some ⟨2020, 12, 31, 12, 0, 0⟩ ∧
    (toISO 3818404800).map (·.year) = some 2157 := by decide +kernel

theorem C31_print_full_fails : ¬ C31_print_full := by
  intro hf
  have := hf 1950 1 1 12 0 0 (by simp [ValidDate, monthLen]) (by simp [ValidTime]) (by decide +kernel)
  rw [C31_print_1950.1, C31_print_1950.2] at this
  exact absurd this (by decide)

example : Printable 2024 2 29 ∧ toISO (seconds 2024 2 29 23 59 58) = some ⟨2024, 2, 29, 23, 59, 58⟩ :=
  ⟨by unfold Printable; decide, C31_print_partial 2024 2 29 23 59 58 (by unfold ValidDate; decide) (by unfold ValidTime; decide)
    (by unfold Printable; decide) (by decide +kernel)⟩

end Libo.Props
