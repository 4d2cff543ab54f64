import Verif.Timetag
import Verif.CalSpec
import Verif.ByteOrderLemmas
import Verif.BundleSLemmas

namespace Libo.Cal
open CalSpec

theorem subDown_spec (step : Nat) (hs : 0 < step) : ∀ (f : Nat) (y : Nat), y ≤ f →
    subDown step f y ≤ 0 ∧ (subDown step f y = 0 ↔ step ∣ y) := by
  intro f
  induction f with
  | zero =>
    intro y h
    have : y = 0 := by omega
    subst this
    simp [subDown]
  | succ f ih =>
    intro y h
    unfold subDown
    by_cases hy : (y : Int) > 0
    · rw [if_pos hy]
      by_cases hle : step ≤ y
      · have := ih (y - step) (by omega)
        rw [show (y : Int) - step = ((y - step : Nat) : Int) by omega]
        refine ⟨this.1, this.2.trans ?_⟩
        constructor
        · rintro ⟨q, hq⟩
          exact ⟨q + 1, by rw [Nat.mul_add, ← hq]; omega⟩
        · rintro ⟨q, hq⟩
          refine ⟨q - 1, ?_⟩
          cases q with
          | zero => simp at hq; omega
          | succ q => rw [hq, Nat.mul_add]; simp
      · have h0 : subDown step f ((y : Int) - step) = (y : Int) - step := by
          cases f with
          | zero => rfl
          | succ f => unfold subDown; rw [if_neg (by omega)]
        rw [h0]
        refine ⟨by omega, ?_⟩
        constructor
        · intro h; omega
        · rintro ⟨q, hq⟩
          cases q with
          | zero => simp at hq; omega
          | succ q => rw [Nat.mul_add] at hq; omega
    · rw [if_neg hy]
      have : y = 0 := by omega
      subst this
      simp

theorem isleap_iff (y : Nat) (h : y < 32768) : isleap y = true ↔ Leap y := by
  have e : toI16 y = y := by unfold toI16; rw [Nat.mod_eq_of_lt (by omega), if_pos h]
  have h400 : subDown 400 32768 y ≤ 0 ∧ (subDown 400 32768 y = 0 ↔ 400 ∣ y) := subDown_spec 400 (by omega) 32768 y (by omega)
  have h4 : subDown 4 32768 y ≤ 0 ∧ (subDown 4 32768 y = 0 ↔ 4 ∣ y) := subDown_spec 4 (by omega) 32768 y (by omega)
  have h100 : subDown 100 32768 y ≤ 0 ∧ (subDown 100 32768 y = 0 ↔ 100 ∣ y) := subDown_spec 100 (by omega) 32768 y (by omega)
  unfold isleap Leap
  simp only [e]
  by_cases c400 : 400 ∣ y
  · have : 4 ∣ y := Nat.dvd_trans (by decide) c400
    rw [if_pos (h400.2.mpr c400)]
    simp [c400, this]
  · rw [if_neg (fun h => c400 (h400.2.mp h))]
    by_cases c4 : 4 ∣ y
    · rw [if_pos (h4.2.mpr c4)]
      by_cases c100 : 100 ∣ y
      · rw [if_neg (by have := h100.2.mpr c100; omega)]
        simp [c100, c400]
      · rw [if_pos (by
          have : ¬ subDown 100 32768 (y : Int) = 0 := fun h => c100 (h100.2.mp h)
          have := h100.1
          omega)]
        simp [c100, c4]
    · rw [if_neg (fun h => c4 (h4.2.mp h))]
      simp [c4]

theorem divLoop_eq (step : Nat) (hs : 0 < step) : ∀ (f n secs : Nat), secs / step < f →
    divLoop step f n secs = some (n + secs / step, secs % step) := by
  intro f
  induction f with
  | zero => intro n secs h; exact absurd h (Nat.not_lt_zero _)
  | succ f ih =>
    intro n secs h
    unfold divLoop
    by_cases hc : secs ≥ step
    · have h1 : secs / step = (secs - step) / step + 1 := by
        rw [← Nat.add_div_right _ hs]; congr 1; omega
      have h2 : (secs - step) % step = secs % step := by
        rw [← Nat.add_mod_right (secs - step)]; congr 1; omega
      rw [if_pos hc, ih _ _ (by omega), h1, h2]
      congr 2
      omega
    · have h1 : secs / step = 0 := Nat.div_eq_of_lt (by omega)
      have h2 : secs % step = secs := Nat.mod_eq_of_lt (by omega)
      rw [if_neg hc, h1, h2]; rfl

/-- What the printing loop believes the first `j` years to last, in days. -/
def codeDays : Nat → Nat
  | 0 => 0
  | j + 1 => codeDays j + (if isleap j then 366 else 365)

theorem yearLoop_eq (d : Nat) : ∀ (f j r : Nat), d < f → r < 31536000 →
    (codeDays (j + d) - codeDays j) * 86400 + r < 4294967296 →
    yearLoop f j ((codeDays (j + d) - codeDays j) * 86400 + r) = some (j + d, r) := by
  induction d with
  | zero =>
    intro f j r hf hr hlt
    match f, hf with
    | f + 1, _ =>
      unfold yearLoop
      rw [if_neg (by simp; omega)]
      simp
  | succ d ih =>
    intro f j r hf hr hlt
    match f, hf with
    | f + 1, hf =>
      have hmono : ∀ a b, codeDays a ≤ codeDays (a + b) := by
        intro a b
        induction b with
        | zero => exact Nat.le_refl _
        | succ b ih => rw [← Nat.add_assoc, codeDays]; omega
      have hm := hmono (j + 1) d
      have e : j + (d + 1) = j + 1 + d := by omega
      have hc : codeDays (j + 1) = codeDays j + (if isleap j then 366 else 365) := rfl
      unfold yearLoop
      rw [e] at hlt ⊢
      have key : ∀ S, S = (codeDays (j + 1 + d) - codeDays (j + 1)) * 86400 + r → S < 4294967296 →
          yearLoop f (j + 1) S = some (j + 1 + d, r) := by
        intro S hS hSlt
        rw [hS] at hSlt ⊢
        exact ih f (j + 1) r (by omega) hr hSlt
      cases hl : isleap j with
      | false =>
        rw [hl] at hc
        simp only [Bool.false_eq_true, if_false] at hc
        rw [if_pos (by omega)]
        simp only [Bool.false_eq_true, if_false]
        exact key _ (by omega) (by omega)
      | true =>
        rw [hl] at hc
        simp only [if_true] at hc
        rw [if_pos (by omega)]
        simp only [if_true]
        exact key _ (by omega) (by omega)

end Libo.Cal

namespace Libo.CalSpec

theorem daysToMonth_12 (y : Nat) : daysToMonth y 12 = yearLen y := by
  simp only [daysToMonth, monthLen, yearLen]
  split <;> rfl

theorem monthLen_pos (y m : Nat) (h1 : 1 ≤ m) (h2 : m ≤ 12) : 28 ≤ monthLen y m := by
  match m, h1, h2 with
  | 1, _, _ | 3, _, _ | 4, _, _ | 5, _, _ | 6, _, _ | 7, _, _ | 8, _, _ | 9, _, _ | 10, _, _ | 11, _, _ | 12, _, _ =>
    simp [monthLen]
  | 2, _, _ => simp only [monthLen]; split <;> omega

/-- Every day number is the number of a date. -/
theorem exists_date (n : Nat) : ∃ y m d, ValidDate y m d ∧ dayNumber y m d = n := by
  induction n with
  | zero => exact ⟨1900, 1, 1, by simp [ValidDate, monthLen], by decide⟩
  | succ n ih =>
    obtain ⟨y, m, d, ⟨h1, h2, h3, h4, h5⟩, hn⟩ := ih
    by_cases hd : d < monthLen y m
    · refine ⟨y, m, d + 1, ⟨h1, h2, h3, by omega, by omega⟩, ?_⟩
      unfold dayNumber at hn ⊢; omega
    · by_cases hm : m < 12
      · refine ⟨y, m + 1, 1, ⟨h1, by omega, by omega, by omega, ?_⟩, ?_⟩
        · have := monthLen_pos y (m + 1) (by omega) (by omega); omega
        · unfold dayNumber at hn ⊢
          have : daysToMonth y (m + 1 - 1) = daysToMonth y (m - 1) + monthLen y m := by
            obtain ⟨k, rfl⟩ : ∃ k, m = k + 1 := ⟨m - 1, by omega⟩
            rfl
          omega
      · have hm12 : m = 12 := by omega
        subst hm12
        refine ⟨y + 1, 1, 1, ⟨by omega, by omega, by omega, by omega, ?_⟩, ?_⟩
        · simp [monthLen]
        · unfold dayNumber at hn ⊢
          have e1 : daysToYear (y + 1 - 1900) = daysToYear (y - 1900) + yearLen y := by
            obtain ⟨k, rfl⟩ : ∃ k, y = 1900 + k := ⟨y - 1900, by omega⟩
            rw [show 1900 + k + 1 - 1900 = k + 1 by omega, show 1900 + k - 1900 = k by omega]; rfl
          have e2 := daysToMonth_12 y
          have e3 : daysToMonth y 12 = daysToMonth y (12 - 1) + monthLen y 12 := rfl
          have e4 : daysToMonth (y + 1) (1 - 1) = 0 := rfl
          rw [e2] at e3
          rw [e1, e4, e3]
          clear e1 e2 e3 e4
          generalize daysToYear (y - 1900) = A at hn ⊢
          generalize daysToMonth y (12 - 1) = B at hn ⊢
          omega

/-- Every second is the second of a date and time. -/
theorem exists_datetime (n : Nat) : ∃ y m d h mi s, ValidDate y m d ∧ ValidTime h mi s ∧ seconds y m d h mi s = n := by
  obtain ⟨y, m, d, hv, hn⟩ := exists_date (n / 86400)
  refine ⟨y, m, d, n % 86400 / 3600, n % 3600 / 60, n % 60, hv, ⟨by omega, by omega, by omega⟩, ?_⟩
  unfold seconds; rw [hn]; omega

end Libo.CalSpec
