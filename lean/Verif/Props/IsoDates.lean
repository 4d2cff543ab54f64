import Verif.Props.IsoText
/-!
# C31: which dates are printed for all seconds

`osc_timetag_toISO8601` goes through the years since 1900 as if they were the years since 0, so that it takes 1900 for a leap year and 2000
for a common year, and takes the extra day of a leap year off even if there is less than a day left.
-/

namespace Libo.Props
open Libo Libo.Cal Libo.CalSpec Libo.Iso

theorem codeDays_mono (a b : Nat) : codeDays a ≤ codeDays (a + b) := by
  induction b with
  | zero => exact Nat.le_refl _
  | succ b ih => rw [← Nat.add_assoc, codeDays]; omega

/-- The year loop takes off whole years. -/
theorem yearLoop_prefix (d : Nat) : ∀ (f j x : Nat), (codeDays (j + d) - codeDays j) * 86400 + x < 4294967296 →
    yearLoop (f + d) j ((codeDays (j + d) - codeDays j) * 86400 + x) = yearLoop f (j + d) x := by
  induction d with
  | zero => intro f j x _; simp
  | succ d ih =>
    intro f j x hlt
    have hm := codeDays_mono (j + 1) d
    have e : j + (d + 1) = j + 1 + d := by omega
    have hc : codeDays (j + 1) = codeDays j + (if isleap j then 366 else 365) := rfl
    rw [e] at hlt ⊢
    have key : ∀ S, S = (codeDays (j + 1 + d) - codeDays (j + 1)) * 86400 + x → S < 4294967296 →
        yearLoop (f + d) (j + 1) S = yearLoop f (j + 1 + d) x := by
      intro S hS hSlt
      rw [hS] at hSlt ⊢
      exact ih f (j + 1) x hSlt
    rw [show f + (d + 1) = (f + d) + 1 by omega, yearLoop]
    cases hl : isleap j with
    | false =>
      rw [hl] at hc
      simp only [Bool.false_eq_true, if_false] at hc
      rw [if_pos (by omega)]
      simp only [Bool.false_eq_true, if_false]
      exact key _ (by omega) (by omega)
    | true =>
      rw [hl] at hc
      simp only [if_true] at hc
      rw [if_pos (by omega)]
      simp only [if_true]
      exact key _ (by omega) (by omega)

/-- Every day of a year has a date. -/
theorem day_date (y D : Nat) : ∀ M, M ≤ 12 → D < daysToMonth y M → ∃ m d, 1 ≤ m ∧ m ≤ 12 ∧ 1 ≤ d ∧ d ≤ monthLen y m ∧ daysToMonth y (m - 1) + (d - 1) = D
  | 0, _, h => by simp [daysToMonth] at h
  | M + 1, hM, h => by
    by_cases h2 : D < daysToMonth y M
    · exact day_date y D M (by omega) h2
    · rw [daysToMonth] at h
      exact ⟨M + 1, D - daysToMonth y M + 1, by omega, hM, by omega, by omega, by rw [Nat.add_sub_cancel]; omega⟩

/-- The second `r` of the year `y` is at this date and time. -/
def InYear (y r m d h mi s : Nat) : Prop := ValidDate y m d ∧ ValidTime h mi s ∧ r = (daysToMonth y (m - 1) + (d - 1)) * 86400 + h * 3600 + mi * 60 + s

theorem toISO_year (n k r : Nat) (hl : yearLoop 65536 0 n = some (k, r)) (hr : r < 31536000) (hk : k < 1000) :
    ∃ m d h mi s, InYear (1900 + k) r m d h mi s ∧ toISO n = some ⟨1900 + k, m, d, h, mi, s⟩ := by
  have hy : 365 ≤ yearLen (1900 + k) := by unfold yearLen; split <;> omega
  obtain ⟨m, d, a1, a2, a3, a4, a5⟩ := day_date (1900 + k) (r / 86400) 12 (Nat.le_refl _) (by rw [daysToMonth_12]; omega)
  have hv : ValidDate (1900 + k) m d := ⟨by omega, a1, a2, a3, a4⟩
  refine ⟨m, d, r % 86400 / 3600, r % 3600 / 60, r % 60, ⟨hv, ⟨by omega, by omega, by omega⟩, by omega⟩, ?_⟩
  have q2 : r / 86400 < 366 := by omega
  have q4 : r % 86400 / 3600 < 25 := by omega
  have q5 : r % 86400 % 3600 / 60 < 61 := by omega
  unfold toISO
  rw [hl, bnd]
  simp only
  rw [divLoop_eq 86400 (by omega) 366 1 _ q2, bnd]
  simp only
  rw [divLoop_eq 3600 (by omega) 25 0 _ q4, bnd]
  simp only
  rw [divLoop_eq 60 (by omega) 61 0 _ q5, bnd]
  simp only
  rw [Nat.add_comm k 1900, show 1 + r / 86400 = 1 + daysToMonth (1900 + k) (m - 1) + (d - 1) by omega,
    getmonth_eq (1900 + k) m d hv _ (isleap_iff (1900 + k) (by omega))]
  simp only [Option.pure_def, Option.some.injEq, DateTime.mk.injEq]
  refine ⟨trivial, trivial, trivial, by omega, by omega, by omega⟩

/-- A second of a year. -/
theorem inYear_seconds {y r m d h mi s : Nat} (hi : InYear y r m d h mi s) : seconds y m d h mi s = daysToYear (y - 1900) * 86400 + r := by
  rw [hi.2.2, seconds, dayNumber]; omega

/-- Dates of a year with the same second are the same. -/
theorem day_unique (y m d m' d' : Nat) (h : ValidDate y m d) (h' : ValidDate y m' d') (he : daysToMonth y (m - 1) + (d - 1) = daysToMonth y (m' - 1) + (d' - 1)) :
    m = m' ∧ d = d' := by
  have key : ∀ a b, a ≤ b → daysToMonth y a ≤ daysToMonth y b := by
    intro a b hab
    induction b with
    | zero => rw [show a = 0 by omega]; exact Nat.le_refl _
    | succ b ih =>
      by_cases h : a = b + 1
      · rw [h]; exact Nat.le_refl _
      · have := ih (by omega)
        rw [daysToMonth]; omega
  have lt : ∀ m d m' d', ValidDate y m d → ValidDate y m' d' → m < m' → daysToMonth y (m - 1) + (d - 1) < daysToMonth y (m' - 1) + (d' - 1) := by
    intro m d m' d' h h' hlt
    obtain ⟨_, b1, b2, b3, b4⟩ := h
    have e : daysToMonth y m = daysToMonth y (m - 1) + monthLen y m := by
      obtain ⟨k, rfl⟩ : ∃ k, m = k + 1 := ⟨m - 1, by omega⟩
      rfl
    have := key m (m' - 1) (by omega)
    omega
  rcases Nat.lt_trichotomy m m' with h1 | h1 | h1
  · have := lt m d m' d' h h' h1; omega
  · subst h1
    obtain ⟨_, _, _, b3, _⟩ := h
    obtain ⟨_, _, _, c3, _⟩ := h'
    exact ⟨rfl, by omega⟩
  · have := lt m' d' m d h' h h1; omega

theorem inYear_unique {y r m d h mi s m' d' h' mi' s' : Nat} (a : InYear y r m d h mi s) (b : InYear y r m' d' h' mi' s') :
    m = m' ∧ d = d' ∧ h = h' ∧ mi = mi' ∧ s = s' := by
  obtain ⟨a1, ⟨a2, a3, a4⟩, a5⟩ := a
  obtain ⟨b1, ⟨b2, b3, b4⟩, b5⟩ := b
  have e : daysToMonth y (m - 1) + (d - 1) = daysToMonth y (m' - 1) + (d' - 1) := by omega
  obtain ⟨rfl, rfl⟩ := day_unique y m d m' d' a1 b1 e
  refine ⟨rfl, rfl, ?_, ?_, ?_⟩ <;> omega

/-- What the year loop counts: the first 365 days of the year `k`. -/
theorem print_code (k r m d h mi s : Nat) (hk : k < 137) (hr : r < 31536000) (hn : codeDays k * 86400 + r < 4294967296) (hi : InYear (1900 + k) r m d h mi s) :
    toISO (codeDays k * 86400 + r) = some ⟨1900 + k, m, d, h, mi, s⟩ := by
  have hyl : yearLoop 65536 0 (codeDays k * 86400 + r) = some (k, r) := by
    have := yearLoop_eq k 65536 0 r (by omega) hr (by rw [Nat.zero_add, show codeDays 0 = 0 from rfl]; exact hn)
    rw [Nat.zero_add, show codeDays 0 = 0 from rfl] at this
    exact this
  obtain ⟨m', d', h', mi', s', hi', h2⟩ := toISO_year _ k r hyl hr (by omega)
  obtain ⟨rfl, rfl, rfl, rfl, rfl⟩ := inYear_unique hi hi'
  exact h2

theorem wrap_years : ∀ k, k < 137 → isleap k = true → (codeDays (k + 137) - codeDays (k + 1)) * 86400 ≤ 4294880896 ∧
    4294967296 ≤ (codeDays (k + 137) - codeDays (k + 1)) * 86400 + 31536000 := by decide +kernel

/-- The last day of what the loop takes for a leap year: the date printed is 137 years later. -/
theorem print_wrap (k e : Nat) (hk : k < 137) (he : e < 86400) (hl : isleap k = true) (hn : codeDays k * 86400 + 31536000 + e < 4294967296) :
    ∃ r m d h mi s, InYear (1900 + (k + 137)) r m d h mi s ∧ toISO (codeDays k * 86400 + 31536000 + e) = some ⟨1900 + (k + 137), m, d, h, mi, s⟩ := by
  have h1 := yearLoop_prefix k (65536 - k) 0 (31536000 + e) (by rw [Nat.zero_add, show codeDays 0 = 0 from rfl, Nat.sub_zero, ← Nat.add_assoc]; exact hn)
  rw [Nat.zero_add, show codeDays 0 = 0 from rfl, Nat.sub_zero, Nat.sub_add_cancel (by omega), ← Nat.add_assoc] at h1
  have hw : (31536000 + e - 31536000 + 4294967296 - 86400) % 4294967296 = 4294880896 + e := by clear hn h1; omega
  have h2 : yearLoop (65536 - k) k (31536000 + e) = yearLoop (65535 - k) (k + 1) (4294880896 + e) := by
    rw [show 65536 - k = (65535 - k) + 1 by omega, yearLoop, if_pos (Nat.le_add_right _ _)]
    simp only [hl, if_true, hw]
  obtain ⟨w1, w2⟩ := wrap_years k hk hl
  have h3 := yearLoop_eq 136 (65535 - k) (k + 1)
  rw [Nat.add_assoc k 1 136] at h3
  obtain ⟨c, hc⟩ : ∃ c, (codeDays (k + 137) - codeDays (k + 1)) * 86400 = c := ⟨_, rfl⟩
  rw [hc] at w1 w2 h3
  obtain ⟨r, hr⟩ : ∃ r, r = 4294880896 + e - c := ⟨_, rfl⟩
  have hcr : c + r = 4294880896 + e := by clear h1 h2 h3 hn hc; omega
  have hr2 : r < 31536000 := by clear h1 h2 h3 hn hc; omega
  have h4 := h3 r (by omega) hr2 (by rw [hcr]; clear h1 h2 h3 hn w1 w2 hc; omega)
  rw [hcr] at h4
  obtain ⟨m, d, h, mi, s, hi, h5⟩ := toISO_year _ (k + 137) r (by rw [h1, h2, h4]) hr2 (by omega)
  exact ⟨_, m, d, h, mi, s, hi, h5⟩

theorem codeDays_century : ∀ k, k < 101 → 1 ≤ k → codeDays k = daysToYear k + 1 := by decide +kernel
theorem isleap_century : ∀ k, k < 100 → k % 4 = 0 → isleap k = true ∧ codeDays (k + 1) = codeDays k + 366 := by decide +kernel
theorem isleap_late : ∀ k, k < 137 → 101 ≤ k → Leap (1900 + k) → isleap k = true := by decide +kernel

/-- The days of a year. -/
theorem dayNumber_year (y m d : Nat) (h : ValidDate y m d) : daysToYear (y - 1900) ≤ dayNumber y m d ∧ dayNumber y m d < daysToYear (y - 1900) + yearLen y := by
  have := daysToMonth_mono y m h.2.1 h.2.2.1
  obtain ⟨_, _, _, h4, h5⟩ := h
  unfold dayNumber
  omega

theorem inYear_date (y m d h mi s : Nat) (hd : ValidDate y m d) (ht : ValidTime h mi s) :
    InYear y ((dayNumber y m d - daysToYear (y - 1900)) * 86400 + h * 3600 + mi * 60 + s) m d h mi s :=
  ⟨hd, ht, by unfold dayNumber; rw [Nat.add_assoc (daysToYear (y - 1900)), Nat.add_sub_cancel_left]⟩

theorem year_bound (y m d h mi s : Nat) (hd : ValidDate y m d) (hs : seconds y m d h mi s < 4294967296) : y < 2037 := by
  apply Classical.byContradiction
  intro hn
  have h := daysToYear_mono 137 (y - 1900 - 137)
  rw [show 137 + (y - 1900 - 137) = y - 1900 by omega] at h
  have := daysToYear_137
  unfold seconds dayNumber at hs
  omega

/-- The day before a date is in the same year or the year before. -/
theorem before_year (y m d y' m' d' : Nat) (hd : ValidDate y m d) (hd' : ValidDate y' m' d') (hp : dayNumber y' m' d' + 1 = dayNumber y m d) :
    y' = y ∨ (y' + 1 = y ∧ dayNumber y m d = daysToYear (y - 1900)) := by
  obtain ⟨b1, b2⟩ := dayNumber_year y m d hd
  obtain ⟨c1, c2⟩ := dayNumber_year y' m' d' hd'
  have h1 := hd.1
  have h1' := hd'.1
  have step : ∀ z, 1900 ≤ z → daysToYear (z + 1 - 1900) = daysToYear (z - 1900) + yearLen z := fun z hz => by
    rw [show z + 1 - 1900 = z - 1900 + 1 by omega, daysToYear, show 1900 + (z - 1900) = z by omega]
  have mono : ∀ a b, 1900 ≤ a → a ≤ b → daysToYear (a - 1900) ≤ daysToYear (b - 1900) := fun a b ha hab => by
    have := daysToYear_mono (a - 1900) (b - a)
    rw [show a - 1900 + (b - a) = b - 1900 by omega] at this
    exact this
  have pos : ∀ z, 365 ≤ yearLen z := fun z => by unfold yearLen; split <;> omega
  rcases Nat.lt_trichotomy y' y with hlt | rfl | hgt
  · have e1 := step y' h1'
    have e2 := mono (y' + 1) y (by omega) (by omega)
    by_cases h2 : y' + 1 = y
    · subst h2
      exact .inr ⟨rfl, by omega⟩
    · have e3 := step (y' + 1) (by omega)
      have e4 := mono (y' + 1 + 1) y (by omega) (by omega)
      have := pos (y' + 1)
      omega
  · exact .inl rfl
  · have e1 := step y h1
    have e2 := mono (y + 1) y' (by omega) (by omega)
    omega

/-- **C31 (printing in the twentieth century).**  In 1901-2000 the date of the day before is printed, except on the first of January after a
year that is divisible by four. -/
theorem C31_print_century (y m d h mi s y' m' d' : Nat) (hd : ValidDate y m d) (ht : ValidTime h mi s) (h1 : 1901 ≤ y) (h2 : y ≤ 2000)
    (hx : ¬ (m = 1 ∧ d = 1 ∧ 4 ∣ y - 1)) (hd' : ValidDate y' m' d') (hp : dayNumber y' m' d' + 1 = dayNumber y m d) :
    toISO (seconds y m d h mi s) = some ⟨y', m', d', h, mi, s⟩ := by
  have hi := inYear_date y' m' d' h mi s hd' ht
  obtain ⟨b1, b2⟩ := dayNumber_year y m d hd
  obtain ⟨c1, c2⟩ := dayNumber_year y' m' d' hd'
  have hlen : ∀ z, yearLen z ≤ 366 := fun z => by unfold yearLen; split <;> omega
  have key : ∃ k, y' = 1900 + k ∧ 1 ≤ k ∧ k < 101 ∧ dayNumber y' m' d' - daysToYear k < 365 := by
    rcases before_year y m d y' m' d' hd hd' hp with rfl | ⟨rfl, he⟩
    · have := hlen y'
      exact ⟨y' - 1900, by omega, by omega, by omega, by omega⟩
    · have hmd : m = 1 ∧ d = 1 := by
        unfold dayNumber at he
        have h0 : daysToMonth (y' + 1) (m - 1) = 0 := by omega
        have hm : m = 1 := by
          apply Classical.byContradiction
          intro hm
          obtain ⟨_, e1, e2, _, _⟩ := hd
          obtain ⟨j, hj⟩ : ∃ j, m - 1 = j + 1 := ⟨m - 2, by omega⟩
          rw [hj, daysToMonth] at h0
          have := monthLen_pos (y' + 1) (j + 1) (by omega) (by omega)
          omega
        obtain ⟨_, _, _, e3, _⟩ := hd
        exact ⟨hm, by omega⟩
      have h4 : ¬ 4 ∣ y' := fun h4 => hx ⟨hmd.1, hmd.2, by rw [Nat.add_sub_cancel]; exact h4⟩
      have hl : yearLen y' = 365 := by unfold yearLen; rw [if_neg (fun h : Leap y' => h4 h.1)]
      have h0 := hd'.1
      exact ⟨y' - 1900, by omega, by omega, by omega, by omega⟩
  obtain ⟨k, rfl, k1, k2, k3⟩ := key
  have hc := codeDays_century k k2 k1
  have e : 1900 + k - 1900 = k := by omega
  rw [e] at hi c1 c2
  obtain ⟨t1, t2, t3⟩ := ht
  have hb : codeDays k ≤ 36525 := by
    have := codeDays_mono k (100 - k)
    rw [show k + (100 - k) = 100 by omega] at this
    exact Nat.le_trans this (by decide +kernel)
  have hsec : seconds y m d h mi s = codeDays k * 86400 + ((dayNumber (1900 + k) m' d' - daysToYear k) * 86400 + h * 3600 + mi * 60 + s) := by
    rw [hc, seconds, ← hp]
    omega
  rw [hsec]
  exact print_code k _ m' d' h mi s (by omega) (by omega) (by omega) hi

/-- The days on which a date of a wrong year is printed: the last day of leap years from 2001 on, and the first day after a year divisible by four in
1900-1996. -/
def WrongYear (y m d : Nat) : Prop := (2001 ≤ y ∧ Leap y ∧ m = 12 ∧ d = 31) ∨ (1901 ≤ y ∧ y ≤ 2000 ∧ 4 ∣ y - 1 ∧ m = 1 ∧ d = 1)

/-- **C31 (printing on the other days).**  The date printed is 136 or 137 years later. -/
theorem C31_print_wrong_year (y m d h mi s : Nat) (hd : ValidDate y m d) (ht : ValidTime h mi s) (hs : seconds y m d h mi s < 4294967296)
    (hw : WrongYear y m d) : ∃ y' m' d' h' mi' s', toISO (seconds y m d h mi s) = some ⟨y', m', d', h', mi', s'⟩ ∧ ValidDate y' m' d' ∧ ValidTime h' mi' s' ∧
      y + 136 ≤ y' ∧ y' ≤ y + 137 := by
  have hy := year_bound y m d h mi s hd hs
  obtain ⟨t1, t2, t3⟩ := ht
  rcases hw with ⟨w1, w2, rfl, rfl⟩ | ⟨w1, w2, ⟨j, w3⟩, rfl, rfl⟩
  · obtain ⟨k, rfl⟩ : ∃ k, y = 1900 + k := ⟨y - 1900, by omega⟩
    have hl := isleap_late k (by omega) (by omega) w2
    have hc := codeDays_eq k (by omega) (by omega)
    have hdm : daysToMonth (1900 + k) 12 = 366 := by rw [daysToMonth_12, yearLen, if_pos w2]
    have hdm2 : daysToMonth (1900 + k) 11 = 335 := by
      rw [daysToMonth] at hdm
      have : monthLen (1900 + k) (11 + 1) = 31 := rfl
      omega
    have hsec : seconds (1900 + k) 12 31 h mi s = codeDays k * 86400 + 31536000 + (h * 3600 + mi * 60 + s) := by
      rw [hc, seconds, dayNumber, show 1900 + k - 1900 = k by omega, hdm2]; omega
    have hk : k < 137 := by omega
    have hel : h * 3600 + mi * 60 + s < 86400 := by omega
    rw [hsec] at hs ⊢
    obtain ⟨r, m', d', h', mi', s', hi, h2⟩ := print_wrap k _ hk hel hl hs
    clear hs hsec
    exact ⟨_, m', d', h', mi', s', h2, hi.1, hi.2.1, by omega, by omega⟩
  · obtain ⟨k, rfl⟩ : ∃ k, y = 1900 + (k + 1) := ⟨y - 1901, by omega⟩
    obtain ⟨hl, hc1⟩ := isleap_century k (by omega) (by omega)
    have hc := codeDays_century (k + 1) (by omega) (by omega)
    have hsec : seconds (1900 + (k + 1)) 1 1 h mi s = codeDays k * 86400 + 31536000 + (h * 3600 + mi * 60 + s) := by
      rw [seconds, dayNumber, show 1900 + (k + 1) - 1900 = k + 1 by omega, show daysToMonth (1900 + (k + 1)) (1 - 1) = 0 from rfl]; omega
    have hk : k < 137 := by omega
    have hel : h * 3600 + mi * 60 + s < 86400 := by omega
    rw [hsec] at hs ⊢
    obtain ⟨r, m', d', h', mi', s', hi, h2⟩ := print_wrap k _ hk hel hl hs
    clear hs hsec
    exact ⟨_, m', d', h', mi', s', h2, hi.1, hi.2.1, by omega, by omega⟩

/-- Printable dates, dates of the twentieth century with the date before printed, and dates with a wrong year printed are all there are. -/
theorem date_cases (y m d : Nat) (hd : ValidDate y m d) : Printable y m d ∨ WrongYear y m d ∨ (1901 ≤ y ∧ y ≤ 2000 ∧ ¬ (m = 1 ∧ d = 1 ∧ 4 ∣ y - 1)) := by
  have h1 := hd.1
  unfold Printable WrongYear
  by_cases a : y = 1900
  · exact .inl (.inl a)
  · by_cases b : 2001 ≤ y
    · by_cases c : Leap y ∧ m = 12 ∧ d = 31
      · exact .inr (.inl (.inl ⟨b, c⟩))
      · exact .inl (.inr ⟨b, c⟩)
    · by_cases c : m = 1 ∧ d = 1 ∧ 4 ∣ y - 1
      · exact .inr (.inl (.inr ⟨by omega, by omega, c.2.2, c.1, c.2.1⟩))
      · exact .inr (.inr ⟨by omega, by omega, c⟩)

/-- **C31 (printing, for all dates).**  The date printed for a second is right exactly for the printable dates. -/
theorem C31_print_iff (y m d h mi s : Nat) (hd : ValidDate y m d) (ht : ValidTime h mi s) (hs : seconds y m d h mi s < 4294967296) :
    toISO (seconds y m d h mi s) = some ⟨y, m, d, h, mi, s⟩ ↔ Printable y m d := by
  refine ⟨fun hp => ?_, fun hp => C31_print_partial y m d h mi s hd ht hp hs⟩
  rcases date_cases y m d hd with h1 | h1 | ⟨h1, h2, h3⟩
  · exact h1
  · obtain ⟨y', m', d', h', mi', s', e, -, -, hy, -⟩ := C31_print_wrong_year y m d h mi s hd ht hs h1
    rw [hp] at e
    cases e
    omega
  · have hpos : 1 ≤ dayNumber y m d := by
      have := (dayNumber_year y m d hd).1
      have h3 := daysToYear_mono 1 (y - 1901)
      rw [show 1 + (y - 1901) = y - 1900 by omega, show daysToYear 1 = 365 by decide] at h3
      omega
    obtain ⟨y', m', d', hd', he⟩ := exists_date (dayNumber y m d - 1)
    have := C31_print_century y m d h mi s y' m' d' hd ht h1 h2 h3 hd' (by omega)
    rw [hp] at this
    cases this
    omega

/-- **C31 (printing, for all seconds).**  For every second some date of the calendar is printed. -/
theorem C31_print_total (n : Nat) (hn : n < 4294967296) :
    ∃ y m d h mi s, toISO n = some ⟨y, m, d, h, mi, s⟩ ∧ ValidDate y m d ∧ ValidTime h mi s ∧ y < 2200 := by
  obtain ⟨y, m, d, h, mi, s, hd, ht, rfl⟩ := exists_datetime n
  have hy := year_bound y m d h mi s hd hn
  rcases date_cases y m d hd with h1 | h1 | ⟨h1, h2, h3⟩
  · exact ⟨y, m, d, h, mi, s, C31_print_partial y m d h mi s hd ht h1 hn, hd, ht, by omega⟩
  · obtain ⟨y', m', d', h', mi', s', e, a1, a2, -, a3⟩ := C31_print_wrong_year y m d h mi s hd ht hn h1
    exact ⟨y', m', d', h', mi', s', e, a1, a2, by omega⟩
  · have hpos : 1 ≤ dayNumber y m d := by
      have := (dayNumber_year y m d hd).1
      have h3 := daysToYear_mono 1 (y - 1901)
      rw [show 1 + (y - 1901) = y - 1900 by omega, show daysToYear 1 = 365 by decide] at h3
      omega
    obtain ⟨y', m', d', hd', he⟩ := exists_date (dayNumber y m d - 1)
    have hp : dayNumber y' m' d' + 1 = dayNumber y m d := by omega
    refine ⟨y', m', d', h, mi, s, C31_print_century y m d h mi s y' m' d' hd ht h1 h2 h3 hd' hp, hd', ht, ?_⟩
    rcases before_year y m d y' m' d' hd hd' hp with h | h <;> omega

/-- **C31 (texts, for all time tags).**  Every time tag has a text of 27 characters: a date of the calendar and six digits. -/
theorem C31_text_total (t : Timetag) : ∃ x y m d h mi s k, isoText t = some x ∧ x.length = 27 ∧ x = isoDate y m d h mi s ++ [46] ++ digits 6 k ++ [90] ∧
    ValidDate y m d ∧ ValidTime h mi s ∧ k < 1000000 ∧ toISO t.sec.toNat = some ⟨y, m, d, h, mi, s⟩ ∧
    (t.frac.toNat + 12885 < 2 ^ 32 → Millionths t.frac.toNat k) := by
  obtain ⟨y, m, d, h, mi, s, e, hd, ht, hy⟩ := C31_print_total t.sec.toNat t.sec.toNat_lt
  have := monthLen_le y m
  obtain ⟨a1, a2, a3, a4, a5⟩ := hd
  obtain ⟨b1, b2, b3⟩ := ht
  obtain ⟨v, hv, h2⟩ := isoText_eq t _ e (show y < 10000 by omega)
    ⟨show m < 100 by omega, show d < 100 by omega, show h < 100 by omega, show mi < 100 by omega, show s < 100 by omega⟩
  refine ⟨_, y, m, d, h, mi, s, _, h2, (C31_text_size t).2 _ h2, rfl, ⟨a1, a2, a3, a4, a5⟩, ⟨b1, b2, b3⟩, Nat.mod_lt _ (by decide), e, fun hf => ?_⟩
  obtain ⟨g1, g2⟩ := micros_frac t v hv hf
  rw [Nat.mod_eq_of_lt g1]
  exact g2

example : toISO (seconds 1969 7 20 20 17 40) = some ⟨1969, 7, 19, 20, 17, 40⟩ :=
  C31_print_century 1969 7 20 20 17 40 1969 7 19 (by unfold ValidDate; decide) (by unfold ValidTime; decide) (by decide) (by decide) (by decide)
    (by unfold ValidDate; decide) (by decide +kernel)

example : WrongYear 2024 12 31 ∧ WrongYear 1905 1 1 := ⟨.inl (by decide), .inr (by decide)⟩

end Libo.Props
