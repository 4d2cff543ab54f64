/-!
# The proleptic Gregorian calendar (specification)

Independent of the model.  Day numbers count from 1900-01-01, the NTP epoch.
-/

namespace Libo.CalSpec

/-- Leap years of the Gregorian calendar. -/
def Leap (y : Nat) : Prop := 4 ∣ y ∧ (¬ 100 ∣ y ∨ 400 ∣ y)

instance (y : Nat) : Decidable (Leap y) := by unfold Leap; infer_instance

/-- Length of a month. -/
def monthLen (y : Nat) : Nat → Nat
  | 1 => 31 | 2 => if Leap y then 29 else 28 | 3 => 31 | 4 => 30 | 5 => 31 | 6 => 30
  | 7 => 31 | 8 => 31 | 9 => 30 | 10 => 31 | 11 => 30 | 12 => 31 | _ => 0

/-- Length of a year. -/
def yearLen (y : Nat) : Nat := if Leap y then 366 else 365

/-- Days from 1900-01-01 to the first of January of year `1900 + k`. -/
def daysToYear : Nat → Nat
  | 0 => 0
  | k + 1 => daysToYear k + yearLen (1900 + k)

/-- Days from the first of January to the first day of month `m + 1`. -/
def daysToMonth (y : Nat) : Nat → Nat
  | 0 => 0
  | m + 1 => daysToMonth y m + monthLen y (m + 1)

/-- A date of the calendar, from 1900 on. -/
def ValidDate (y m d : Nat) : Prop := 1900 ≤ y ∧ 1 ≤ m ∧ m ≤ 12 ∧ 1 ≤ d ∧ d ≤ monthLen y m

/-- A time of day. -/
def ValidTime (h mi s : Nat) : Prop := h < 24 ∧ mi < 60 ∧ s < 60

/-- Days since 1900-01-01. -/
def dayNumber (y m d : Nat) : Nat := daysToYear (y - 1900) + daysToMonth y (m - 1) + (d - 1)

/-- Seconds since 1900-01-01T00:00:00. -/
def seconds (y m d h mi s : Nat) : Nat := dayNumber y m d * 86400 + h * 3600 + mi * 60 + s

end Libo.CalSpec
