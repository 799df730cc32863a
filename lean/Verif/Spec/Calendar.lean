import Mathlib.Tactic.IntervalCases
import Verif.Model.Value

/-!
# The calendar

Dates of the (proleptic) Gregorian calendar in the range of years chrono supports, and times of day, written
independently of the model.
-/

namespace Souris

/-- Every fourth year is a leap year, but of the full centuries only every fourth. -/
def LeapYear (y : Int) : Prop := (4 ∣ y ∧ ¬ 100 ∣ y) ∨ 400 ∣ y

instance (y : Int) : Decidable (LeapYear y) := inferInstanceAs (Decidable (_ ∨ _))

/-- The number of days in a month, counted from 1 (January). -/
def monthDays (y : Int) (m : Nat) : Nat :=
  [31, if LeapYear y then 29 else 28, 31, 30, 31, 30, 31, 31, 30, 31, 30, 31].getD (m - 1) 0

/-- A date that exists, in chrono's range of years. -/
def IsDate (y : Int) (m d : Nat) : Prop :=
  (-262143 ≤ y ∧ y ≤ 262142) ∧ (1 ≤ m ∧ m ≤ 12) ∧ (1 ≤ d ∧ d ≤ monthDays y m)

/-- A time of day to the nanosecond. Fractions of a second or more stand for a leap second, which is at the end
of a minute only. -/
def IsTime (h m s n : Nat) : Prop :=
  h < 24 ∧ m < 60 ∧ s < 60 ∧ (n < 1000000000 ∨ (s = 59 ∧ n < 2000000000))

theorem leap_iff (y : Int) : Timestamp.isLeap y = true ↔ LeapYear y := by
  simp only [Timestamp.isLeap, LeapYear, decide_eq_true_eq]
  omega

theorem monthDays_eq {y : Int} {m : Nat} (h1 : 1 ≤ m) (h2 : m ≤ 12) : monthDays y m = Timestamp.daysIn y m := by
  have hl := leap_iff y
  unfold monthDays Timestamp.daysIn
  by_cases h : LeapYear y
  · rw [hl.mpr h, if_pos h]
    interval_cases m <;> rfl
  · rw [show Timestamp.isLeap y = false by simpa [h] using hl, if_neg h]
    interval_cases m <;> rfl

theorem monthDays_le (y : Int) (m : Nat) : monthDays y m ≤ 31 := by
  by_cases h : 1 ≤ m ∧ m ≤ 12
  · rw [monthDays_eq h.1 h.2]
    unfold Timestamp.daysIn; split_ifs <;> omega
  · unfold monthDays
    rcases Nat.eq_zero_or_pos m with rfl | h0
    · simp
    · rw [List.getD_eq_getElem?_getD, List.getElem?_eq_none (by simp only [List.length_cons, List.length_nil]; omega)]
      simp

theorem dateOk_iff {y : Int} {m d : Nat} : Timestamp.dateOk y m d = true ↔ IsDate y m d := by
  simp only [Timestamp.dateOk, decide_eq_true_eq, IsDate]
  constructor
  · rintro ⟨h1, h2, h3, h4, h5, h6⟩
    exact ⟨⟨h1, h2⟩, ⟨h3, h4⟩, h5, by rw [monthDays_eq h3 h4]; exact h6⟩
  · rintro ⟨⟨h1, h2⟩, ⟨h3, h4⟩, h5, h6⟩
    exact ⟨h1, h2, h3, h4, h5, by rw [← monthDays_eq h3 h4]; exact h6⟩

theorem timeOk_iff {h m s n : Nat} : Timestamp.timeOk h m s n = true ↔ IsTime h m s n := by
  simp only [Timestamp.timeOk, decide_eq_true_eq, IsTime]
  omega

theorem dateOk_false {y : Int} {m d : Nat} : Timestamp.dateOk y m d = false ↔ ¬ IsDate y m d := by
  rw [← dateOk_iff, Bool.not_eq_true]

theorem timeOk_false {h m s n : Nat} : Timestamp.timeOk h m s n = false ↔ ¬ IsTime h m s n := by
  rw [← timeOk_iff, Bool.not_eq_true]

instance (y : Int) (m d : Nat) : Decidable (IsDate y m d) := inferInstanceAs (Decidable (_ ∧ _))

instance (h m s n : Nat) : Decidable (IsTime h m s n) := inferInstanceAs (Decidable (_ ∧ _))

end Souris
