import Verif.Model.Time
/-!
Independent specification of the Gregorian calendar: where it starts and which day follows which.
-/
namespace Verif.Spec

/-- Gregorian leap years. -/
def isLeap (y : Int) : Prop := (4 ∣ y ∧ ¬ 100 ∣ y) ∨ 400 ∣ y

instance (y : Int) : Decidable (isLeap y) := inferInstanceAs (Decidable (_ ∨ _))

/-- Length of a month. -/
def monthLength (y m : Int) : Int :=
  if m = 2 then (if isLeap y then 29 else 28)
  else if m = 4 ∨ m = 6 ∨ m = 9 ∨ m = 11 then 30
  else 31

/-- The day after a date. -/
def nextDay (c : Civil) : Civil :=
  if c.day < monthLength c.year c.month then { c with day := c.day + 1 }
  else if c.month < 12 then { c with month := c.month + 1, day := 1 }
  else { year := c.year + 1, month := 1, day := 1 }

/-- Dates that exist. -/
def Valid (c : Civil) : Prop :=
  1 ≤ c.month ∧ c.month ≤ 12 ∧ 1 ≤ c.day ∧ c.day ≤ monthLength c.year c.month

end Verif.Spec
