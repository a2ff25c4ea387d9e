import Verif.Model.Ledger

/-!
# Specification: days of the Gregorian calendar
-/

namespace Verif.Spec

/-- Leap years. -/
def Leap (y : Int) : Prop := 4 ∣ y ∧ (¬ 100 ∣ y ∨ 400 ∣ y)
instance (y) : Decidable (Leap y) := by unfold Leap; infer_instance

/-- The number of days of a month. -/
def monthDays (y : Int) (m : Nat) : Nat :=
  if m = 2 then (if Leap y then 29 else 28) else if m ∈ [4, 6, 9, 11] then 30 else 31

/-- A date that exists. -/
def RealDate (d : Date) : Prop := (1 ≤ d.month ∧ d.month ≤ 12) ∧ 1 ≤ d.day ∧ d.day ≤ monthDays d.year d.month
instance (d) : Decidable (RealDate d) := by unfold RealDate; infer_instance

/-- The day after. -/
def dayAfter (d : Date) : Date :=
  if d.day < monthDays d.year d.month then ⟨d.year, d.month, d.day + 1⟩
  else if d.month < 12 then ⟨d.year, d.month + 1, 1⟩
  else ⟨d.year + 1, 1, 1⟩

/-- Counts days from 1970-01-01. -/
def CountsDays (f : Date → Int) : Prop := f ⟨1970, 1, 1⟩ = 0 ∧ ∀ d, RealDate d → f (dayAfter d) = f d + 1

end Verif.Spec
