import Verif.Spec.Posting

/-!
# Specification: numbers and sums of money as text
-/

namespace Verif.Spec

/-- A string of decimal digits. -/
def Digits (s : Str) : Prop := s ≠ [] ∧ ∀ c ∈ s, '0' ≤ c ∧ c ≤ '9'
instance (s) : Decidable (Digits s) := by unfold Digits; infer_instance

/-- The number that a string of decimal digits stands for. -/
def number : Str → Nat
  | [] => 0
  | c :: cs => (c.toNat - '0'.toNat) * 10 ^ cs.length + number cs

/-- The number that `P.Q` or `-P.Q` stands for. -/
def denoted (negative : Bool) (p q : Str) : Rat :=
  let n : Rat := number p + number q / (10 : Rat) ^ q.length
  if negative then -n else n

/-- The text `£P.Q` or `£-P.Q`. -/
def pounds (negative : Bool) (p q : Str) : Str := '£' :: ((if negative then ['-'] else []) ++ p ++ '.' :: q)

end Verif.Spec
