import Verif.Model.Ledger
import Verif.Spec.Comment

/-!
# Specification: what fits into the types of the code, and the characters of fingerprints
-/

namespace Verif.Spec

/-- A text that is not too long: in the code its number of bytes is a 64 bit number. -/
def FitsStr (s : Str) : Prop := bytes s < 2 ^ 64
/-- A decimal number as `rust_decimal` has them: 96 bits and at most 28 digits after the point. -/
def FitsDecimal (d : Decimal) : Prop := d.mant < 2 ^ 96 ∧ d.scale ≤ 28
/-- An amount that fits. -/
def FitsAmount (a : Amount) : Prop := FitsDecimal a.quantity ∧ FitsStr a.commodity.name
/-- A 32 bit number. -/
def FitsI32 (v : Int) : Prop := -2 ^ 31 ≤ v ∧ v < 2 ^ 31
/-- A date that fits. -/
def FitsDate (d : Date) : Prop := FitsI32 d.year ∧ d.month < 2 ^ 32 ∧ d.day < 2 ^ 32
/-- An optional value that fits. -/
def FitsOpt {α : Type} (P : α → Prop) (o : Option α) : Prop := ∀ a, o = some a → P a

instance (s) : Decidable (FitsStr s) := by unfold FitsStr; infer_instance
instance (d) : Decidable (FitsDecimal d) := by unfold FitsDecimal; infer_instance
instance (a) : Decidable (FitsAmount a) := by unfold FitsAmount; infer_instance
instance (v) : Decidable (FitsI32 v) := by unfold FitsI32; infer_instance
instance (d) : Decidable (FitsDate d) := by unfold FitsDate; infer_instance
instance {α : Type} (P : α → Prop) [DecidablePred P] (o : Option α) : Decidable (FitsOpt P o) :=
  match o with
  | none => .isTrue (by intro a h; cases h)
  | some a => decidable_of_iff (P a) (by unfold FitsOpt; simp)

/-- The characters of names, namespaces and values of fingerprints. -/
def PartChar (c : Char) : Prop := c.isAlphanum = true ∨ c = '_' ∨ c = '+' ∨ c = '/'
/-- The characters of base64. -/
def Base64Char (c : Char) : Prop := c.isAlphanum = true ∨ c = '+' ∨ c = '/'

end Verif.Spec
