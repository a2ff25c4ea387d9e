import Verif.Base.Str

/-!
# Specification: texts in encodings that files should not have
-/

namespace Verif.Spec

/-- A text of ASCII characters. -/
def Ascii (s : Str) : Prop := ∀ c ∈ s, c.toNat < 128

/-- A table whose only character outside ASCII is the pound sign, which is there only at the start of fields, but not in the row with
the name of the account, and from the fifth row on not in the first three fields: the date and two texts. -/
structure PoundsBeforeSums (rows : List (List Str)) : Prop where
  fields : ∀ row ∈ rows, ∀ f ∈ row, Ascii f ∨ ∃ a, Ascii a ∧ f = '£' :: a
  account : ∀ row, rows[0]? = some row → ∀ f ∈ row, Ascii f
  texts : ∀ (i : Nat) (row : List Str), rows[i]? = some row → 4 ≤ i → ∀ f ∈ row.take 3, Ascii f

end Verif.Spec
