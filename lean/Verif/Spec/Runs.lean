import Verif.Base.Str

/-!
# Specification: runs of elements with equal keys
-/

namespace Verif.Spec

/-- The runs of a list: the longest pieces in which all elements have the same key, in order. -/
structure Runs {α κ : Type} (key : α → κ) (l : List α) (groups : List (List α)) : Prop where
  flatten : groups.flatten = l
  nonempty : ∀ g ∈ groups, g ≠ []
  same : ∀ g ∈ groups, ∀ x ∈ g, ∀ y ∈ g, key x = key y
  differ : ∀ (i : Nat) g g', groups[i]? = some g → groups[i + 1]? = some g' → ∀ x ∈ g, ∀ y ∈ g', key x ≠ key y

end Verif.Spec
