import Verif.Spec.RulesMerge

/-!
# Specification: files that have no transaction in common
-/

namespace Verif.Spec
open Verif Spec.Book

/-- No posting of `A` can be taken for a posting of `B`: they share no fingerprint, and those of the same date do not match. -/
def Separate (A B : List TransactionPostings) : Prop :=
  ∀ t ∈ A, ∀ p ∈ t.posts, ∀ u ∈ B, ∀ q ∈ u.posts, ¬ SharesFp p q ∧ ¬ (dateOf t = dateOf u ∧ SoftMatch p q)
instance (A B) : Decidable (Separate A B) := by unfold Separate; infer_instance

end Verif.Spec
