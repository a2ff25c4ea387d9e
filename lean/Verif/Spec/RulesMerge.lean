import Verif.Spec.Days

/-!
# Specification: files with postings that could not be taken for each other, whatever their accounts
-/

namespace Verif.Spec
open Verif Book

/-- The two postings have the same amount and balances that agree; their accounts do not matter. -/
def SameSums (p q : PostingInternal) : Prop := OptRel SamePostingAmount p.raw.amount q.raw.amount ∧ BalancesAgree p.raw.balance q.raw.balance
instance (p q) : Decidable (SameSums p q) := by unfold SameSums; infer_instance

/-- No posting of `A` has a fingerprint of a posting of `B`, or its date, amount and balance. -/
def Unlike (A B : List TransactionPostings) : Prop :=
  ∀ t ∈ A, ∀ p ∈ t.posts, ∀ u ∈ B, ∀ q ∈ u.posts, ¬ SharesFp p q ∧ ¬ (dateOf t = dateOf u ∧ SameSums p q)
instance (A B) : Decidable (Unlike A B) := by unfold Unlike; infer_instance

/-- Transactions that can be merged into an empty journal with nothing left over: each has postings, and each posting has fingerprints, none
of which is on another posting, and no candidate tags. -/
structure InOrder (ts : List TransactionPostings) : Prop where
  nonempty : ∀ t ∈ ts, t.posts ≠ []
  clean : ∀ p ∈ allPosts ts, ∀ tag ∈ tagsOf p, ¬ IsCand tag
  marked : ∀ p ∈ allPosts ts, fps p ≠ []
  distinct : (allPosts ts).Pairwise fun p q => ¬ SharesFp p q

end Verif.Spec
