import Verif.Spec.Book
import Mathlib.Data.List.Forall2

/-!
# Specification: the same but for order, and files that have nothing to do with each other
-/

namespace Verif.Spec
open Book

/-- The elements of the lists correspond to each other one by one, but for their order. -/
def ButOrder {α β : Type} (R : α → β → Prop) (l : List α) (l' : List β) : Prop := ∃ m, List.Forall₂ R l m ∧ m.Perm l'

/-- The same transaction but for the order of its postings. -/
def Shuffled (t t' : TransactionPostings) : Prop := t.trn = t'.trn ∧ t.posts.Perm t'.posts

/-- The same transactions, but for the order of the transactions and of the postings in each of them. -/
def Reordered (ts ts' : List TransactionPostings) : Prop := ButOrder Shuffled ts ts'

/-- The postings of the transactions with their dates. -/
def datedPosts (ts : List TransactionPostings) : List (Date × PostingInternal) :=
  ts.flatMap fun t => t.posts.map fun p => (dateOf t, p)

/-- The two postings could be taken for the same: they share a fingerprint, or have the same date and match softly. -/
def Likely (x y : Date × PostingInternal) : Prop := SharesFp x.2 y.2 ∨ x.1 = y.1 ∧ SoftMatch x.2 y.2
instance (x y) : Decidable (Likely x y) := by unfold Likely; infer_instance

/-- The files `A` and `B` have nothing to do with each other, nor with the same posting of the book: no posting of `A` could be taken for
one of `B`, and no posting of the book both for one of `A` and for one of `B`. -/
def Apart (J : Book) (A B : List TransactionPostings) : Prop :=
  ∀ a ∈ datedPosts A, ∀ b ∈ datedPosts B, ¬ Likely a b ∧ ∀ r ∈ J.recs, ¬ (Likely (r.date, r.post) a ∧ Likely (r.date, r.post) b)
instance (J A B) : Decidable (Apart J A B) := by unfold Apart; infer_instance

end Verif.Spec
