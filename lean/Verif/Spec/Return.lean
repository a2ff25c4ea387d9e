import Verif.Spec.Edits
import Verif.Spec.Complete

/-!
# Specification: a journal that was edited by hand, and statements with more than it has
-/

namespace Verif.Spec
open Verif Book

/-- Some posting of the transaction has a fingerprint that is in `js`. -/
def Known (js : List TransactionPostings) (t : TransactionPostings) : Prop := ∃ p ∈ t.posts, ∃ q ∈ allPosts js, SharesFp q p
instance (js t) : Decidable (Known js t) := by unfold Known; infer_instance

/-- The transactions of a file that have fingerprints in `js`. -/
def knownIn (js g : List TransactionPostings) : List TransactionPostings := g.filter fun t => Known js t

/-- The transactions of a file that have none. -/
def missingIn (js g : List TransactionPostings) : List TransactionPostings := g.filter fun t => ¬ Known js t

/-- What the journal becomes: the postings that it has are brought in, and the transactions that it does not have follow as they are. -/
def grown (js g : List TransactionPostings) : List TransactionPostings := broughtInto js (knownIn js g) ++ missingIn js g

/-- The transactions of the file are in order; those with fingerprints in `js` are recognised, and none of the others can be taken for one of `js`. -/
structure Fits (js g : List TransactionPostings) : Prop where
  inOrder : InOrder g
  recognised : Recognised (knownIn js g) js
  separate : Separate js (missingIn js g)

/-- Each file fits to what the journal has become with those before. -/
def FitsAll : List TransactionPostings → List (List TransactionPostings) → Prop
  | _, [] => True
  | js, g :: gs => Fits js g ∧ FitsAll (grown js g) gs

/-- Each posting of the transaction has a fingerprint that is in `js`, or matches at most one posting of `js` with the same date. -/
def Unambiguous (js : List TransactionPostings) (t : TransactionPostings) : Prop :=
  ∀ p ∈ t.posts, (∃ q ∈ allPosts js, SharesFp q p) ∨
    ∀ u ∈ js, ∀ q ∈ u.posts, ∀ u' ∈ js, ∀ q' ∈ u'.posts, dateOf u = dateOf t → SoftMatch q p → dateOf u' = dateOf t → SoftMatch q' p → q = q'
instance (js t) : Decidable (Unambiguous js t) := by unfold Unambiguous; infer_instance

end Verif.Spec
