import Verif.Spec.Book
import Mathlib.Data.List.Forall2

/-!
# Specification: two files in either order
-/

namespace Verif.Spec
open Book

/-- What becomes of postings of the transactions `t` and `u` that are merged: `x` if the file with `t` is first, `y` if the file with `u`
is first. Either a posting of one of them stays as it is, or one of each are taken for the same and merged, into the first. -/
def EitherWay (t u : TransactionPostings) (x y : PostingInternal) : Prop :=
  (x = y ∧ x ∈ t.posts ++ u.posts) ∨ ∃ p ∈ t.posts, ∃ q ∈ u.posts, x = absorb p q ∧ y = absorb q p ∧
    (SharesFp p q ∨ dateOf t = dateOf u ∧ SoftMatch p q)

/-- What becomes of transactions of two files: `T` if `A` is first, `T'` if `B` is first. Either a transaction of one of the files stays as
it is, or one of each are merged: the header is that of the first, and the postings are the same but for their order and
for which was merged into which. -/
def SameMerged (A B : List TransactionPostings) (T T' : TransactionPostings) : Prop :=
  (T = T' ∧ T ∈ A ++ B) ∨ ∃ t ∈ A, ∃ u ∈ B, T.trn = t.trn ∧ T'.trn = u.trn ∧
    ∃ l, l.Perm T'.posts ∧ List.Forall₂ (EitherWay t u) T.posts l

/-- The posting `q` of `u` is taken for the posting `p` of `t`, if the file `A` with `t` came first. -/
def Taken (A : List TransactionPostings) (t : TransactionPostings) (p : PostingInternal) (u : TransactionPostings) (q : PostingInternal) : Prop :=
  SharesFp p q ∨ (∀ p' ∈ allPosts A, ¬ SharesFp p' q) ∧ dateOf t = dateOf u ∧ SoftMatch p q

/-- Postings of `u` are taken for postings of `t`, if the file `A` with `t` came first. -/
def TakenTrn (A : List TransactionPostings) (t u : TransactionPostings) : Prop := ∃ p ∈ t.posts, ∃ q ∈ u.posts, Taken A t p u q

/-- No posting of `A` that has no fingerprint in common with `B` matches, by date and what it says, a posting of `B` that has
a fingerprint in common with `A`. -/
def NoRival (A B : List TransactionPostings) : Prop :=
  ∀ t ∈ A, ∀ p ∈ t.posts, (∀ q ∈ allPosts B, ¬ SharesFp p q) → ∀ u ∈ B, dateOf u = dateOf t → ∀ q ∈ u.posts, SoftMatch p q →
    ∀ p' ∈ allPosts A, ¬ SharesFp p' q

/-- No two transactions of `B` have postings that are taken for postings of the same transaction of `A`. -/
def OneEach (A B : List TransactionPostings) : Prop := ∀ t ∈ A, ∀ u ∈ B, ∀ u' ∈ B, TakenTrn A t u → TakenTrn A t u' → u = u'

end Verif.Spec
