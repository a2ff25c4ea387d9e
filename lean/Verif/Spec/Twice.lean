import Verif.Spec.Outcome
import Mathlib.Data.List.Forall2

/-!
# Specification: payments that two sources report

For example a statement of an account as CSV file and as PDF file. The two reports of a payment have no fingerprint in common, so that only date,
accounts, amounts and balances can tell that they are the same.
-/

namespace Verif.Spec
open Book

/-- `t` and `u` may be two reports of one payment: they are of the same day, and posting by posting they match softly. -/
structure Reports (t u : TransactionPostings) : Prop where
  date : dateOf t = dateOf u
  posts : List.Forall₂ SoftMatch t.posts u.posts

/-- On its day, every posting of `u` matches only one posting of `A`, the one in the same place of `t`. -/
def Unmistaken (A : List TransactionPostings) (t u : TransactionPostings) : Prop :=
  ∀ t' ∈ A, dateOf t' = dateOf u → ∀ r ∈ t'.posts, ∀ (i : Nat) (q : PostingInternal), u.posts[i]? = some q → SoftMatch r q → t.posts[i]? = some r

/-- The postings of `A` on the day `d` that the posting `q` may be. -/
def rivals (A : List TransactionPostings) (d : Date) (q : PostingInternal) : List PostingInternal :=
  (allPosts (A.filter fun t => dateOf t = d)).filter fun p => SoftMatch p q

/-- Two sources: `M t u` says that `t` of `A` and `u` of `B` are about the same payment. No two transactions of a source are about the same payment.
A transaction of `B` that `A` does not report is not like one of `A`. The sources do not share fingerprints. -/
structure TwoSources (A B : List TransactionPostings) (M : TransactionPostings → TransactionPostings → Prop) : Prop where
  nonempty : ∀ t ∈ A ++ B, t.posts ≠ []
  fresh : ∀ t ∈ A, ∀ p ∈ t.posts, ∀ u ∈ B, ∀ q ∈ u.posts, ¬ SharesFp p q
  reports : ∀ t ∈ A, ∀ u ∈ B, M t u → Reports t u
  left : ∀ t ∈ A, ∀ t' ∈ A, ∀ u ∈ B, M t u → M t' u → t = t'
  right : ∀ t ∈ A, ∀ u ∈ B, ∀ u' ∈ B, M t u → M t u' → u = u'
  others : ∀ u ∈ B, (∀ t ∈ A, ¬ M t u) → ∀ t ∈ A, dateOf t = dateOf u → ∀ r ∈ t.posts, ∀ q ∈ u.posts, ¬ SoftMatch r q

/-- What a transaction of `A` becomes when `B` is merged: if there is a report of the same payment in `B` that cannot be mistaken, the two become one;
otherwise it stays as it is. -/
def JoinedBy (A B : List TransactionPostings) (M : TransactionPostings → TransactionPostings → Prop) (t T : TransactionPostings) : Prop :=
  (∃ u ∈ B, M t u ∧ Unmistaken A t u ∧ T = ⟨t.trn, List.zipWith absorb t.posts u.posts⟩) ∨
  ((∀ u ∈ B, M t u → ¬ Unmistaken A t u) ∧ T = t)

/-- What a transaction of `B` that may be mistaken is handed back as: a posting that may be several of `A` has a candidate tag for each of them. -/
def AsksWhich (A : List TransactionPostings) (u w : TransactionPostings) : Prop :=
  w.trn = u.trn ∧ List.Forall₂ (fun q q' =>
    (2 ≤ (rivals A (dateOf u) q).length → Annotated (rivals A (dateOf u) q) q q') ∧ ((rivals A (dateOf u) q).length < 2 → q' = q)) u.posts w.posts

/-! ### Payments

What the importers make of a row of a statement. -/

/-- `t` is a payment of the amount `a`: a posting of the amount and one of the opposite amount that has no balance. -/
structure Pays (t : TransactionPostings) (own peer : PostingInternal) (a : Amount) : Prop where
  posts : t.posts = [own, peer]
  amount : own.raw.amount = some ⟨a, none, none⟩
  amount' : ∃ b, peer.raw.amount = some ⟨b, none, none⟩ ∧ b.commodity = a.commodity ∧ value b.quantity = - value a.quantity
  balance : peer.raw.balance = none

/-- The same sum of money, paid or received. -/
def SameSum (a b : Amount) : Prop := a.commodity = b.commodity ∧ (value a.quantity = value b.quantity ∨ value a.quantity = - value b.quantity)

/-- The payment `t` of `A` is not of the sum zero, and no other payment of `A` on that day is of the same sum. -/
def Alone (A : List TransactionPostings) (t : TransactionPostings) : Prop :=
  ∀ own peer a, Pays t own peer a → value a.quantity ≠ 0 ∧
    ∀ t' ∈ A, dateOf t' = dateOf t → ∀ own' peer' a', Pays t' own' peer' a' → SameSum a' a → t' = t

/-- `t` and `u` report one payment: same day, same amount, and balances that agree. The accounts of `u` are marked as unknown. -/
def SamePayment (t u : TransactionPostings) : Prop :=
  dateOf t = dateOf u ∧ (∀ q ∈ u.posts, UnknownAccount q) ∧ ∃ own peer a own' peer' a', Pays t own peer a ∧ Pays u own' peer' a' ∧
    SameAmount a a' ∧ BalancesAgree own.raw.balance own'.raw.balance

end Verif.Spec
