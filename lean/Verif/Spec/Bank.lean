import Verif.Spec.RulesMerge
import Verif.Spec.Import
import Verif.Spec.Order

/-!
# Specification: what a bank says that is in an account, and what the journal says
-/

namespace Verif.Spec
open Verif Book

/-- The postings of an account, in order. -/
def postsOf (account : Str) (ts : List TransactionPostings) : List Posting := ((allPosts ts).map (·.raw)).filter (·.account = account)

/-- What the journal says that was added to an account up to and including a day. -/
def heldUntil (account commodity : Str) (d : Date) (ts : List TransactionPostings) : Rat :=
  total commodity (postsOf account (ts.filter fun t => (compare (dateOf t) d).isLE))

/-- What a posting says about the balance of its account is so, if there is so much of each commodity in it. -/
def BalanceHolds (has : Str → Rat) : Option Balance → Prop
  | none => True
  | some .zero => ∀ c, has c = 0
  | some (.amount a) => has a.commodity.name = value a.quantity

/-- The postings of an account one after the other: what they say about its balance holds after each. Before the first of them there was
`start` in it. This is what the program `ledger` checks when it reads a journal. -/
def BalancesHold (start : Str → Rat) (ps : List Posting) : Prop :=
  ∀ before p after, ps = before ++ p :: after → BalanceHolds (fun c => start c + total c (before ++ [p])) p.balance

/-- The transactions are in the order of their dates. -/
def Chronological (ts : List TransactionPostings) : Prop := ts.Pairwise fun t u => (compare (dateOf t) (dateOf u)).isLE

/-- All postings of the account in the journal are known to the bank, whose statement is `W`: each of them is one that a posting of `W` in the account
is taken for. And a posting of `W` in the account is only taken for one of the same amount that is in the account or will be: it is marked as of
unknown account, and that of `W` is not. -/
structure Reconciles (account : Str) (js W : List TransactionPostings) : Prop where
  known : ∀ T ∈ js, ∀ r ∈ T.posts, r.raw.account = account → ∃ t ∈ W, ∃ p ∈ t.posts, p.raw.account = account ∧ Taken js T r t p
  same : ∀ T ∈ js, ∀ r ∈ T.posts, ∀ t ∈ W, ∀ p ∈ t.posts, p.raw.account = account → Taken js T r t p →
    OptRel SamePostingAmount r.raw.amount p.raw.amount ∧ (r.raw.account = account ∨ UnknownAccount r ∧ ¬ UnknownAccount p)

end Verif.Spec
