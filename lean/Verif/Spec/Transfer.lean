import Verif.Spec.Book

/-!
# Specification: a transfer between two accounts, seen from both

The statement of each account shows one side: a posting of the account itself and a posting of an account that is not
known yet.
-/

namespace Verif.Spec
open Book

/-- `t` is what one statement says about a transfer: `own` is the posting of its account, `peer` the other one. -/
structure OneSide (t : TransactionPostings) (own peer : PostingInternal) : Prop where
  posts : t.posts = [own, peer]
  known : ¬ UnknownAccount own
  unknown : UnknownAccount peer

/-- `t` and `u` are the two sides of one transfer: on the same day, the amount that leaves one account arrives on the other. -/
structure TwoSides (t u : TransactionPostings) (own peer own' peer' : PostingInternal) : Prop where
  left : OneSide t own peer
  right : OneSide u own' peer'
  date : dateOf u = dateOf t
  amount : OptRel SamePostingAmount own.raw.amount peer'.raw.amount
  amount' : OptRel SamePostingAmount peer.raw.amount own'.raw.amount
  balance : BalancesAgree own.raw.balance peer'.raw.balance
  balance' : BalancesAgree peer.raw.balance own'.raw.balance

end Verif.Spec
