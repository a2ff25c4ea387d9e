import Verif.Model.Internal

/-!
# Specification: the rules of the example and imported statements
-/

namespace Verif.Spec.ExampleRules

/-- The account in the journal for an account with that name at the bank, if the rules know it. -/
def ownFound (account : Str) : Option Str :=
  if account = "Current".toList then some "assets:nationwide:current".toList
  else if account = "Savings".toList then some "assets:nationwide:savings".toList else none

/-- Where the money went or where it came from, if the rules know it. -/
def otherFound (wentOut : Bool) (description : Str) (type : Option Str) : Option Str :=
  if wentOut then (if description = "ATM Withdrawal".toList then some "expenses:petty".toList else none)
  else if description = "Payroll".toList then some "income:salary".toList
  else if type = some "Interest".toList then some "income:interest".toList else none

/-- The posting has the account that was found. If none was found it has the one from the import and is marked as one whose account is
not known; otherwise it is not marked. It does not say any more what the bank says about it. -/
structure Assigned (p : PostingInternal) (imported : Str) (found : Option Str) : Prop where
  account : p.raw.account = found.getD imported
  marked : "unknown-account".toList ∈ p.comment.tags ↔ found = none
  cleaned : p.comment.valueTags["account".toList]? = none ∧ p.comment.valueTags["bank".toList]? = none ∧
    p.comment.valueTags["trn_type".toList]? = none

end Verif.Spec.ExampleRules
