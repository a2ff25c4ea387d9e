import Verif.Model.ImportUtil
import Verif.Spec.Money
import Verif.Spec.Fingerprint

/-!
# Specification: what importers make
-/

namespace Verif.Spec

/-- The account of the importer's own postings. -/
def ownAccount : Str := "assets:unknown".toList
/-- The other account, when money went out. -/
def expensesAccount : Str := "expenses:unknown".toList
/-- The other account, when money came in. -/
def incomeAccount : Str := "income:unknown".toList

/-- A comment with exactly these tags and values and no other text. -/
structure CommentSays (c : Comment) (tags : List Str) (values : List (Str × Str)) : Prop where
  lines : c.lines = []
  tags : ∀ t, t ∈ c.tags ↔ t ∈ tags
  values : ∀ k, c.valueTags[k]? = values.lookup k

/-- A posting with exactly these contents. -/
structure Says (h : HashOrder) (p : Posting) (account : Str) (amount : Amount) (balance : Option Amount) (status : Option Status)
    (tags : List Str) (values : List (Str × Str)) : Prop where
  account : p.account = account
  reality : p.reality = .real
  amount : p.amount = some ⟨amount, none, none⟩
  balance : p.balance = balance.map Balance.amount
  status : p.status = status
  comment : ∃ c : Comment, CommentSays c tags values ∧ p.comment = c.intoOptComment h

/-- A transaction with this date and description and these postings, and no more. -/
structure TransactionSays (t : Transaction) (date : Date) (effective : Option Date) (description : Str) (postings : List Posting) : Prop where
  date : t.date = date
  effective : t.effectiveDate = effective
  description : t.description = description
  postings : t.postings = postings
  status : t.status = none
  code : t.code = none
  comment : t.comment = none

/-- Two postings move the same amount in opposite directions between the own account and an account for expenses or income. -/
structure Opposite (p q : Posting) : Prop where
  own : p.account = ownAccount
  amounts : ∃ a b, p.amount = some ⟨a, none, none⟩ ∧ q.amount = some ⟨b, none, none⟩ ∧ b.commodity = a.commodity ∧
    value b.quantity = -value a.quantity ∧ (value a.quantity < 0 → q.account = expensesAccount) ∧
    (0 < value a.quantity → q.account = incomeAccount) ∧ (q.account = expensesAccount ∨ q.account = incomeAccount)

/-- The sum of all amounts of a commodity. -/
def total (commodity : Str) (ps : List Posting) : Rat :=
  (ps.map fun p => match p.amount with
    | some a => if a.amount.commodity.name = commodity then value a.amount.quantity else 0
    | none => 0).sum

/-- All amounts are there, without prices, and those of every commodity add up to zero. -/
def Balanced (ps : List Posting) : Prop := (∀ p ∈ ps, ∃ a, p.amount = some ⟨a, none, none⟩) ∧ ∀ c, total c ps = 0

/-- How many elements right before position `i` are equal to the one there. -/
def sinceChange {α : Type} [DecidableEq α] (l : List α) (i : Nat) : Nat :=
  match l[i]? with
  | some x => ((l.take i).reverse.takeWhile (· = x)).length
  | none => 0

/-- The value of a tag that numbers transactions of a namespace. -/
def numbered (ns : Str) (n : Nat) : Str := ns ++ "-".toList ++ Nat.toDigits 10 n

end Verif.Spec
