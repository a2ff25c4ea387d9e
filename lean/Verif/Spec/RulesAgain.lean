import Verif.Spec.Rules

/-!
# Specification: rules that change nothing when they are applied again
-/

namespace Verif.Spec.RulesAgain
open Verif Verif.Rules

/-- A place that rules can read or write. -/
inductive Place where
  | account
  | description
  | postTag (tag : Str)
  | postValue (key : Str)
  | trnTag (tag : Str)
  | trnValue (key : Str)
  deriving DecidableEq

/-- What a predicate may depend on. -/
inductive Reads : Predicate → Place → Prop
  | all {ps p l} : p ∈ ps → Reads p l → Reads (.all ps) l
  | any {ps p l} : p ∈ ps → Reads p l → Reads (.any ps) l
  | not {p l} : Reads p l → Reads (.not p) l
  | account {m} : Reads (.account m) .account
  | postingFlagTag {m tag} : Reads (.postingFlagTag m) (.postTag tag)
  | postingHasFlagTag {tag} : Reads (.postingHasFlagTag tag) (.postTag tag)
  | postingHasValueTag {key} : Reads (.postingHasValueTag key) (.postValue key)
  | postingValueTag {key m} : Reads (.postingValueTag key m) (.postValue key)
  | transactionDescription {m} : Reads (.transactionDescription m) .description

/-- What an action may write by itself; what happens after a jump is counted where it happens. -/
inductive Writes : Action → Place → Prop
  | all {as a l} : a ∈ as → Writes a l → Writes (.all as) l
  | addPostingFlagTag {tag} : Writes (.addPostingFlagTag tag) (.postTag tag)
  | removePostingFlagTag {tag} : Writes (.removePostingFlagTag tag) (.postTag tag)
  | addPostingValueTag {key value} : Writes (.addPostingValueTag key value) (.postValue key)
  | removePostingValueTag {key} : Writes (.removePostingValueTag key) (.postValue key)
  | addTransactionFlagTag {tag} : Writes (.addTransactionFlagTag tag) (.trnTag tag)
  | removeTransactionFlagTag {tag} : Writes (.removeTransactionFlagTag tag) (.trnTag tag)
  | addTransactionValueTag {key value} : Writes (.addTransactionValueTag key value) (.trnValue key)
  | removeTransactionValueTag {key} : Writes (.removeTransactionValueTag key) (.trnValue key)
  | setAccount {account} : Writes (.setAccount account) .account
  | replaceTransactionDescription {f} : Writes (.replaceTransactionDescription f) .description

/-- An action replaces descriptions in this way. -/
inductive Replaces : Action → (Str → Str) → Prop
  | here {f} : Replaces (.replaceTransactionDescription f) f
  | inside {as a f} : a ∈ as → Replaces a f → Replaces (.all as) f

/-- A rule of the table, in any chain. -/
def RuleOf (T : Table) (r : Rule) : Prop := ∃ (name : Str) (ch : Chain), T[name]? = some ch ∧ r ∈ ch

/-- No predicate reads what an action writes, and no replacement of descriptions changes what such a replacement gives. -/
structure Separate (T : Table) : Prop where
  apart : ∀ r r' l, RuleOf T r → RuleOf T r' → Reads r.predicate l → ¬ Writes r'.action l
  descriptions : ∀ r r' f g, RuleOf T r → RuleOf T r' → Replaces r.action f → Replaces r'.action g → ∀ s, f (g s) = g s

/-- The predicate holds only for postings with this tag. -/
inductive Needs (mark : Str) : Predicate → Prop
  | here : Needs mark (.postingHasFlagTag mark)
  | all {ps p} : p ∈ ps → Needs mark p → Needs mark (.all ps)
  | any {ps} : (∀ p ∈ ps, Needs mark p) → Needs mark (.any ps)

/-- The chain `start` is for postings with a mark only, and at its end takes the mark away. -/
def Guarded (mark : Str) (T : Table) : Prop :=
  ∃ (rules : List Rule) (last : Rule), T["start".toList]? = some (rules ++ [last]) ∧ (∀ r ∈ rules, Needs mark r.predicate ∧ r.result = .continue_) ∧
    last.predicate = .postingHasFlagTag mark ∧ last.action = .removePostingFlagTag mark

/-- What /repo/examples/rules.ron makes of a posting in a transaction with that description. -/
def exampleResult (description : Str) (p : PostingInternal) : PostingInternal :=
  let account := p.raw.account
  let value (key : String) := p.comment.valueTags[key.toList]?
  let found : Option Str :=
    if account = "expenses:unknown".toList then
      if description = "ATM Withdrawal".toList then some "expenses:petty".toList else none
    else if account = "income:unknown".toList then
      if description = "Payroll".toList then some "income:salary".toList
      else if value "trn_type" = some "Interest".toList then some "income:interest".toList else none
    else if value "bank" = some "Nationwide".toList then
      if value "account" = some "Current".toList then some "assets:nationwide:current".toList
      else if value "account" = some "Savings".toList then some "assets:nationwide:savings".toList else none
    else none
  let clean := p.comment.tags.erase "unknown-account".toList
  ⟨{ p.raw with account := found.getD account },
    ⟨p.comment.lines, if found = none then clean.insert "unknown-account".toList else clean,
      ((p.comment.valueTags.erase "account".toList).erase "bank".toList).erase "trn_type".toList⟩⟩

/-- Every posting of the transaction is marked as one whose account is not known. -/
def allUnknown (t : TransactionPostings) : TransactionPostings :=
  ⟨t.trn, t.posts.map fun p => ⟨p.raw, ⟨p.comment.lines, p.comment.tags.insert "unknown-account".toList, p.comment.valueTags⟩⟩⟩

end Verif.Spec.RulesAgain
