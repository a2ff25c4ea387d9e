import Mathlib.Data.List.Forall2
import Verif.Spec.Rules
import Verif.Spec.Comment
import Verif.Spec.Posting
import Verif.Spec.Sources
import Verif.Model.CommentText

/-!
# Specification: from a statement to the journal
-/

namespace Verif.Spec.Rules
open Verif.Rules

/-- The action adds this tag to the posting or to the transaction, at any depth of `All`. -/
inductive AddsTag : Action → Str → Prop
  | post {tag} : AddsTag (.addPostingFlagTag tag) tag
  | trn {tag} : AddsTag (.addTransactionFlagTag tag) tag
  | inside {as a tag} : a ∈ as → AddsTag a tag → AddsTag (.all as) tag

/-- The action adds this key and value to the posting or to the transaction, at any depth of `All`. -/
inductive AddsValue : Action → Str → Str → Prop
  | post {key value} : AddsValue (.addPostingValueTag key value) key value
  | trn {key value} : AddsValue (.addTransactionValueTag key value) key value
  | inside {as a key value} : a ∈ as → AddsValue a key value → AddsValue (.all as) key value

/-- What the action adds can be told apart from other parts of a comment: tags and keys are words, and everything is on one line. -/
def PlainAction (a : Action) : Prop :=
  (∀ tag, AddsTag a tag → Word tag ∧ '\n' ∉ tag) ∧
  ∀ key value, AddsValue a key value → Word key ∧ Trimmed key ∧ '\n' ∉ key ∧ '\n' ∉ value

/-- What the rules of the table add can be told apart. -/
def PlainTable (T : Table) : Prop := ∀ (name : Str) (ch : Chain), T[name]? = some ch → ∀ r ∈ ch, PlainAction r.action

/-- The rules of the table do not say from which file a transaction is. -/
def NotesNoSource (T : Table) : Prop :=
  ∀ (name : Str) (ch : Chain), T[name]? = some ch → ∀ r ∈ ch, ∀ value, ¬ AddsValue r.action srcKey value

end Verif.Spec.Rules

namespace Verif.Spec

/-- The fingerprints in the comment of a posting. -/
def fingerprintsIn (p : Posting) (f : Str) : Prop := IsFp f ∧ f ∈ (Comment.fromOptComment p.comment).tags

/-- The transaction of the journal is the imported one: it has its date and its postings, with the same money and the same
fingerprints. (Rules can give it another description, other accounts and other tags.) -/
structure IsImported (t : Transaction) (T : TransactionPostings) : Prop where
  date : T.trn.raw.date = t.date
  effectiveDate : T.trn.raw.effectiveDate = t.effectiveDate
  status : T.trn.raw.status = t.status
  code : T.trn.raw.code = t.code
  postings : List.Forall₂ (fun (p : Posting) (q : PostingInternal) => q.raw.amount = p.amount ∧ q.raw.balance = p.balance ∧
    q.raw.status = p.status ∧ q.raw.reality = p.reality ∧ ∀ f, f ∈ fps q ↔ fingerprintsIn p f) t.postings T.posts

end Verif.Spec
