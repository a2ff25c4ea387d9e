import Verif.Spec.Session
import Verif.Spec.Pipeline

/-!
# Specification: sessions that also apply rules
-/

namespace Verif.Spec.Rules
open Verif.Rules

/-- The action removes this tag from the posting, at any depth of `All`. -/
inductive RemovesTag : Action → Str → Prop
  | post {tag} : RemovesTag (.removePostingFlagTag tag) tag
  | inside {as a tag} : a ∈ as → RemovesTag a tag → RemovesTag (.all as) tag

/-- No rule of the table removes a tag of this kind from a posting. -/
def NeverRemoves (K : Str → Prop) (T : Table) : Prop :=
  ∀ (name : Str) (ch : Chain), T[name]? = some ch → ∀ r ∈ ch, ∀ tag, RemovesTag r.action tag → ¬ K tag

end Verif.Spec.Rules

namespace Verif.Spec
open Spec.Rules

/-- Whatever transactions with postings can be read from the file before can be read from it afterwards: their postings, together, with
their tags of the given kind. -/
def KeepsMarks (K : Str → Prop) (sys : Sys) (n : Nat) (before after : Nat → Option Bytes) : Prop :=
  ∀ ts, readable sys before n = some ts →
    ∃ ts', readable sys after n = some ts' ∧ ∀ T ∈ ts, T.posts ≠ [] →
      ∃ T' ∈ ts', ∀ p ∈ T.posts, ∃ p' ∈ T'.posts, ∀ t, K t → t ∈ tagsOf p → t ∈ tagsOf p'

/-- As `CareOfTags`; or the run is one of `apply-rules` that reads the journal and writes it back, is not stopped and does not fail in the
middle of writing. Its rules remove no tag of the given kind from a posting, and what they add can be told apart in comments. What is
printed must be parsed with the comments that were printed. -/
def CareOfMarks (K : Str → Prop) (base : Sys) (n : Nat) (files : Nat → Option Bytes) (s : Step) : Prop :=
  CareOfTags base n files s ∨
  (s.killed = none ∧ (s.run base files).1 ≠ .error .write ∧ ∃ rules input output, s.cmd = .applyRules rules input output ∧
    fileOf base input = some n ∧ fileOf base output = some n ∧
    ∀ T, rules files = some T → NeverRemoves K T ∧ PlainTable T ∧
      ∀ ts ts', readable base files n = some ts → T.updateTransactions s.outside.lower s.outside.fuel ts = .ok ts' →
        CommentsComeBack base (TransactionPostings.intoLedger HashOrder.sorted ts'))

end Verif.Spec
