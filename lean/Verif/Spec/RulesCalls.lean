import Verif.Spec.Rules

/-!
# Specification: which chain is run in which context, from where
-/

namespace Verif.Spec.Rules
open Verif.Rules

/-- Running something comes to a jump to the chain `name`, in the context on the right. -/
inductive Calls (lower : Str → Str) (T : Table) : Job → Ctx → Str → Ctx → Prop
  | jump {name c} : Calls lower T (.action (.jumpChain name)) c name c
  | all {as c name c'} : Calls lower T (.actions as) c name c' → Calls lower T (.action (.all as)) c name c'
  | first {a as c name c'} : Calls lower T (.action a) c name c' → Calls lower T (.actions (a :: as)) c name c'
  | next {a as c d name c'} : Runs lower T (.action a) c (.ok d) → Calls lower T (.actions as) d name c' →
    Calls lower T (.actions (a :: as)) c name c'
  | skip {p a res rs c name c'} : ¬ Holds lower c p → Calls lower T (.rules rs) c name c' →
    Calls lower T (.rules (⟨p, a, res⟩ :: rs)) c name c'
  | rule {p a res rs c name c'} : Holds lower c p → Calls lower T (.action a) c name c' →
    Calls lower T (.rules (⟨p, a, res⟩ :: rs)) c name c'
  | continue_ {p a rs c d name c'} : Holds lower c p → Runs lower T (.action a) c (.ok d) → Calls lower T (.rules rs) d name c' →
    Calls lower T (.rules (⟨p, a, .continue_⟩ :: rs)) c name c'

/-- Running one chain in its context comes to a jump to another chain in its context. -/
def CallsFrom (lower : Str → Str) (T : Table) (x y : Str × Ctx) : Prop :=
  ∃ ch, T[x.1]? = some ch ∧ Calls lower T (.rules ch) x.2 y.1 y.2

/-- The contexts in which the start chain is run for the postings of a transaction, one after the other. -/
inductive Meets (lower : Str → Str) (T : Table) (start : List Rule) : TransactionInternal → List PostingInternal → Ctx → Prop
  | here {t p ps} : Meets lower T start t (p :: ps) ⟨t, p⟩
  | later {t p ps t' p' c} : Runs lower T (.rules start) ⟨t, p⟩ (.ok ⟨t', p'⟩) → Meets lower T start t' ps c →
    Meets lower T start t (p :: ps) c

/-- The start chain is run in this context when the table is applied to the transaction. -/
def StartsWith (lower : Str → Str) (T : Table) (t : TransactionPostings) (c : Ctx) : Prop :=
  ∃ ch, T["start".toList]? = some ch ∧ Meets lower T ch t.trn t.posts c

/-- One action is another one or is in it, at any depth of `All`. -/
inductive Occurs (b : Action) : Action → Prop
  | here : Occurs b b
  | inside {as a} : a ∈ as → Occurs b a → Occurs b (.all as)

/-- An action is somewhere in the table. -/
def InTable (T : Table) (b : Action) : Prop := ∃ (name : Str) (ch : Chain), T[name]? = some ch ∧ ∃ r ∈ ch, Occurs b r.action

end Verif.Spec.Rules
