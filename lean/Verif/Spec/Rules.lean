import Verif.Model.Rules

/-!
# Specification: what rules mean

A big-step semantics: there is no fuel, and a derivation exists only for what terminates.
-/

namespace Verif.Spec.Rules
open Verif.Rules

/-- A text satisfies a matcher. -/
def TextMatches (lower : Str → Str) : StringMatch → Str → Prop
  | .asLower m, s => TextMatches lower m (lower s)
  | .contains want, s => want <:+: s
  | .eq want, s => s = want
  | .matches_ f, s => f s = true

/-- A predicate holds for a posting in its transaction. -/
def Holds (lower : Str → Str) (c : Ctx) : Predicate → Prop
  | .all ps => ∀ p, (_ : p ∈ ps) → Holds lower c p
  | .any ps => ∃ p, ∃ _ : p ∈ ps, Holds lower c p
  | .account m => TextMatches lower m c.post.raw.account
  | .postingFlagTag m => ∃ tag, tag ∈ c.post.comment.tags ∧ TextMatches lower m tag
  | .postingHasFlagTag tag => tag ∈ c.post.comment.tags
  | .postingHasValueTag key => key ∈ c.post.comment.valueTags
  | .postingValueTag key m => ∃ value, c.post.comment.valueTags[key]? = some value ∧ TextMatches lower m value
  | .not p => ¬ Holds lower c p
  | .transactionDescription m => TextMatches lower m c.trn.raw.description
  | .true_ => True

/-- The context with other flag tags on the posting. -/
def withPostTags (c : Ctx) (tags : TagSet) : Ctx :=
  ⟨c.trn, ⟨c.post.raw, ⟨c.post.comment.lines, tags, c.post.comment.valueTags⟩⟩⟩
/-- The context with other value tags on the posting. -/
def withPostValues (c : Ctx) (values : StrMap) : Ctx :=
  ⟨c.trn, ⟨c.post.raw, ⟨c.post.comment.lines, c.post.comment.tags, values⟩⟩⟩
/-- The context with other flag tags on the transaction. -/
def withTrnTags (c : Ctx) (tags : TagSet) : Ctx :=
  ⟨⟨c.trn.raw, ⟨c.trn.comment.lines, tags, c.trn.comment.valueTags⟩⟩, c.post⟩
/-- The context with other value tags on the transaction. -/
def withTrnValues (c : Ctx) (values : StrMap) : Ctx :=
  ⟨⟨c.trn.raw, ⟨c.trn.comment.lines, c.trn.comment.tags, values⟩⟩, c.post⟩

/-- What the actions do that change one thing. -/
inductive Changes : Action → Ctx → Ctx → Prop
  | addPostingFlagTag {c tag tags} : (∀ t, t ∈ tags ↔ t = tag ∨ t ∈ c.post.comment.tags) →
    Changes (.addPostingFlagTag tag) c (withPostTags c tags)
  | removePostingFlagTag {c tag tags} : (∀ t, t ∈ tags ↔ t ≠ tag ∧ t ∈ c.post.comment.tags) →
    Changes (.removePostingFlagTag tag) c (withPostTags c tags)
  | addPostingValueTag {c key value} {values : StrMap} :
    values[key]? = some value → (∀ k, k ≠ key → values[k]? = c.post.comment.valueTags[k]?) →
    Changes (.addPostingValueTag key value) c (withPostValues c values)
  | removePostingValueTag {c key} {values : StrMap} :
    values[key]? = none → (∀ k, k ≠ key → values[k]? = c.post.comment.valueTags[k]?) →
    Changes (.removePostingValueTag key) c (withPostValues c values)
  | addTransactionFlagTag {c tag tags} : (∀ t, t ∈ tags ↔ t = tag ∨ t ∈ c.trn.comment.tags) →
    Changes (.addTransactionFlagTag tag) c (withTrnTags c tags)
  | removeTransactionFlagTag {c tag tags} : (∀ t, t ∈ tags ↔ t ≠ tag ∧ t ∈ c.trn.comment.tags) →
    Changes (.removeTransactionFlagTag tag) c (withTrnTags c tags)
  | addTransactionValueTag {c key value} {values : StrMap} :
    values[key]? = some value → (∀ k, k ≠ key → values[k]? = c.trn.comment.valueTags[k]?) →
    Changes (.addTransactionValueTag key value) c (withTrnValues c values)
  | removeTransactionValueTag {c key} {values : StrMap} :
    values[key]? = none → (∀ k, k ≠ key → values[k]? = c.trn.comment.valueTags[k]?) →
    Changes (.removeTransactionValueTag key) c (withTrnValues c values)
  | setAccount {c account} :
    Changes (.setAccount account) c ⟨c.trn, ⟨{ c.post.raw with account := account }, c.post.comment⟩⟩
  | replaceTransactionDescription {c f} :
    Changes (.replaceTransactionDescription f) c
      ⟨⟨{ c.trn.raw with description := f c.trn.raw.description }, c.trn.comment⟩, c.post⟩
  | noop {c} : Changes .noop c c

/-- Things that can be run. -/
inductive Job where
  | action (a : Action)
  | actions (as : List Action)
  | rules (rs : List Rule)

/-- Running something in a context ends with a changed context or an error. -/
inductive Runs (lower : Str → Str) (T : Table) : Job → Ctx → Except RuleErr Ctx → Prop
  | change {a c c'} : Changes a c c' → Runs lower T (.action a) c (.ok c')
  | report {msg c} : Runs lower T (.action (.error msg)) c (.error (.reported msg))
  | all {as c r} : Runs lower T (.actions as) c r → Runs lower T (.action (.all as)) c r
  | jump {name ch c r} : T[name]? = some ch → Runs lower T (.rules ch) c r → Runs lower T (.action (.jumpChain name)) c r
  | noChain {name c} : T[name]? = none → Runs lower T (.action (.jumpChain name)) c (.error (.chainNotFound name))
  | actionsNil {c} : Runs lower T (.actions []) c (.ok c)
  | actionsCons {a as c c' r} : Runs lower T (.action a) c (.ok c') → Runs lower T (.actions as) c' r →
    Runs lower T (.actions (a :: as)) c r
  | actionsError {a as c e} : Runs lower T (.action a) c (.error e) → Runs lower T (.actions (a :: as)) c (.error e)
  | rulesNil {c} : Runs lower T (.rules []) c (.ok c)
  /-- the predicate does not hold: on to the next rule -/
  | skip {p a res rs c r} : ¬ Holds lower c p → Runs lower T (.rules rs) c r → Runs lower T (.rules (⟨p, a, res⟩ :: rs)) c r
  /-- the predicate holds and the rule says to go on -/
  | continue_ {p a rs c c' r} : Holds lower c p → Runs lower T (.action a) c (.ok c') → Runs lower T (.rules rs) c' r →
    Runs lower T (.rules (⟨p, a, .continue_⟩ :: rs)) c r
  /-- the predicate holds and the rule says to return: the other rules do not matter -/
  | return_ {p a rs c c'} : Holds lower c p → Runs lower T (.action a) c (.ok c') →
    Runs lower T (.rules (⟨p, a, .return_⟩ :: rs)) c (.ok c')
  | ruleError {p a res rs c e} : Holds lower c p → Runs lower T (.action a) c (.error e) →
    Runs lower T (.rules (⟨p, a, res⟩ :: rs)) c (.error e)

/-- Running the chain for each posting in turn; what is changed in the transaction is seen by later postings. -/
inductive RunsPosts (lower : Str → Str) (T : Table) (start : List Rule) :
    TransactionInternal → List PostingInternal → Except RuleErr (TransactionInternal × List PostingInternal) → Prop
  | nil {t} : RunsPosts lower T start t [] (.ok (t, []))
  | cons {t p ps t' p' t'' ps'} : Runs lower T (.rules start) ⟨t, p⟩ (.ok ⟨t', p'⟩) →
    RunsPosts lower T start t' ps (.ok (t'', ps')) → RunsPosts lower T start t (p :: ps) (.ok (t'', p' :: ps'))
  | error {t p ps e} : Runs lower T (.rules start) ⟨t, p⟩ (.error e) → RunsPosts lower T start t (p :: ps) (.error e)
  | later {t p ps t' p' e} : Runs lower T (.rules start) ⟨t, p⟩ (.ok ⟨t', p'⟩) →
    RunsPosts lower T start t' ps (.error e) → RunsPosts lower T start t (p :: ps) (.error e)

/-- Applying the table to a transaction: the chain called "start" is run for each posting. -/
inductive RunsTransaction (lower : Str → Str) (T : Table) : TransactionPostings → Except RuleErr TransactionPostings → Prop
  | noStart {t} : T["start".toList]? = none → RunsTransaction lower T t (.error (.chainNotFound "start".toList))
  | ok {t ch trn posts} : T["start".toList]? = some ch → RunsPosts lower T ch t.trn t.posts (.ok (trn, posts)) →
    RunsTransaction lower T t (.ok ⟨trn, posts⟩)
  | error {t ch e} : T["start".toList]? = some ch → RunsPosts lower T ch t.trn t.posts (.error e) →
    RunsTransaction lower T t (.error e)

/-- The chains that an action may jump to, at any depth of `All`. -/
inductive Jumps : Action → Str → Prop
  | here {name} : Jumps (.jumpChain name) name
  | inside {as a name} : a ∈ as → Jumps a name → Jumps (.all as) name

/-- One chain has a rule that may jump to another. -/
def JumpsTo (T : Table) (from_ dest : Str) : Prop :=
  ∃ ch, T[from_]? = some ch ∧ ∃ r ∈ ch, Jumps r.action dest

/-- A posting before and after: only the account and the tags may differ. -/
structure SamePosting (p q : PostingInternal) : Prop where
  amount : q.raw.amount = p.raw.amount
  balance : q.raw.balance = p.raw.balance
  status : q.raw.status = p.raw.status
  reality : q.raw.reality = p.raw.reality
  comment : q.raw.comment = p.raw.comment
  lines : q.comment.lines = p.comment.lines

/-- A transaction before and after: only the description and the tags may differ. -/
structure SameHeader (t u : TransactionInternal) : Prop where
  date : u.raw.date = t.raw.date
  effectiveDate : u.raw.effectiveDate = t.raw.effectiveDate
  status : u.raw.status = t.raw.status
  code : u.raw.code = t.raw.code
  comment : u.raw.comment = t.raw.comment
  postings : u.raw.postings = t.raw.postings
  lines : u.comment.lines = t.comment.lines

end Verif.Spec.Rules
