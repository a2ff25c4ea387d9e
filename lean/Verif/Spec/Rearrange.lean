import Verif.Spec.Rules

/-!
# Specification: other ways to write the same rules
-/

namespace Verif.Spec.Rules
open Verif.Rules

/-- The predicate holds for every posting. -/
def Always (lower : Str → Str) (p : Predicate) : Prop := ∀ c, Holds lower c p

/-- The predicate holds for no posting. -/
def Never (lower : Str → Str) (p : Predicate) : Prop := ∀ c, ¬ Holds lower c p

/-- No rule says to return. -/
def NoReturn (rs : List Rule) : Prop := ∀ r ∈ rs, r.result = .continue_

/-- Another way to write the chain called `name` of a table. -/
inductive Rewritten (lower : Str → Str) (T : Table) (name : Str) : List Rule → List Rule → Prop
  /-- a rule that applies to nothing is left out -/
  | never {before p a res behind} : Never lower p → Rewritten lower T name (before ++ ⟨p, a, res⟩ :: behind) (before ++ behind)
  /-- a rule that does nothing is left out -/
  | idle {before p behind} : Rewritten lower T name (before ++ ⟨p, .noop, .continue_⟩ :: behind) (before ++ behind)
  /-- rules behind one that applies to everything and returns are left out -/
  | behindReturn {before p a behind} : Always lower p →
    Rewritten lower T name (before ++ ⟨p, a, .return_⟩ :: behind) (before ++ [⟨p, a, .return_⟩])
  /-- what the last rule says about how to go on does not matter -/
  | last {before p a res res'} : Rewritten lower T name (before ++ [⟨p, a, res⟩]) (before ++ [⟨p, a, res'⟩])
  /-- two rules that do not apply to the same postings, and return, change places -/
  | swap {before p a q b behind} : (∀ c, Holds lower c p → ¬ Holds lower c q) →
    Rewritten lower T name (before ++ ⟨p, a, .return_⟩ :: ⟨q, b, .return_⟩ :: behind) (before ++ ⟨q, b, .return_⟩ :: ⟨p, a, .return_⟩ :: behind)
  /-- two rules with the same action that return become one -/
  | any {before p q a behind} :
    Rewritten lower T name (before ++ ⟨p, a, .return_⟩ :: ⟨q, a, .return_⟩ :: behind) (before ++ ⟨.any [p, q], a, .return_⟩ :: behind)
  /-- a predicate is written in another way -/
  | predicate {before p q a res behind} : (∀ c, Holds lower c p ↔ Holds lower c q) →
    Rewritten lower T name (before ++ ⟨p, a, res⟩ :: behind) (before ++ ⟨q, a, res⟩ :: behind)
  /-- two rules that apply to everything become one -/
  | together {before p q a b res behind} : Always lower p → Always lower q →
    Rewritten lower T name (before ++ ⟨p, a, .continue_⟩ :: ⟨q, b, res⟩ :: behind) (before ++ ⟨.true_, .all [a, b], res⟩ :: behind)
  /-- a list of actions is written in its place in another one -/
  | flatten {before p as bs cs res behind} :
    Rewritten lower T name (before ++ ⟨p, .all (as ++ .all bs :: cs), res⟩ :: behind) (before ++ ⟨p, .all (as ++ bs ++ cs), res⟩ :: behind)
  /-- the rules of another chain are written in place of a jump to it, if none of them returns -/
  | inline {before p dest rs behind} : Always lower p → dest ≠ name → T[dest]? = some rs → NoReturn rs →
    Rewritten lower T name (before ++ ⟨p, .jumpChain dest, .continue_⟩ :: behind) (before ++ rs ++ behind)
  /-- the rules of another chain are written in place of a jump to it, if nothing comes behind it -/
  | inlineLast {before p dest res rs} : Always lower p → dest ≠ name → T[dest]? = some rs →
    Rewritten lower T name (before ++ [⟨p, .jumpChain dest, res⟩]) (before ++ rs)

/-- Another way to write a table of rules: any number of steps, in either direction. -/
inductive Rearranged (lower : Str → Str) : Table → Table → Prop
  /-- a chain is written in another way -/
  | chain {T name rs rs'} : T[name]? = some rs → Rewritten lower T name rs rs' → Rearranged lower T (T.insert name rs')
  /-- a chain is added that nothing jumps to -/
  | unused {T : Table} {name : Str} {rs} : name ∉ T → name ≠ "start".toList → (∀ from_, ¬ JumpsTo T from_ name) → Rearranged lower T (T.insert name rs)
  | refl {T} : Rearranged lower T T
  | symm {T T'} : Rearranged lower T T' → Rearranged lower T' T
  | trans {T T' T''} : Rearranged lower T T' → Rearranged lower T' T'' → Rearranged lower T T''

/-- The action with other names of chains. -/
def renameAction (f : Str → Str) : Action → Action
  | .jumpChain name => .jumpChain (f name)
  | .all as => .all (as.map (renameAction f))
  | a => a

/-- The rules with other names of chains. -/
def renameRules (f : Str → Str) (rs : List Rule) : List Rule := rs.map fun r => ⟨r.predicate, renameAction f r.action, r.result⟩

/-- The outcome with other names of chains. -/
def renameOutcome {α : Type} (f : Str → Str) : Except RuleErr α → Except RuleErr α
  | .error (.chainNotFound name) => .error (.chainNotFound (f name))
  | r => r

/-- The second table is the first one with other names of chains. -/
structure Renamed (f : Str → Str) (T T' : Table) : Prop where
  start : f "start".toList = "start".toList
  chains : ∀ name, T'[f name]? = (T[name]?).map (renameRules f)

end Verif.Spec.Rules
