import Verif.Spec.RulesAgain
import Verif.Spec.Looks

/-!
# Specification: rules for which the order of postings does not matter
-/

namespace Verif.Spec.Alone
open Verif Verif.Rules Spec.RulesAgain Spec.Looks

/-- An action makes this change of the tags of a header, at any depth of `All`. -/
inductive Makes : Action → TagEdit → Prop
  | add {tag} : Makes (.addTransactionFlagTag tag) (.add tag)
  | remove {tag} : Makes (.removeTransactionFlagTag tag) (.remove tag)
  | set {key value} : Makes (.addTransactionValueTag key value) (.set key value)
  | unset {key} : Makes (.removeTransactionValueTag key) (.unset key)
  | inside {as a e} : a ∈ as → Makes a e → Makes (.all as) e

/-- No rule looks at descriptions, or no rule replaces them. -/
def NotBoth (T : Table) : Prop :=
  (∀ r, RuleOf T r → ∀ f, ¬ Replaces r.action f) ∨ ∀ r, RuleOf T r → ¬ Reads r.predicate .description

/-- The rules agree about headers: no tag is added by one and removed by another, no key is set to two values or set and removed, and
replacements of descriptions can be made in any order. -/
structure OneWay (T : Table) : Prop where
  tags : ∀ r r' tag, RuleOf T r → RuleOf T r' → Makes r.action (.add tag) → ¬ Makes r'.action (.remove tag)
  removed : ∀ r r' key value, RuleOf T r → RuleOf T r' → Makes r.action (.set key value) → ¬ Makes r'.action (.unset key)
  values : ∀ r r' key value value', RuleOf T r → RuleOf T r' → Makes r.action (.set key value) → Makes r'.action (.set key value') →
    value = value'
  descriptions : ∀ r r' f g, RuleOf T r → RuleOf T r' → Replaces r.action f → Replaces r'.action g → ∀ s, f (g s) = g (f s)

end Verif.Spec.Alone
