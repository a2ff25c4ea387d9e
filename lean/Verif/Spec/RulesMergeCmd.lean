import Verif.Spec.RulesMerge
import Verif.Spec.DaysCmd

/-!
# Specification: a run of `apply-rules`
-/

namespace Verif.Spec
open Verif

/-- The run applies the rules of the table `T` to the file `q` and writes the result to `r`; no operation fails and nothing stops it. The
rules are in files other than those numbered in `changed`. -/
structure AppliesRules (files : Nat → Option Bytes) (changed : List Nat) (T : Rules.Table) (lower : Str → Str) (fuel : Nat) (q r : Str) (s : Step) : Prop where
  cmd : ∃ rules, s.cmd = .applyRules rules (.path q) (.path r) ∧ ∀ f, (∀ n, n ∉ changed → f n = files n) → rules f = some T
  lower : s.outside.lower = lower
  fuel : s.outside.fuel = fuel
  fault : ∀ n, s.fault n = none
  killed : s.killed = none

end Verif.Spec
