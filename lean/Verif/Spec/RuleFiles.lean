import Verif.Model.Rules
import Mathlib.Logic.Relation

/-!
# Specification: files of rules that include each other
-/

namespace Verif.Spec.RuleFiles
open Verif.Rules

/-- The definitions of chains in a list of entries, in order. -/
def definitions (es : List Entry) : List (Str × List Rule) :=
  es.filterMap fun
    | .chain name rules => some (name, rules)
    | .include_ _ => none

/-- The definitions of chains in a file. -/
def definitionsOf (fs : RuleFs) (a : Str) : List (Str × List Rule) := definitions ((fs.file a).getD [])

/-- The path of an included file: relative to the directory of the file that includes it. -/
def target (fs : RuleFs) (a path : Str) : Option Str := (fs.parent a).map fun dir => fs.join dir path

/-- The file `a` includes the file `b`; both are canonical. -/
def Includes (fs : RuleFs) (a b : Str) : Prop :=
  ∃ es path, fs.file a = some es ∧ .include_ path ∈ es ∧ (target fs a path).bind fs.canon = some b

/-- Files that are included from `root`, through any number of others. -/
def Reachable (fs : RuleFs) (root a : Str) : Prop := Relation.ReflTransGen (Includes fs) root a

/-- Some file that can be reached includes something that cannot be read. -/
def Broken (fs : RuleFs) (root : Str) : Prop :=
  ∃ a es path, Reachable fs root a ∧ fs.file a = some es ∧ .include_ path ∈ es ∧
    ((target fs a path).bind fs.canon).bind fs.file = none

/-- A chain is defined twice, in one file or in two, among those that can be reached. -/
def DefinedTwice (fs : RuleFs) (root name : Str) : Prop :=
  (∃ a, Reachable fs root a ∧ 2 ≤ ((definitionsOf fs a).map (·.1)).count name) ∨
  (∃ a b, a ≠ b ∧ Reachable fs root a ∧ Reachable fs root b ∧ name ∈ (definitionsOf fs a).map (·.1) ∧
    name ∈ (definitionsOf fs b).map (·.1))

end Verif.Spec.RuleFiles
