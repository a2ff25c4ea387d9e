import Verif.Spec.Session

/-!
# Specification: runs that are stopped or fail, and are repeated
-/

namespace Verif.Spec

/-- The file arguments that a command reads. (The rules files of `apply-rules` are not arguments of the model: `rulesFor`.) -/
def Reads : SubCommand → FileSpec → Prop
  | .applyRules _ input _, f => f = input
  | .format files, f => f ∈ files
  | .generateFingerprints files, f => f ∈ files
  | .importFrom (.nationwideCsv _ _ input) _, f => f = input
  | .importFrom (.nationwidePdf _ input _) _, f => f = .path input
  | .importFrom (.paypalCsv _ _ input tz) _, f => f = input ∨ f = tz
  | .merge args, f => f ∈ args.inputs

/-- The table of rules that a command finds in the files. -/
def rulesFor (files : Nat → Option Bytes) : SubCommand → Option Rules.Table
  | .applyRules rules _ _ => rules files
  | _ => none

/-- No file that the command may write to is one that it reads, nor does it matter for its rules. -/
structure WritesElsewhere (base : Sys) (cmd : SubCommand) : Prop where
  apart : ∀ f g n, Reads cmd f → Target cmd g → ¬ (fileOf base f = some n ∧ fileOf base g = some n)
  rules : ∀ files files' : Nat → Option Bytes, (∀ n, (∀ g, Target cmd g → fileOf base g ≠ some n) → files n = files' n) →
    rulesFor files cmd = rulesFor files' cmd

/-- The run `s` is an attempt at the run `s'`: it is the same command with the same standard input, but anything can go wrong in it, it can
be stopped at any moment, and random numbers and orders of hash sets can be others. -/
structure AttemptAt (s s' : Step) : Prop where
  cmd : s.cmd = s'.cmd
  stdin : s.stdin = s'.stdin
  lib : s.outside.lib = s'.outside.lib
  lower : s.outside.lower = s'.outside.lower
  fuel : s.outside.fuel = s'.outside.fuel
  hasParent : s.outside.hasParent = s'.outside.hasParent

/-- Nothing goes wrong from outside. -/
def Undisturbed (s : Step) : Prop := s.killed = none ∧ ∀ n, s.fault n = none

end Verif.Spec
