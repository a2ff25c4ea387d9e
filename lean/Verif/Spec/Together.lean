import Verif.Model.Together
import Verif.Spec.Recover

/-!
# Specification: runs at the same time
-/

namespace Verif.Spec

/-- The run as a process that is about to start. -/
def Step.proc (base : Sys) (s : Step) : Proc :=
  ⟨s.sys base fun _ => none, World.start, .next (s.cmd.task (s.sys base fun _ => none) s.outside)⟩

/-- Several runs at the same time, after so many steps in the given order. -/
def together {ι : Type} [DecidableEq ι] (base : Sys) (files : Nat → Option Bytes) (runs : ι → Step) (order : List ι) : Shared ι :=
  Shared.run ⟨files, fun i => (runs i).proc base⟩ order

/-- None of the other runs may write to a file. -/
def LeftBy {ι : Type} (base : Sys) (runs : ι → Step) (i : ι) (n : Nat) : Prop :=
  ∀ j, j ≠ i → ∀ g, Target (runs j).cmd g → fileOf base g ≠ some n

/-- None of the other runs may write to a file that run `i` reads or may write to, or that matters for its rules. -/
structure LeftAlone {ι : Type} (base : Sys) (runs : ι → Step) (i : ι) : Prop where
  reads : ∀ f n, Reads (runs i).cmd f → fileOf base f = some n → LeftBy base runs i n
  writes : ∀ f n, Target (runs i).cmd f → fileOf base f = some n → LeftBy base runs i n
  rules : ∀ files files' : Nat → Option Bytes, (∀ n, LeftBy base runs i n → files n = files' n) →
    rulesFor files (runs i).cmd = rulesFor files' (runs i).cmd

/-- The process has come to an end. -/
def Ended (p : Proc) : Prop := ∃ r, p.Finished r

open Classical in
/-- A run as far as a process has come with it. -/
noncomputable def Step.soFar (s : Step) (p : Proc) : Step :=
  { s with killed := if Ended p then none else some p.world.log.length }

/-- The command has read all that it reads before it writes anything. -/
def ReadsFirst : SubCommand → Prop
  | .format fs => fs.length ≤ 1
  | .generateFingerprints fs => fs.length ≤ 1
  | _ => True

end Verif.Spec
