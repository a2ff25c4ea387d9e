import Verif.Spec.Session
import Verif.Spec.DaysCmd
import Verif.Spec.Recover

/-!
# Specification: standard input and output in place of a file
-/

namespace Verif.Spec

/-- What the effects print, in order. -/
def onScreen (log : List Eff) : Bytes :=
  log.flatMap fun e => match e with
    | .print b => [b]
    | _ => []

/-- The argument is a file, and not the file `p`. -/
def OtherFile (sys : Sys) (p : Str) (f : FileSpec) : Prop := ∃ n, fileOf sys f = some n ∧ n ≠ sys.file p

/-- The second command is the first one with standard output in place of the file `p` for its output. If it is `merge`, then what is
unmerged goes to another file or to none. -/
inductive PrintsFor (sys : Sys) (p : Str) : SubCommand → SubCommand → Prop where
  | applyRules (rules : (Nat → Option Bytes) → Option Rules.Table) (input : FileSpec) :
    PrintsFor sys p (.applyRules rules input (.path p)) (.applyRules rules input .stdio)
  | importFrom (source : ImportCmd.Source) : PrintsFor sys p (.importFrom source ⟨.path p, false, false⟩) (.importFrom source ⟨.stdio, false, false⟩)
  | merge (inputs : List FileSpec) (unmerged : Option FileSpec) :
    (∀ f, unmerged = some f → OtherFile sys p f) →
    PrintsFor sys p (.merge ⟨inputs, unmerged, .path p⟩) (.merge ⟨inputs, unmerged, .stdio⟩)

/-- The second command is the first one with standard input in place of the file `p`, which is one of the inputs. All others are other files. -/
inductive ReadsFor (sys : Sys) (p : Str) : SubCommand → SubCommand → Prop where
  | applyRules (rules : (Nat → Option Bytes) → Option Rules.Table) (output : FileSpec) :
    ReadsFor sys p (.applyRules rules (.path p) output) (.applyRules rules .stdio output)
  | nationwideCsv (fpNs : Nationwide.FpNamespace) (legacy : Bool) (args : ImportCmd.Args) :
    ReadsFor sys p (.importFrom (.nationwideCsv fpNs legacy (.path p)) args) (.importFrom (.nationwideCsv fpNs legacy .stdio) args)
  | paypalCsv (ns : Str) (legacy : Bool) (tz : FileSpec) (args : ImportCmd.Args) : OtherFile sys p tz →
    ReadsFor sys p (.importFrom (.paypalCsv ns legacy (.path p) tz) args) (.importFrom (.paypalCsv ns legacy .stdio tz) args)
  | timeZones (ns : Str) (legacy : Bool) (input : FileSpec) (args : ImportCmd.Args) : OtherFile sys p input →
    ReadsFor sys p (.importFrom (.paypalCsv ns legacy input (.path p)) args) (.importFrom (.paypalCsv ns legacy input .stdio) args)
  | merge (before behind : List FileSpec) (unmerged : Option FileSpec) (output : FileSpec) :
    (∀ f ∈ before ++ behind, OtherFile sys p f) →
    ReadsFor sys p (.merge ⟨before ++ .path p :: behind, unmerged, output⟩) (.merge ⟨before ++ .stdio :: behind, unmerged, output⟩)

/-- The second command reads standard input and prints, where the first one rewrites the file `p`. -/
inductive FiltersFor (p : Str) : SubCommand → SubCommand → Prop where
  | format : FiltersFor p (.format [.path p]) (.format [.stdio])
  | generateFingerprints : FiltersFor p (.generateFingerprints [.path p]) (.generateFingerprints [.stdio])

/-- The same system, but `b` comes from standard input, and the files contain something else. -/
def withInput (sys : Sys) (b : Bytes) (files : Nat → Option Bytes) : Sys := { sys with start := files, stdin := b }

/-- The command is `merge`. -/
def IsMerge : SubCommand → Prop
  | .merge _ => True
  | _ => False

/-- What two runs of `merge` did is the same but for notes of sources in what is unmerged. -/
def SameButSources (sys : Sys) (cmd : SubCommand) (log log' : List Eff) : Prop :=
  ∃ args, cmd = .merge args ∧ ∃ u u' journal : List TransactionPostings, u.map unsourced = u'.map unsourced ∧
    log = wholeWrites sys (mergePlan sys HashOrder.sorted args u journal) ∧
    log' = wholeWrites sys (mergePlan sys HashOrder.sorted args u' journal)

/-- The file for what is unmerged, if the command is `merge` and there is one. -/
def unmergedFile : SubCommand → Option FileSpec
  | .merge args => args.unmerged
  | _ => none

/-- The run with another command. -/
def Step.doing (s : Step) (cmd : SubCommand) : Step := { s with cmd := cmd }

/-- What a run prints, until it ends or is stopped. -/
def Step.prints (base : Sys) (files : Nat → Option Bytes) (s : Step) : Bytes :=
  onScreen (match s.killed with
    | none => (s.run base files).2.log
    | some k => (s.run base files).2.log.take k)

/-- The run with another command, which gets what an earlier run prints. -/
def Step.behind (s : Step) (base : Sys) (files : Nat → Option Bytes) (first : Step) (cmd : SubCommand) : Step :=
  { s with cmd := cmd, stdin := first.prints base files }

/-- The table of rules does not depend on the file. -/
def RulesApart (cmd : SubCommand) (n : Nat) : Prop :=
  ∀ files files' : Nat → Option Bytes, (∀ m, m ≠ n → files m = files' m) → rulesFor files cmd = rulesFor files' cmd

/-- No operation fails, standard input is empty, and an empty text is read as a file without transactions. -/
structure NothingArrives (sys : Sys) : Prop where
  stdin : sys.stdin = []
  parse : ∃ L, sys.parse [] = some L ∧ TransactionPostings.fromLedger L = some []
  fault : ∀ n, sys.fault n = none

end Verif.Spec
