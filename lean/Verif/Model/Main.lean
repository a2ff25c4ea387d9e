import Verif.Model.Commands
import Verif.Model.ImportFiles
import Verif.Model.Rules

/-!
# The program (/repo/src/main.rs)
-/

namespace Verif

/-- `SubCommand` (/repo/src/main.rs:29-47), with the arguments of the commands: /repo/src/rules/cmd.rs:9-19, /repo/src/fmt.rs:7-10,
/repo/src/fpgen.rs:10-14, /repo/src/importers/cmd.rs:41-59 and /repo/src/merge/cmd.rs:9-20. Which table `apply-rules` uses depends on the
contents of files (`Rules.loadTable`; the syntax of rules files is not modelled). Not modelled: `Command::parse` (line 50), that is how
arguments become such a value, help texts and complaints about arguments. -/
inductive SubCommand where
  | applyRules (rules : (Nat → Option Bytes) → Option Rules.Table) (input output : FileSpec)
  | format (files : List FileSpec)
  | generateFingerprints (files : List FileSpec)
  | importFrom (source : ImportCmd.Source) (args : ImportCmd.Args)
  | merge (args : MergeCmd.Args)

/-- What a run depends on besides files: orders of iteration over hash sets and maps, and what the model takes from libraries (the calls
are at /repo/src/main.rs:52-58). -/
structure Outside where
  orders : Nat → HashOrder
  lower : Str → Str
  fuel : Nat
  lib : ImportLib
  hasParent : Str → Bool

/-- `main` (/repo/src/main.rs:49-60). -/
def SubCommand.run (sys : Sys) (o : Outside) : SubCommand → Prog Unit
  | .applyRules rules input output => Rules.applyRules sys (o.orders 0) o.lower o.fuel (rules sys.start) input output
  | .format files => fmtRun sys files
  | .generateFingerprints files => FpGen.run sys (o.orders 0) files
  | .importFrom source args => ImportCmd.runFiles sys o.lib o.hasParent source args
  | .merge args => MergeCmd.run sys o.orders args

end Verif
