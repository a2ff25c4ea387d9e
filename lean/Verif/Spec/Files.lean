import Verif.Model.Files

/-!
# Specification: what a run does to files
-/

namespace Verif.Spec

/-- The file that a file argument names. -/
def fileOf (sys : Sys) : FileSpec → Option Nat
  | .stdio => none
  | .path p => some (sys.file p)

/-- The effects of writing a text in full. -/
def wholeWrite (sys : Sys) (f : FileSpec) (text : Str) : List Eff :=
  match fileOf sys f with
  | none => (encodeUtf8 text).map .print
  | some n => .create n :: (encodeUtf8 text).map (.write n)

/-- The ledger that can be read from a file argument while the files have the given contents; `again` says that
standard input has already been read. -/
def ledgerAt (sys : Sys) (files : Nat → Option Bytes) (again : Bool) (f : FileSpec) : Option Ledger :=
  match fileOf sys f with
  | none => (decodeUtf8 (if again then [] else sys.stdin)).bind sys.parse
  | some n => ((files n).bind decodeUtf8).bind sys.parse

/-- The files `fs` are rewritten one after the other, in full: what is read from one, at that time, is changed by `T` and
written back to it. Before: standard input has been read or not, and the effects so far; then the same afterwards. -/
inductive Rewritten (sys : Sys) (T : Ledger → Str → Prop) : Bool → List Eff → List FileSpec → Bool → List Eff → Prop
  | nil {again log} : Rewritten sys T again log [] again log
  | cons {again log f fs L text again' log'} :
    ledgerAt sys (contentsAfter sys.start log) again f = some L → T L text →
    Rewritten sys T (again || f = .stdio) (log ++ wholeWrite sys f text) fs again' log' →
    Rewritten sys T again log (f :: fs) again' log'

/-- The effects of writing several files in full, one after the other. -/
def wholeWrites (sys : Sys) (plan : List (FileSpec × Str)) : List Eff := plan.flatMap fun e => wholeWrite sys e.1 e.2

/-- The text is planned to be written to the file. -/
def Planned (sys : Sys) (plan : List (FileSpec × Str)) (n : Nat) (text : Str) : Prop :=
  ∃ f, (f, text) ∈ plan ∧ fileOf sys f = some n

end Verif.Spec
