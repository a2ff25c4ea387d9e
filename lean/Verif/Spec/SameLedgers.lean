import Verif.Spec.Recover

/-!
# What C113 is about: files that hold the same ledgers, in whatever way they are written
-/

namespace Verif.Spec
open Verif

/-- The ledger that a file with these contents holds, if there is such a file, its contents are text and the text is a ledger. -/
def ledgerIn (parse : Str → Option Ledger) (contents : Option Bytes) : Option Ledger := (contents.bind decodeUtf8).bind parse

/-- Every file holds the same ledger in the one file system as in the other, or none in both. -/
def SameLedgers (parse : Str → Option Ledger) (files files' : Nat → Option Bytes) : Prop :=
  ∀ n, ledgerIn parse (files n) = ledgerIn parse (files' n)

/-- A file argument stands for a file that holds the same ledger before and after, or for standard input. -/
def HoldsSame (sys : Sys) (files : Nat → Option Bytes) (f : FileSpec) : Prop :=
  ∀ n, fileOf sys f = some n → ledgerIn sys.parse (sys.start n) = ledgerIn sys.parse (files n)

/-- The same computer with other files. -/
def onFiles (sys : Sys) (files : Nat → Option Bytes) : Sys := { sys with start := files }

/-- The command imports statements: it reads statements, not ledgers. -/
def IsImport : SubCommand → Prop
  | .importFrom _ _ => True
  | _ => False

end Verif.Spec
