import Verif.Model.Files
import Verif.Model.NationwideCsv
import Verif.Model.NationwidePdf
import Verif.Model.PaypalCsv

/-!
# The command `import` (/repo/src/importers/cmd.rs)
-/

namespace Verif

/-- `str::replace` (call site /repo/src/importers/cmd.rs:76), for a pattern that is not empty: the pattern is looked for from left to
right, and the search goes on behind each place where it was found. The number says how many characters belong to the last such
place. -/
def Str.replaceFrom (pat new : Str) : Nat → Str → Str
  | _, [] => []
  | n + 1, _ :: cs => replaceFrom pat new n cs
  | 0, c :: cs => if pat.isPrefixOf (c :: cs) then new ++ replaceFrom pat new (pat.length - 1) cs else c :: replaceFrom pat new 0 cs

/-- `str::replace` (call site /repo/src/importers/cmd.rs:76). -/
def Str.replaceAll (pat new s : Str) : Str := Str.replaceFrom pat new 0 s

namespace ImportCmd

/-- `Importer` (/repo/src/importers/cmd.rs:11-24), with what is read from the input: the records of CSV files and the document that
optical character recognition gives. -/
inductive Importer where
  | nationwideCsv (fpNs : Nationwide.FpNamespace) (legacy : Bool) (records : List (Option NationwideCsv.Row))
  | nationwidePdf (fpNs : Nationwide.FpNamespace) (doc : Tesseract.Document)
  | paypalCsv (ns : Str) (legacy : Bool) (headers : Option NationwideCsv.Row) (rows : List (Option NationwideCsv.Row))
      (tzRecords : List (Option TzAbbr.Record))

/-- `do_import` and `get_importer` (/repo/src/importers/cmd.rs:26-39). -/
def Importer.doImport (L : ImportLib) : Importer → Except ImportErr Import
  | .nationwideCsv fpNs legacy records => NationwideCsv.getTransactions L fpNs legacy records
  | .nationwidePdf fpNs doc => NationwidePdf.getTransactions L fpNs doc
  | .paypalCsv ns legacy headers rows tzRecords => PaypalCsv.getTransactions L ns legacy headers rows tzRecords

/-- `Command` (/repo/src/importers/cmd.rs:41-59), without the importer. -/
structure Args where
  output : FileSpec
  substituteOutputPath : Bool
  makeParentDirs : Bool

/-- The text to be replaced (/repo/src/importers/cmd.rs:76). -/
def placeholder : Str := "%FP_NS%".toList

/-- The output after substitution (/repo/src/importers/cmd.rs:64-78). Paths are texts here, so the check for UTF-8 is not there. -/
def outputFor (args : Args) (ns : Str) : Option FileSpec :=
  if !args.substituteOutputPath then some args.output
  else
    match args.output with
    | .stdio => none
    | .path p => some (.path (Str.replaceAll placeholder ns p))

/-- `create_dir_all` (/repo/src/importers/cmd.rs:87). Directories are not part of the model: creating them fails or not, and has no
effect on files. -/
def createDirs (sys : Sys) : Prog Unit := fun w =>
  match sys.fault w.ops with
  | some _ => (.error .other, { w with ops := w.ops + 1 })
  | none => (.ok (), { w with ops := w.ops + 1 })

/-- Creating parent directories (/repo/src/importers/cmd.rs:80-91). `hasParent` is whether `Path::parent` gives a path. -/
def makeDirs (sys : Sys) (hasParent : Str → Bool) (args : Args) (output : FileSpec) : Prog Unit :=
  if args.makeParentDirs then
    match output with
    | .stdio => Prog.fail .other
    | .path p => if hasParent p then createDirs sys else pure ()
  else pure ()

/-- `Command::run` of `import` (/repo/src/importers/cmd.rs:61-95). -/
def run (sys : Sys) (L : ImportLib) (hasParent : Str → Bool) (importer : Importer) (args : Args) : Prog Unit :=
  match importer.doImport L with
  | .error _ => Prog.fail .other
  | .ok imp => do
    let output ← Prog.ofOption .other (outputFor args imp.userFpNamespace)
    makeDirs sys hasParent args output
    Files.writeLedgerFile sys output (ledgerFromTransactions imp.transactions)

end ImportCmd
end Verif
