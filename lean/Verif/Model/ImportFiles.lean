import Verif.Base.Windows1252
import Verif.Model.Ocr

/-!
# The command `import`, from files

The importers with the files that they read (/repo/src/importers/nationwide_csv.rs:41-53, /repo/src/importers/nationwide_pdf.rs:28-41,
/repo/src/importers/paypal_csv.rs:25-42), in place of what is read from them.
-/

namespace Verif

namespace Files

/-- `FileSpec::reader` (/repo/src/filespec.rs:33-41), read to the end. Simplified: the importers read bit by bit and can fail before
the end of the file; they fail then in any case, and have written nothing. -/
def readBytes (sys : Sys) : FileSpec → Prog Bytes
  | .stdio => fun w =>
    match sys.fault w.ops with
    | some _ => (.error .read, { w with ops := w.ops + 1, stdinRead := true })
    | none => (.ok (if w.stdinRead then [] else sys.stdin), { w with ops := w.ops + 1, stdinRead := true })
  | .path p => fun w =>
    match contentsAfter sys.start w.log (sys.file p) with
    | none => (.error .open_, { w with ops := w.ops + 1 })
    | some b =>
      match sys.fault w.ops with
      | some 0 => (.error .open_, { w with ops := w.ops + 1 })
      | some _ => (.error .read, { w with ops := w.ops + 1 })
      | none => (.ok b, { w with ops := w.ops + 1 })

end Files

namespace ImportCmd

/-- An importer with its arguments: `NationwideCsv` (/repo/src/importers/nationwide_csv.rs:41-53), `NationwidePdf`
(/repo/src/importers/nationwide_pdf.rs:26-41) and `PaypalCsv` (/repo/src/importers/paypal_csv.rs:25-42; the time zone for the output
is in `ImportLib`). What the two programs do for statements in PDF depends on the file, which need not be there. -/
inductive Source where
  | nationwideCsv (fpNs : Nationwide.FpNamespace) (legacy : Bool) (input : FileSpec)
  | nationwidePdf (fpNs : Nationwide.FpNamespace) (input : Str) (programs : Option Bytes → Ocr.Programs)
  | paypalCsv (ns : Str) (legacy : Bool) (input tz : FileSpec)

/-- The result of an importer as a result of the command (/repo/src/importers/cmd.rs:62). -/
def ofExcept {ε α : Type} : Except ε α → Prog α
  | .ok a => pure a
  | .error _ => Prog.fail .other

/-- What the importers read: /repo/src/importers/nationwide_csv.rs:58-68, /repo/src/importers/nationwide_pdf.rs:46 and
/repo/src/importers/paypal_csv.rs:44-53, where the file with abbreviations of time zones is opened after the header of the other
file has been read. Simplified: PayPal files and tables of time zones must be UTF-8 as a whole; the crate `csv` checks the fields,
and would also take a character with a quotation mark between its bytes. If both come from standard input, the model finds nothing for
the second; the code can find what is behind the first 8 kilobytes. -/
def Source.importer (sys : Sys) : Source → Prog Importer
  | .nationwideCsv fpNs legacy input => do
    let bytes ← Files.readBytes sys input
    ofExcept (Texts.nationwideCsv fpNs legacy (Windows1252.decode bytes)).importer
  | .nationwidePdf fpNs input programs => fun w =>
    ofExcept ((Ocr.ocrDocument (programs (contentsAfter sys.start w.log (sys.file input)))).map (Importer.nationwidePdf fpNs)) w
  | .paypalCsv ns legacy input tz => do
    let text ← Files.readFile sys input
    let tzText ← Files.readFile sys tz
    ofExcept (Texts.paypalCsv ns legacy text tzText).importer

/-- `Command::run` of `import` (/repo/src/importers/cmd.rs:61-95), with the files that are read. -/
def runFiles (sys : Sys) (L : ImportLib) (hasParent : Str → Bool) (source : Source) (args : Args) : Prog Unit := do
  let importer ← source.importer sys
  run sys L hasParent importer args

end ImportCmd
end Verif
