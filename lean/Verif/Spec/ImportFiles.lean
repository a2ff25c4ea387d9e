import Verif.Model.ImportFiles
import Verif.Spec.Files

/-!
# Specification: what importers read
-/

namespace Verif.Spec
open ImportCmd

/-- What can be read from a file argument before a command has written anything; `again` says that standard input has already been
read. -/
def bytesAt (sys : Sys) (again : Bool) (f : FileSpec) : Option Bytes :=
  match fileOf sys f with
  | none => some (if again then [] else sys.stdin)
  | some n => sys.start n

/-- What importers read from the files as they are before: the texts of CSV files, or the document that the two programs for PDF make
of the file. -/
inductive ReadsFrom (sys : Sys) : Source → Importer → Prop where
  | nationwideCsv {fpNs : Nationwide.FpNamespace} {legacy : Bool} {input : FileSpec} {b : Bytes} {importer : Importer} :
    bytesAt sys false input = some b → (Texts.nationwideCsv fpNs legacy (Windows1252.decode b)).importer = .ok importer →
    ReadsFrom sys (.nationwideCsv fpNs legacy input) importer
  | nationwidePdf {fpNs : Nationwide.FpNamespace} {input : Str} {programs : Option Bytes → Ocr.Programs} {doc : Tesseract.Document} :
    Ocr.ocrDocument (programs (sys.start (sys.file input))) = .ok doc →
    ReadsFrom sys (.nationwidePdf fpNs input programs) (.nationwidePdf fpNs doc)
  | paypalCsv {ns : Str} {legacy : Bool} {input tz : FileSpec} {text tzText : Str} {importer : Importer} :
    bytesAt sys false input = some (encodeUtf8 text) → bytesAt sys (decide (input = .stdio)) tz = some (encodeUtf8 tzText) →
    (Texts.paypalCsv ns legacy text tzText).importer = .ok importer →
    ReadsFrom sys (.paypalCsv ns legacy input tz) importer

end Verif.Spec
