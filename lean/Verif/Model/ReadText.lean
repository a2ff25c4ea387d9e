import Verif.Base.Csv
import Verif.Model.ImportCmd

/-!
# From the texts of files to what is imported

The parts of the importers that split their files into records: with `Verif.Base.Csv` in place of the crate `csv`.
-/

namespace Verif

namespace Tesseract

/-- The names of the fields of `Record` (/repo/src/importers/tesseract.rs:9-24). -/
def fieldNames : List Str :=
  ["level".toList, "page_num".toList, "block_num".toList, "par_num".toList, "line_num".toList, "word_num".toList, "left".toList,
    "top".toList, "width".toList, "height".toList, "conf".toList, "text".toList]

/-- `Deserialize for Record` (/repo/src/importers/tesseract.rs:8-24,46-47), by the names in the header. As for PayPal
(`PaypalCsv.RawRecord.ofRow`), another number of fields than in the header is an error, and so is a header that names a field
twice. -/
def Record.ofRow (headers row : Csv.Row) : Option Record :=
  if headers.length ≠ row.length ∨ ∃ n ∈ fieldNames, 1 < headers.count n then none
  else do
    let num (name : Str) : Option Int := (PaypalCsv.field headers row name).bind Csv.parseI32
    let level ← num "level".toList
    let pageNum ← num "page_num".toList
    let blockNum ← num "block_num".toList
    let parNum ← num "par_num".toList
    let lineNum ← num "line_num".toList
    let wordNum ← num "word_num".toList
    let left ← num "left".toList
    let top ← num "top".toList
    let width ← num "width".toList
    let height ← num "height".toList
    let _ ← num "conf".toList
    let text ← PaypalCsv.field headers row "text".toList
    some ⟨level, pageNum, blockNum, parNum, lineNum, wordNum, left, top, width, height, text⟩

/-- The records of a TSV file (/repo/src/importers/tesseract.rs:38-47): the first is the header. -/
def readRecords (text : Str) : List (Option Record) :=
  match Csv.trimmedRecords '\t' text with
  | [] => []
  | headers :: rows => rows.map (Record.ofRow headers)

/-- `from_tsv_reader` (/repo/src/importers/tesseract.rs:37-52), from the text of the file. -/
def Document.fromTsv (text : Str) : Except Err Document := Document.fromRecords (readRecords text)

end Tesseract

namespace TzAbbr

/-- `Deserialize for TzRecord` (/repo/src/tzabbr.rs:11-15,28-29), by the names in the header. -/
def Record.ofRow (headers row : Csv.Row) : Option Record :=
  if headers.length ≠ row.length ∨ 1 < headers.count "abbreviation".toList ∨ 1 < headers.count "utc_offset".toList then none
  else do
    let abbreviation ← PaypalCsv.field headers row "abbreviation".toList
    let utcOffset ← PaypalCsv.field headers row "utc_offset".toList
    some ⟨abbreviation, utcOffset⟩

/-- The records of the table of abbreviations (/repo/src/tzabbr.rs:27-29): the reader of `csv` as it is, which does not trim. -/
def readRecords (text : Str) : List (Option Record) :=
  match Csv.records ',' text with
  | [] => []
  | headers :: rows => rows.map (Record.ofRow headers)

end TzAbbr

namespace ImportCmd

/-- An importer with the texts of its files (/repo/src/importers/cmd.rs:11-24). Nationwide CSV files are decoded from Windows-1252
before (/repo/src/importers/nationwide_csv.rs:59-61). For statements in PDF, it is the text that Tesseract writes
(/repo/src/importers/nationwide_pdf.rs:146-151). -/
inductive Texts where
  | nationwideCsv (fpNs : Nationwide.FpNamespace) (legacy : Bool) (text : Str)
  | nationwidePdf (fpNs : Nationwide.FpNamespace) (tsv : Str)
  | paypalCsv (ns : Str) (legacy : Bool) (text tzText : Str)

/-- What is read from the texts: /repo/src/importers/nationwide_csv.rs:62-68, /repo/src/importers/nationwide_pdf.rs:46,146-151,
/repo/src/importers/paypal_csv.rs:45-53. An empty PayPal file has a header without names; a record of a PayPal file with another number
of fields than the header cannot be read. -/
def Texts.importer : Texts → Except Tesseract.Err Importer
  | .nationwideCsv fpNs legacy text => .ok (.nationwideCsv fpNs legacy ((Csv.trimmedRecords ',' text).map some))
  | .nationwidePdf fpNs tsv => (Tesseract.Document.fromTsv tsv).map (.nationwidePdf fpNs)
  | .paypalCsv ns legacy text tzText =>
    let headers := (Csv.trimmedRecords ',' text).headD []
    .ok (.paypalCsv ns legacy (some headers)
      ((Csv.trimmedRecords ',' text).tail.map fun row => if row.length = headers.length then some row else none)
      (TzAbbr.readRecords tzText))

/-- `do_import` (/repo/src/importers/cmd.rs:26-39), from the texts. -/
def Texts.doImport (L : ImportLib) (t : Texts) : Except ImportErr Import :=
  match t.importer with
  | .error _ => .error .input
  | .ok importer => importer.doImport L

end ImportCmd
end Verif
