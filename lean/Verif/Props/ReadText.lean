import Verif.Proofs.Csv
import Verif.Proofs.CommentText
import Verif.Model.ReadText
import Verif.Examples.Texts
import Verif.Props.NationwidePdf

/-!
# From the texts of files to records (C74)
-/

namespace Verif
namespace Csv
open Spec Spec.Csv

theorem comma_delim : Delim ',' := ⟨by decide, by simp [LineEnd]⟩
theorem tab_delim : Delim '\t' := ⟨by decide, by simp [LineEnd]⟩

/-- **C74.** However a table is written, with or without quotes, with any line ends and empty lines, and with or without a byte order
mark: its rows are read. -/
theorem C74_table {d : Char} (hd : Delim d) {rows : List (List Str)} {t : Str} (h : TableText d rows t) :
    (t.head? ≠ some '\uFEFF' → records d t = rows) ∧ records d ('\uFEFF' :: t) = rows := by
  have := table_fold hd h []
  constructor
  · intro hb
    simpa only [records, if_neg hb, Reader.new] using (this.trans (List.nil_append _))
  · simpa only [records, List.head?_cons, if_true, List.tail_cons, Reader.new] using (this.trans (List.nil_append _))

/-- **C74.** A text is the text of at most one table. -/
theorem C74_unique {d : Char} (hd : Delim d) {rows rows' : List (List Str)} {t : Str} (h : TableText d rows t)
    (h' : TableText d rows' t) : rows = rows' := by
  simpa using (table_fold hd h []).symm.trans (table_fold hd h' [])

/-- A row with all fields quoted. -/
def quotedRow (d : Char) : List Str → Str
  | [] => []
  | [f] => '"' :: doubled f ++ ['"']
  | f :: fs => '"' :: doubled f ++ ['"'] ++ d :: quotedRow d fs

/-- A table with all fields quoted. -/
def quotedTable (d : Char) (rows : List (List Str)) : Str := rows.flatMap fun r => quotedRow d r ++ ['\n']

/-- A table with no field quoted. -/
def plainTable (d : Char) (rows : List (List Str)) : Str := rows.flatMap fun r => Str.join [d] r ++ ['\r', '\n']

theorem quotedRow_text (d : Char) {r : List Str} (hr : r ≠ []) : RowText d r (quotedRow d r) ∧ (quotedRow d r).head? = some '"' := by
  induction r with
  | nil => exact absurd rfl hr
  | cons f fs ih =>
    cases fs with
    | nil => exact ⟨.one (.quoted f), rfl⟩
    | cons g gs => exact ⟨.more (.quoted f) (ih (by simp)).1, rfl⟩

theorem quotedTable_text (d : Char) {rows : List (List Str)} (hr : ∀ r ∈ rows, r ≠ []) :
    TableText d rows (quotedTable d rows) ∧ (quotedTable d rows).head? ≠ some '\uFEFF' := by
  induction rows with
  | nil => exact ⟨.nil, by simp [quotedTable]⟩
  | cons r rows ih =>
    obtain ⟨ht, _⟩ := ih fun r h => hr r (List.mem_cons_of_mem _ h)
    obtain ⟨hs, hq⟩ := quotedRow_text d (hr r List.mem_cons_self)
    have hne : quotedRow d r ≠ [] := fun h => by simp [h] at hq
    have he : quotedTable d (r :: rows) = quotedRow d r ++ '\n' :: quotedTable d rows := by simp [quotedTable]
    rw [he]
    refine ⟨.row hs hne (.inl rfl) ht, ?_⟩
    rw [List.head?_append, hq]
    simp

theorem plainTable_text {d : Char} {rows : List (List Str)} (hr : ∀ r ∈ rows, r ≠ [] ∧ Str.join [d] r ≠ [] ∧ ∀ f ∈ r, Plain d f) :
    TableText d rows (plainTable d rows) := by
  induction rows with
  | nil => exact .nil
  | cons r rows ih =>
    obtain ⟨h1, h2, h3⟩ := hr r List.mem_cons_self
    have he : plainTable d (r :: rows) = Str.join [d] r ++ '\r' :: '\n' :: plainTable d rows := by simp [plainTable]
    rw [he]
    exact .row (join_row h1 h3) h2 (.inr rfl) (.blank (.inl rfl) (ih fun r h => hr r (List.mem_cons_of_mem _ h)))

/-- **C74.** Every table can be written, whatever is in its fields, if its rows have fields. -/
theorem C74_exists (d : Char) {rows : List (List Str)} (hr : ∀ r ∈ rows, r ≠ []) :
    ∃ t, TableText d rows t ∧ t.head? ≠ some '\uFEFF' := ⟨_, quotedTable_text d hr⟩

-- a table with a comma, a quote and a line end in its fields, written in two ways
example : ∃ t t', t ≠ t' ∧ TableText ',' [["a,b".toList, "c\"d".toList], ["e\nf".toList]] t ∧
    TableText ',' [["a,b".toList, "c\"d".toList], ["e\nf".toList]] t' ∧
    records ',' t = [["a,b".toList, "c\"d".toList], ["e\nf".toList]] := by
  refine ⟨"\"a,b\",c\"d\r\n\"e\nf\"".toList, "\n\"a,b\",\"c\"\"d\"\n\"e\nf\"\r".toList, by decide +kernel, ?_, ?_, by decide +kernel⟩
  · have h1 : FieldText ',' "a,b".toList "\"a,b\"".toList := .quoted _
    have h2 : FieldText ',' "c\"d".toList "c\"d".toList := .plain ⟨by decide, by simp [LineEnd], by decide⟩
    have h3 : FieldText ',' "e\nf".toList "\"e\nf\"".toList := .quoted _
    exact .row (.more h1 (.one h2)) (by simp) (.inr rfl) (.blank (.inl rfl) (.last (.one h3) (by simp)))
  · have h1 : FieldText ',' "a,b".toList "\"a,b\"".toList := .quoted _
    have h2 : FieldText ',' "c\"d".toList "\"c\"\"d\"".toList := .quoted _
    have h3 : FieldText ',' "e\nf".toList "\"e\nf\"".toList := .quoted _
    exact .blank (.inl rfl) (.row (.more h1 (.one h2)) (by simp) (.inl rfl) (.row (.one h3) (by simp) (.inr rfl) .nil))

end Csv

open Spec Spec.Csv

/-- **C74.** The text of a Nationwide CSV file is read as the rows of its table, without the white space around fields. -/
theorem C74_nationwide (L : ImportLib) (fpNs : Nationwide.FpNamespace) (legacy : Bool) {rows : List (List Str)} {t : Str}
    (h : TableText ',' rows t) (hb : t.head? ≠ some '\uFEFF') :
    (ImportCmd.Texts.nationwideCsv fpNs legacy t).doImport L =
      NationwideCsv.getTransactions L fpNs legacy (rows.map fun row => some (row.map Str.trim)) := by
  simp only [ImportCmd.Texts.doImport, ImportCmd.Texts.importer, Csv.trimmedRecords, (Csv.C74_table Csv.comma_delim h).1 hb,
    ImportCmd.Importer.doImport, List.map_map]
  rfl

/-- **C74.** How a file is laid out does not matter for what is imported: two texts of the same table, up to white space around
fields, are imported alike; so are tables of time zones, whose white space does matter. -/
theorem C74_layout (L : ImportLib) {rows rows' : List (List Str)} {t t' : Str} (h : TableText ',' rows t) (h' : TableText ',' rows' t')
    (hb : t.head? ≠ some '\uFEFF') (hb' : t'.head? ≠ some '\uFEFF')
    (hrows : rows.map (·.map Str.trim) = rows'.map (·.map Str.trim)) :
    (∀ fpNs legacy, (ImportCmd.Texts.nationwideCsv fpNs legacy t).doImport L = (ImportCmd.Texts.nationwideCsv fpNs legacy t').doImport L) ∧
    (∀ ns legacy tz, (ImportCmd.Texts.paypalCsv ns legacy t tz).doImport L = (ImportCmd.Texts.paypalCsv ns legacy t' tz).doImport L) ∧
    (rows = rows' → ∀ ns legacy p,
      (ImportCmd.Texts.paypalCsv ns legacy p t).doImport L = (ImportCmd.Texts.paypalCsv ns legacy p t').doImport L) := by
  have h1 : Csv.trimmedRecords ',' t = Csv.trimmedRecords ',' t' := by
    rw [Csv.trimmedRecords, Csv.trimmedRecords, (Csv.C74_table Csv.comma_delim h).1 hb, (Csv.C74_table Csv.comma_delim h').1 hb', hrows]
  refine ⟨fun fpNs legacy => ?_, fun ns legacy tz => ?_, fun hr ns legacy p => ?_⟩
  · simp only [ImportCmd.Texts.doImport, ImportCmd.Texts.importer, h1]
  · simp only [ImportCmd.Texts.doImport, ImportCmd.Texts.importer, h1]
  · have h2 : TzAbbr.readRecords t = TzAbbr.readRecords t' := by
      rw [TzAbbr.readRecords, TzAbbr.readRecords, (Csv.C74_table Csv.comma_delim h).1 hb, (Csv.C74_table Csv.comma_delim h').1 hb', hr]
    simp only [ImportCmd.Texts.doImport, ImportCmd.Texts.importer, h2]

-- the files of the tests
set_option maxRecDepth 100000 in
example : (Csv.trimmedRecords ',' Ex.text5).map some = Ex.file5 ∧ (Csv.trimmedRecords ',' Ex.text6).map some = Ex.file6 := by
  decide +kernel
set_option maxRecDepth 100000 in
example : (Csv.trimmedRecords ',' Ex.paypalText).map some = some Ex.paypalHeaders :: Ex.paypalRows ∧
    TzAbbr.readRecords Ex.paypalTzText = Ex.paypalTz := by decide +kernel

/-- A table of a Nationwide CSV file, with white space in a field. -/
def exTable (field : String) : List (List Str) :=
  [["Account Name:", "Current"], ["Account Balance:", "£150.00"], ["Available Balance:", "£150.00"],
   ["Date", "Transaction type", "Description", "Paid out", "Paid in", "Balance"],
   ["01 Jan 2019", "ATM", field, "£30.00", "", "£200.00"]].map (·.map String.toList)

set_option maxRecDepth 100000 in
/-- Two texts of the same table, one with and one without quotes, are imported alike: one transaction. -/
example : (ImportCmd.Texts.nationwideCsv (.fixed "acc".toList) false (Csv.quotedTable ',' (exTable " With \"drawal "))).doImport Ex.plainLib =
    (ImportCmd.Texts.nationwideCsv (.fixed "acc".toList) false (Csv.plainTable ',' (exTable "With \"drawal"))).doImport Ex.plainLib ∧
    ∃ imp, (ImportCmd.Texts.nationwideCsv (.fixed "acc".toList) false (Csv.plainTable ',' (exTable "With \"drawal"))).doImport Ex.plainLib =
      .ok imp ∧ imp.transactions.map (·.description) = ["With \"drawal".toList] := by
  have h1 := Csv.quotedTable_text ',' (rows := exTable " With \"drawal ") (by decide +kernel)
  have h2 : TableText ',' (exTable "With \"drawal") (Csv.plainTable ',' (exTable "With \"drawal")) := by
    refine Csv.plainTable_text ?_
    have : ∀ r ∈ exTable "With \"drawal", r ≠ [] ∧ Str.join [','] r ≠ [] ∧ ∀ f ∈ r, ',' ∉ f ∧ '\n' ∉ f ∧ '\r' ∉ f ∧ f.head? ≠ some '"' := by
      decide +kernel
    intro r hr
    obtain ⟨k1, k2, k3⟩ := this r hr
    refine ⟨k1, k2, fun f hf => ?_⟩
    obtain ⟨e1, e2, e3, e4⟩ := k3 f hf
    exact ⟨e1, fun c hc => by rintro (rfl | rfl) <;> contradiction, e4⟩
  refine ⟨(C74_layout Ex.plainLib h1.1 h2 h1.2 (by decide +kernel) (by decide +kernel)).1 _ _, ?_⟩
  rw [C74_nationwide _ _ _ h2 (by decide +kernel)]
  exact NationwidePdf.of_run (by decide +kernel)

end Verif
