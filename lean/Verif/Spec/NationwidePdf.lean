import Verif.Model.NationwidePdf
import Verif.Spec.Import
import Mathlib.Data.List.Forall2

/-!
# Specification: transactions in the lines of PDF statements
-/

namespace Verif.Spec
open NationwidePdf NationwideCsv

/-- A line with an amount paid or received. -/
def Starts (l : TransactionLine) : Prop := l.payment ≠ none ∨ l.receipt ≠ none
instance (l) : Decidable (Starts l) := by unfold Starts; infer_instance

/-- A line with an amount and the lines up to the next one. -/
structure LineGroup where
  start : TransactionLine
  more : List TransactionLine

/-- The lines of a group. -/
def LineGroup.lines (g : LineGroup) : List TransactionLine := g.start :: g.more

/-- Lines before the first amount, and groups that each start with an amount. -/
structure Splits (lines lead : List TransactionLine) (groups : List LineGroup) : Prop where
  lines : lines = lead ++ groups.flatMap LineGroup.lines
  lead : ∀ l ∈ lead, ¬ Starts l
  start : ∀ g ∈ groups, Starts g.start
  more : ∀ g ∈ groups, ∀ l ∈ g.more, ¬ Starts l

/-- There is no blank line between two lines. -/
def Near (a b : TransactionLine) : Prop := b.top ≤ a.top + a.height * 2
instance (a b) : Decidable (Near a b) := by unfold Near; infer_instance

/-- The lines of a table up to the first blank line. -/
def UpToGap (lines used : List TransactionLine) : Prop :=
  ∃ rest, lines = used ++ rest ∧ used.IsChain Near ∧ ∀ b, rest.head? = some b → ∃ a, used.getLast? = some a ∧ ¬ Near a b

/-- A text denotes a sum of money; commas do not count. -/
def PdfMoney (L : ImportLib) (s : Str) (a : Amount) : Prop := ∃ q, L.decimal (s.filter (· ≠ ',')) = some q ∧ a = ⟨q, gbp⟩

/-- A line that tells the effective date. -/
def TellsDate (l : TransactionLine) : Prop := "Effective Date ".toList <+: l.detail
instance (l) : Decidable (TellsDate l) := by unfold TellsDate; infer_instance

/-- What the lines of a group say about the transaction that is number `k` (from 0) of its date. -/
structure Makes (L : ImportLib) (g : LineGroup) (k : Int) (b : TransactionBuilder) : Prop where
  date : g.start.impliedDate = some b.date
  number : b.dateCounter = k
  amount : (g.start.receipt = none ∧ b.type_ = .payment ∧ ∃ s, g.start.payment = some s ∧ PdfMoney L s b.amount) ∨
    (g.start.payment = none ∧ b.type_ = .receipt ∧ ∃ s, g.start.receipt = some s ∧ PdfMoney L s b.amount)
  positive : b.amount.quantity.neg = false
  description : b.description = Str.join [' '] (g.start.detail :: (g.more.filter fun l => l.detail ≠ [] ∧ ¬ TellsDate l).map (·.detail))
  effective : ∃ ds, List.Forall₂ (fun l d => L.dateEffective l.detail = some d) (g.more.filter fun l => TellsDate l) ds ∧
    b.effectiveDate = ds.getLast?
  balance : ∃ bs, List.Forall₂ (PdfMoney L) (g.lines.filterMap (·.balance)) bs ∧ b.balance = bs.getLast?

/-- The date of the last line of a group. -/
def LineGroup.lastDate (g : LineGroup) : Option Date := (g.lines.getLast (by simp [LineGroup.lines])).impliedDate

/-- The numbers of the transactions: 0, or one more than the one before if the line before has the same date. -/
def Numbers (groups : List LineGroup) (ks : List Nat) : Prop :=
  ks.length = groups.length ∧ ∀ (i : Nat) (g : LineGroup) (k : Nat), groups[i]? = some g → ks[i]? = some k →
    k = match i with
      | 0 => 0
      | j + 1 => if (groups[j]?).map LineGroup.lastDate = some g.start.impliedDate then (ks[j]?).getD 0 + 1 else 0

/-- The two fingerprints of a transaction. -/
def pdfFp (L : ImportLib) (ns : Str) (b : TransactionBuilder) : FingerprintHalves :=
  ⟨(fillHalf b.halves.self (b.fill ⟨[], "nwpdf".toList, 1, ns⟩)).build L.sha1, (fillHalf b.halves.peer (b.fill ⟨[], "nwpdf".toList, 1, ns⟩)).build L.sha1⟩

/-- The amount for the own account: payments count as negative. -/
def ownPdfAmount (b : TransactionBuilder) : Amount :=
  match b.type_ with
  | .payment => negateAmount b.amount
  | .receipt => b.amount

/-- The transaction of a group that is number `k` (from 0) of its date. -/
def PdfSays (L : ImportLib) (ns : Str) (g : LineGroup) (k : Nat) (t : Transaction) : Prop :=
  ∃ b p q, Makes L g k b ∧ TransactionSays t b.date b.effectiveDate b.description [p, q] ∧
    Says L.order p ownAccount (ownPdfAmount b) b.balance none
      [(pdfFp L ns b).self.legacyTag, "import-self".toList, "unknown-account".toList]
      [("seq".toList, numbered ns (k + 1)), ("bank".toList, "Nationwide".toList)] ∧
    Says L.order q (if (ownPdfAmount b).quantity.neg then expensesAccount else incomeAccount) (negateAmount (ownPdfAmount b)) none none
      [(pdfFp L ns b).peer.legacyTag, "import-peer".toList, "unknown-account".toList] [("bank".toList, "Nationwide".toList)]

/-- The lines of a group can be read as a transaction. -/
structure PdfGood (L : ImportLib) (g : LineGroup) : Prop where
  dated : g.start.impliedDate ≠ none
  amount : ∃ s a, ((g.start.payment = some s ∧ g.start.receipt = none) ∨ (g.start.payment = none ∧ g.start.receipt = some s)) ∧
    PdfMoney L s a ∧ a.quantity.neg = false
  effective : ∀ l ∈ g.more, TellsDate l → L.dateEffective l.detail ≠ none
  balance : ∀ l ∈ g.lines, ∀ s, l.balance = some s → ∃ a, PdfMoney L s a

/-! ## Tables of a document -/

/-- The words of a line below a heading, whose horizontal extent has common points with the one of the heading. -/
def wordsIn (col : Tesseract.Bounds) (row : Tesseract.Line) : List Str :=
  (row.words.filter fun w => decide (col.min < w.left + w.width ∧ w.left < col.max)).map fun w => w.text

/-- The text of a line below a heading; empty text counts as none. -/
def textIn (col : Tesseract.Bounds) (row : Tesseract.Line) : Option Str :=
  if Str.join [' '] (wordsIn col row) = [] then none else some (Str.join [' '] (wordsIn col row))

/-- A line that tells the year: one word below the heading of dates. -/
def yearCell (L : ImportLib) (col : Tesseract.Bounds) (row : Tesseract.Line) : Option Int :=
  match wordsIn col row with
  | [y] => L.year y
  | _ => none

/-- The year told by the last line before line `i` that tells one. -/
def yearBefore (L : ImportLib) (col : Tesseract.Bounds) (rows : List Tesseract.Line) (i : Nat) : Option Int :=
  ((rows.take i).filterMap (yearCell L col)).getLast?

/-- The date told by line `i`: two words below the heading of dates for day and month, and the year told before. -/
def dateCell (L : ImportLib) (col : Tesseract.Bounds) (rows : List Tesseract.Line) (i : Nat) : Option Date :=
  match (rows[i]?).map (wordsIn col) with
  | some [d, m] =>
    match L.day d, L.month m, yearBefore L col rows i with
    | some day, some month, some year => some ⟨year, month, day⟩
    | _, _, _ => none
  | _ => none

/-- The date of line `i`: told by the line or the last one before it that tells a date. -/
def dateOn (L : ImportLib) (col : Tesseract.Bounds) (rows : List Tesseract.Line) (i : Nat) : Option Date :=
  ((List.range (i + 1)).filterMap (dateCell L col rows)).getLast?

/-- What line `i` has below the heading of dates can be read. -/
def DateReadable (L : ImportLib) (col : Tesseract.Bounds) (rows : List Tesseract.Line) (i : Nat) (row : Tesseract.Line) : Prop :=
  wordsIn col row = [] ∨ (∃ y year, wordsIn col row = [y] ∧ L.year y = some year ∧ 1980 ≤ year ∧ year ≤ 2100) ∨
    ∃ d m date, wordsIn col row = [d, m] ∧ dateCell L col rows i = some date ∧ L.validDate date.year date.month date.day = true

/-- The line of a statement in line `i` of a table: there is a text below the heading of details, and the line does not tell a year. -/
def statementLine (L : ImportLib) (cols : Columns) (rows : List Tesseract.Line) (i : Nat) (row : Tesseract.Line) : Option TransactionLine :=
  match wordsIn cols.date row, textIn cols.details row with
  | [_], _ => none
  | _, none => none
  | _, some detail => some ⟨dateOn L cols.date rows i, detail, textIn cols.payments row, textIn cols.receipts row, textIn cols.balance row,
      row.top, row.height⟩

/-- The lines of a statement in a table. -/
def statementLines (L : ImportLib) (cols : Columns) (rows : List Tesseract.Line) : List TransactionLine :=
  rows.zipIdx.filterMap fun x => statementLine L cols rows x.2 x.1

/-- A line with the headings of a table. -/
def Headings (row : Tesseract.Line) : Prop :=
  (row.words.take 5).map (fun w => w.text) = ["Date".toList, "Details".toList, "Payments".toList, "Receipts".toList, "Balance".toList]
instance (row) : Decidable (Headings row) := by unfold Headings; infer_instance

/-- A table: the lines after the first line of a paragraph with headings. The extent of a heading is that of its word for dates and
balances, and goes up to the next word for the others. -/
def IsTable (p : Tesseract.Paragraph) (cols : Columns) (rows : List Tesseract.Line) : Prop :=
  ∃ before head a b c d e rest, p.lines = before ++ head :: rows ∧ (∀ l ∈ before, ¬ Headings l) ∧ Headings head ∧
    head.words = a :: b :: c :: d :: e :: rest ∧ cols.headerLineIdx = before.length ∧
    cols.date = ⟨a.left, a.left + a.width⟩ ∧ cols.details = ⟨b.left, c.left⟩ ∧ cols.payments = ⟨c.left, d.left⟩ ∧
    cols.receipts = ⟨d.left, e.left⟩ ∧ cols.balance = ⟨e.left, e.left + e.width⟩

/-- A line with the number of the account. -/
def AccountLine (L : ImportLib) (row : Tesseract.Line) (account : Str) : Prop :=
  ∃ w0 w1 w2 w3 rest a b c d e f n, row.words = w0 :: w1 :: w2 :: w3 :: rest ∧ w0.text = "Account".toList ∧ w1.text = "Number".toList ∧
    w2.text = [a, b, '-', c, d, '-', e, f] ∧ w3.text = n ∧ n.length = 8 ∧ (∀ x ∈ [a, b, c, d, e, f] ++ n, L.digit x = true) ∧
    account = w2.text ++ " ".toList ++ n

/-- The paragraphs of a document, page by page and block by block. -/
def allParagraphs (doc : Tesseract.Document) : List Tesseract.Paragraph :=
  doc.pages.flatMap fun page => page.blocks.flatMap fun block => block.paragraphs

/-- The account of a document: in the first line that has one. -/
def AccountOf (L : ImportLib) (doc : Tesseract.Document) (account : Str) : Prop :=
  ∃ before row after, (allParagraphs doc).flatMap (fun p => p.lines) = before ++ row :: after ∧ (∀ l ∈ before, ∀ a, ¬ AccountLine L l a) ∧
    AccountLine L row account

/-- The tables of a document, in order. -/
def TablesOf (doc : Tesseract.Document) (tables : List (Columns × List Tesseract.Line)) : Prop :=
  ∃ all : List (Option (Columns × List Tesseract.Line)),
    List.Forall₂ (fun p o => ∀ c rows, o = some (c, rows) ↔ IsTable p c rows) (allParagraphs doc) all ∧ tables = all.filterMap id

/-- The lines of the statement in a document: those of all tables, of each up to the first gap. All dates in the tables can be read. -/
def LinesOf (L : ImportLib) (doc : Tesseract.Document) (lines : List TransactionLine) : Prop :=
  ∃ tables useds, TablesOf doc tables ∧
    (∀ t ∈ tables, ∀ (j : Nat) (row : Tesseract.Line), t.2[j]? = some row → DateReadable L t.1.date t.2 j row) ∧
    List.Forall₂ (fun t used => UpToGap (statementLines L t.1 t.2) used) tables useds ∧ lines = useds.flatten

end Verif.Spec
