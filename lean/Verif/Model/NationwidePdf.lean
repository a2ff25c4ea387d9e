import Verif.Model.NationwideCsv
import Verif.Model.Tesseract

/-!
# Nationwide PDF statements (/repo/src/importers/nationwide_pdf.rs)

`ocr_document` (/repo/src/importers/nationwide_pdf.rs:78-152) runs other programs; the model starts with the document that comes out
of it. Numbers are `i32` in the code and unbounded here, see Model/Machine.
-/

namespace Verif
namespace NationwidePdf
open Nationwide NationwideCsv Tesseract

/-- `TransactionLine` (/repo/src/importers/nationwide_pdf.rs:505-515). -/
structure TransactionLine where
  impliedDate : Option Date
  detail : Str
  payment : Option Str
  receipt : Option Str
  balance : Option Str
  top : Int
  height : Int
  deriving DecidableEq

/-! ## Reading tables -/

/-- `ColumnPos` (/repo/src/importers/nationwide_pdf.rs:652-654). -/
abbrev ColumnPos := Bounds

/-- `Columns` (/repo/src/importers/nationwide_pdf.rs:538-545). -/
structure Columns where
  headerLineIdx : Nat
  date : ColumnPos
  details : ColumnPos
  payments : ColumnPos
  receipts : ColumnPos
  balance : ColumnPos
  deriving DecidableEq

/-- `ColumnPos::collect_words_in` and `overlaps` (/repo/src/importers/nationwide_pdf.rs:675-687). -/
def collectWords (col : ColumnPos) (line : Line) : List Str :=
  (line.words.filter fun w => col.overlaps w.horizBounds).map Word.text

/-- `ColumnPos::join_words_in` (/repo/src/importers/nationwide_pdf.rs:666-673). -/
def joinWords (col : ColumnPos) (line : Line) : Option Str :=
  let s := Str.join [' '] (collectWords col line)
  if s.isEmpty then none else some s

/-- `Columns::find_in_line` (/repo/src/importers/nationwide_pdf.rs:557-583). -/
def Columns.findInLine (idx : Nat) (line : Line) : Option Columns :=
  match line.words with
  | w0 :: w1 :: w2 :: w3 :: w4 :: _ =>
    if w0.text ≠ "Date".toList ∨ w1.text ≠ "Details".toList ∨ w2.text ≠ "Payments".toList ∨ w3.text ≠ "Receipts".toList ∨
      w4.text ≠ "Balance".toList then none
    else some ⟨idx, w0.horizBounds, ⟨w1.left, w2.left⟩, ⟨w2.left, w3.left⟩, ⟨w3.left, w4.left⟩, w4.horizBounds⟩
  | _ => none

/-- The loop of `Columns::find_in_paragraph` (/repo/src/importers/nationwide_pdf.rs:549-554), from line number `idx` on. -/
def Columns.findFrom (idx : Nat) : List Line → Option Columns
  | [] => none
  | l :: ls =>
    match Columns.findInLine idx l with
    | some c => some c
    | none => Columns.findFrom (idx + 1) ls

/-- `Columns::find_in_paragraph` (/repo/src/importers/nationwide_pdf.rs:548-555). -/
def Columns.findInParagraph (p : Paragraph) : Option Columns := Columns.findFrom 0 p.lines

/-- The parts of a date known so far: `date_fmt::Parsed` as far as it is used (/repo/src/importers/nationwide_pdf.rs:451), and the
last date. Day and month are cleared before they are used again and thus need not be kept. -/
structure DateState where
  year : Option Int
  date : Option Date
  deriving DecidableEq

/-- `DateField` (/repo/src/importers/nationwide_pdf.rs:690-694). -/
inductive DateField where
  | nothing
  | year
  | dayMonth
  deriving DecidableEq

/-- `Columns::update_date_from_line` (/repo/src/importers/nationwide_pdf.rs:585-639). -/
def updateDate (L : ImportLib) (col : ColumnPos) (line : Line) (st : DateState) : Except ImportErr (DateField × DateState) :=
  match collectWords col line with
  | [] => .ok (.nothing, st)
  | [y] =>
    match L.year y with
    | none => .error .date
    | some year => if 1980 ≤ year ∧ year ≤ 2100 then .ok (.year, { st with year := some year }) else .error .date
  | [d, m] =>
    match L.day d, L.month m, st.year with
    | some day, some month, some year =>
      if L.validDate year month day then .ok (.dayMonth, { st with date := some ⟨year, month, day⟩ }) else .error .date
    | _, _, _ => .error .date
  | _ => .error .date

/-- The loop of `Table::read_lines` (/repo/src/importers/nationwide_pdf.rs:455-486). -/
def readLinesLoop (L : ImportLib) (cols : Columns) (st : DateState) : List Line → Except ImportErr (List TransactionLine)
  | [] => .ok []
  | line :: ls =>
    match updateDate L cols.date line st with
    | .error e => .error e
    | .ok (.year, st) => readLinesLoop L cols st ls
    | .ok (_, st) =>
      match readLinesLoop L cols st ls with
      | .error e => .error e
      | .ok rest =>
        match joinWords cols.details line with
        | none => .ok rest
        | some detail =>
          .ok (⟨st.date, detail, joinWords cols.payments line, joinWords cols.receipts line, joinWords cols.balance line, line.top,
            line.height⟩ :: rest)

/-- `Table::read_lines` (/repo/src/importers/nationwide_pdf.rs:449-488). -/
def readLines (L : ImportLib) (cols : Columns) (p : Paragraph) : Except ImportErr (List TransactionLine) :=
  readLinesLoop L cols ⟨none, none⟩ (p.lines.drop (cols.headerLineIdx + 1))

/-- `Table::find_in_page` (/repo/src/importers/nationwide_pdf.rs:440-447). -/
def findTables (page : Page) : List (Columns × Paragraph) :=
  (page.blocks.flatMap Block.paragraphs).filterMap fun p => (Columns.findInParagraph p).map fun c => (c, p)

/-! ## From lines to transactions -/

/-- `TransactionType` (/repo/src/importers/nationwide_pdf.rs:302-305). -/
inductive TransactionType where
  | payment
  | receipt
  deriving DecidableEq

/-- `TransactionBuilder` (/repo/src/importers/nationwide_pdf.rs:292-300). -/
structure TransactionBuilder where
  date : Date
  dateCounter : Int
  amount : Amount
  type_ : TransactionType
  effectiveDate : Option Date
  description : Str
  balance : Option Amount
  deriving DecidableEq

/-- `TransactionBuilder::new` (/repo/src/importers/nationwide_pdf.rs:308-334). -/
def TransactionBuilder.new (date : Option Date) (dateCounter : Int) (amount : Amount) (type_ : TransactionType) (description : Str) :
    Except ImportErr TransactionBuilder :=
  match date with
  | none => .error .date
  | some date => if amount.quantity.neg then .error .number else .ok ⟨date, dateCounter, amount, type_, none, description, none⟩

/-- What `TransactionBuilder::build` adds to the fingerprint of both halves (/repo/src/importers/nationwide_pdf.rs:337-340). -/
def TransactionBuilder.fill (t : TransactionBuilder) (b : FingerprintBuilder) : FingerprintBuilder :=
  ((b.with_ (Enc.date t.date)).with_ (Enc.signed 4 t.dateCounter)).with_ (Enc.str t.description)

/-- The two halves of a transaction (/repo/src/importers/nationwide_pdf.rs:342-348). -/
def TransactionBuilder.halves (t : TransactionBuilder) : TransactionHalves :=
  selfAndPeerAccountAmount (match t.type_ with | .payment => negateAmount t.amount | .receipt => t.amount) Accounts.assetsUnknown

/-- `TransactionBuilder::build` (/repo/src/importers/nationwide_pdf.rs:336-397). -/
def TransactionBuilder.build (L : ImportLib) (t : TransactionBuilder) (ns : Str) : Except ImportErr Transaction := do
  let b ← newBuilder "nwpdf".toList 1 ns
  let b := t.fill b
  let base := (Comment.empty.withValueTag Tags.bank bankName).withTag Tags.unknownAccount
  let selfFp := (fillHalf t.halves.self b).build L.sha1
  let peerFp := (fillHalf t.halves.peer b).build L.sha1
  pure (mkTransaction t.date t.effectiveDate t.description
    [mkPosting L t.halves.self t.balance none
      (((base.withValueTag Tags.seq (seqValue ns t.dateCounter)).withTag Tags.importSelf).withTag selfFp.legacyTag),
     mkPosting L t.halves.peer none none ((base.withTag Tags.importPeer).withTag peerFp.legacyTag)])

/-- `parse_amount` (/repo/src/importers/nationwide_pdf.rs:400-413). -/
def parseAmount (L : ImportLib) (s : Str) : Except ImportErr Amount :=
  match L.decimal (if s.contains ',' then s.filter (· != ',') else s) with
  | none => .error .number
  | some q => .ok ⟨q, gbp⟩

/-- `TransactionsAccumulator` (/repo/src/importers/nationwide_pdf.rs:180-186), without the namespace. -/
structure Acc where
  curTrn : Option TransactionBuilder
  prevDate : Option Date
  dateCounter : Int
  trns : List Transaction
  deriving DecidableEq

/-- `TransactionsAccumulator::new` (/repo/src/importers/nationwide_pdf.rs:189-197). -/
def Acc.new : Acc := ⟨none, none, 0, []⟩

/-- `flush_transaction` (/repo/src/importers/nationwide_pdf.rs:279-284). -/
def Acc.flush (L : ImportLib) (ns : Str) (acc : Acc) : Except ImportErr Acc :=
  match acc.curTrn with
  | none => .ok acc
  | some pending =>
    match pending.build L ns with
    | .error e => .error e
    | .ok t => .ok { acc with curTrn := none, trns := acc.trns ++ [t] }

/-- Start of a new transaction (/repo/src/importers/nationwide_pdf.rs:211-223, 227-239). -/
def Acc.begin (L : ImportLib) (ns : Str) (acc : Acc) (line : TransactionLine) (value : Str) (type_ : TransactionType) :
    Except ImportErr Acc :=
  match acc.flush L ns with
  | .error e => .error e
  | .ok acc =>
    let dateCounter := if line.impliedDate ≠ acc.prevDate then 0 else acc.dateCounter + 1
    match parseAmount L value with
    | .error e => .error e
    | .ok amount =>
      match TransactionBuilder.new line.impliedDate dateCounter amount type_ line.detail with
      | .error e => .error e
      | .ok t => .ok { acc with curTrn := some t, dateCounter := dateCounter }

/-- The text that marks an effective date (/repo/src/importers/nationwide_pdf.rs:253). -/
def effectivePrefix : Str := "Effective Date ".toList

/-- Continuation of a transaction (/repo/src/importers/nationwide_pdf.rs:251-260). -/
def TransactionBuilder.extend (L : ImportLib) (t : TransactionBuilder) (detail : Str) : Except ImportErr TransactionBuilder :=
  if detail.isEmpty then .ok t
  else if detail.startsWith effectivePrefix then
    match L.dateEffective detail with
    | none => .error .date
    | some d => .ok { t with effectiveDate := some d }
  else .ok { t with description := t.description ++ [' '] ++ detail }

/-- The end of `feed_line` (/repo/src/importers/nationwide_pdf.rs:264-276). -/
def Acc.finishLine (L : ImportLib) (acc : Acc) (line : TransactionLine) : Except ImportErr Acc :=
  let acc := { acc with prevDate := line.impliedDate }
  match acc.curTrn, line.balance with
  | some t, some balance =>
    match parseAmount L balance with
    | .error e => .error e
    | .ok b => .ok { acc with curTrn := some { t with balance := some b } }
  | _, _ => .ok acc

/-- `feed_line` (/repo/src/importers/nationwide_pdf.rs:199-277). -/
def Acc.feedLine (L : ImportLib) (ns : Str) (acc : Acc) (line : TransactionLine) : Except ImportErr Acc :=
  match line.payment, line.receipt with
  | some _, some _ => .error .amounts
  | some payment, none =>
    match acc.begin L ns line payment .payment with
    | .error e => .error e
    | .ok acc => acc.finishLine L line
  | none, some receipt =>
    match acc.begin L ns line receipt .receipt with
    | .error e => .error e
    | .ok acc => acc.finishLine L line
  | none, none =>
    match acc.curTrn with
    | none => .ok acc
    | some t =>
      match t.extend L line.detail with
      | .error e => .error e
      | .ok t => Acc.finishLine L { acc with curTrn := some t } line

/-- The loop of `lines_to_transactions` (/repo/src/importers/nationwide_pdf.rs:159-174), with the previous line. -/
def linesLoop (L : ImportLib) (ns : Str) : Option TransactionLine → Acc → List TransactionLine → Except ImportErr Acc
  | _, acc, [] => .ok acc
  | prev, acc, line :: ls =>
    if (match prev with | some p => decide (line.top > p.top + p.height * 2) | none => false) then .ok acc
    else
      match acc.feedLine L ns line with
      | .error e => .error e
      | .ok acc => linesLoop L ns (some line) acc ls

/-- `lines_to_transactions` (/repo/src/importers/nationwide_pdf.rs:154-177). -/
def linesToTransactions (L : ImportLib) (ns : Str) (acc : Acc) (lines : List TransactionLine) : Except ImportErr Acc :=
  linesLoop L ns none acc lines

/-- The loop over the tables (/repo/src/importers/nationwide_pdf.rs:53-66). -/
def tablesLoop (L : ImportLib) (ns : Str) : Acc → List (Columns × Paragraph) → Except ImportErr Acc
  | acc, [] => .ok acc
  | acc, (cols, p) :: ts => do
    let lines ← readLines L cols p
    let acc ← linesToTransactions L ns acc lines
    tablesLoop L ns acc ts

/-- `SORT_CODE_RX`: `^\d{2}-\d{2}-\d{2}$` (/repo/src/importers/nationwide_pdf.rs:707). -/
def sortCodeRx (digit : Char → Bool) : Rx :=
  .cat [.bol, .rep (.chr digit) 2, .lit '-', .rep (.chr digit) 2, .lit '-', .rep (.chr digit) 2, .eol]

/-- `ACCT_NUM_RX`: `^\d{8}$` (/repo/src/importers/nationwide_pdf.rs:710). -/
def acctNumRx (digit : Char → Bool) : Rx := .cat [.bol, .rep (.chr digit) 8, .eol]

/-- The body of the loop of `find_account_name` (/repo/src/importers/nationwide_pdf.rs:715-732). -/
def accountNameInLine (L : ImportLib) (line : Line) : Option Str :=
  match line.words with
  | w0 :: w1 :: w2 :: w3 :: _ =>
    if w0.text = "Account".toList ∧ w1.text = "Number".toList ∧ (sortCodeRx L.digit).isMatch w2.text ∧ (acctNumRx L.digit).isMatch w3.text
    then some (w2.text ++ [' '] ++ w3.text)
    else none
  | _ => none

/-- `find_account_name` (/repo/src/importers/nationwide_pdf.rs:705-737). -/
def findAccountName (L : ImportLib) (doc : Document) : Option Str :=
  (doc.paragraphs.flatMap Paragraph.lines).findSome? (accountNameInLine L)

/-- `get_transactions` (/repo/src/importers/nationwide_pdf.rs:44-73), from the document. -/
def getTransactions (L : ImportLib) (fpNs : FpNamespace) (doc : Document) : Except ImportErr Import :=
  match findAccountName L doc with
  | none => .error .format
  | some account => do
    let ns ← fpNs.make L account
    let acc ← tablesLoop L ns Acc.new (doc.pages.flatMap findTables)
    let acc ← acc.flush L ns
    pure ⟨ns, acc.trns⟩

end NationwidePdf
end Verif
