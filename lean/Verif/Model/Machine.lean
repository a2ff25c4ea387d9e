import Verif.Model.NationwidePdf
import Verif.Model.TzAbbr

/-!
# The importers with the integers of the machine

The rest of the model computes with unbounded numbers. Here the functions that compute with `i32` and `i64` are modelled once more
with what these types do: a result that fits is the result, and what happens to one that does not fit depends on how the program is
built (a panic, or the number wraps around). Everything that is not arithmetic is the same as in the rest of the model.
-/

namespace Verif

/-- Why a computation ends: an error of the program, or a panic for a number that does not fit (`+`, `*` and `+=` at
/repo/src/importers/nationwide_csv.rs:144,230,288,489, /repo/src/importers/nationwide_pdf.rs:163,215,231,377,
/repo/src/importers/tesseract.rs:261, /repo/src/tzabbr.rs:77). -/
inductive Fault (E : Type) where
  | err (e : E)
  | overflow
  deriving DecidableEq

/-- What the arithmetic of a build does with an exact result (the same lines as for `Fault`): one that fits is kept, anything may
happen to one that does not. -/
structure Machine where
  /-- of 32 bits -/
  i32 : {E : Type} → Int → Except (Fault E) Int
  /-- of 64 bits -/
  i64 : {E : Type} → Int → Except (Fault E) Int
  i32_ok : ∀ {E : Type} (x : Int), -2 ^ 31 ≤ x → x < 2 ^ 31 → i32 (E := E) x = .ok x
  i64_ok : ∀ {E : Type} (x : Int), -2 ^ 63 ≤ x → x < 2 ^ 63 → i64 (E := E) x = .ok x

/-- An error of the rest of the model as one of this part (`?` at /repo/src/importers/nationwide_csv.rs:137,146 and others). -/
def lift {E T : Type} (x : Except E T) : Except (Fault E) T :=
  match x with
  | .ok a => .ok a
  | .error e => .error (.err e)

namespace NationwideCsv
open Nationwide

/-- `GbpValueVisitor::visit_str` (/repo/src/importers/nationwide_csv.rs:479-498). `Decimal::new` takes a number of 64 bits and
`set_sign_negative` sets its sign. -/
def gbpValueM (M : Machine) (L : ImportLib) (s : Str) : Except (Fault ImportErr) Amount :=
  match (gbpRx L.digit).captures s with
  | none => .error (.err .format)
  | some m =>
    let isNegative := (m.get 1).getD [] = ['-']
    match capturedNumber ((m.get 2).getD []), capturedNumber ((m.get 3).getD []) with
    | some pounds, some pence => do
      let hundreds ← M.i64 (pounds * 100)
      let total ← M.i64 (hundreds + pence)
      pure ⟨⟨isNegative, total.natAbs, 2⟩, gbp⟩
    | _, _ => .error (.err .format)

/-- `Deserialize for Option<GbpValue>`: an empty field is absent (/repo/src/importers/nationwide_csv.rs:345,346,375,376). -/
def optGbpValueM (M : Machine) (L : ImportLib) (s : Str) : Except (Fault ImportErr) (Option Amount) :=
  if s = [] then .ok none else do pure (some (← gbpValueM M L s))

/-- A date of a record (/repo/src/importers/nationwide_csv.rs:342,372). -/
def dateM (L : ImportLib) (s : Str) : Except (Fault ImportErr) Date :=
  match L.dateDayMonYear s with
  | none => .error (.err .format)
  | some d => .ok d

/-- `Deserialize for RecordFive` (/repo/src/importers/nationwide_csv.rs:135,340). -/
def RecordFive.ofRowM (M : Machine) (L : ImportLib) : Row → Except (Fault ImportErr) RecordFive
  | date :: transactions :: location :: paidOut :: paidIn :: _ => do
    let date ← dateM L date
    let paidOut ← optGbpValueM M L paidOut
    let paidIn ← optGbpValueM M L paidIn
    pure ⟨date, transactions, location, paidOut, paidIn⟩
  | _ => .error (.err .format)

/-- `Deserialize for RecordSix` (/repo/src/importers/nationwide_csv.rs:135,370). -/
def RecordSix.ofRowM (M : Machine) (L : ImportLib) : Row → Except (Fault ImportErr) RecordSix
  | date :: type_ :: description :: paidOut :: paidIn :: balance :: _ => do
    let date ← dateM L date
    let paidOut ← optGbpValueM M L paidOut
    let paidIn ← optGbpValueM M L paidIn
    let balance ← gbpValueM M L balance
    pure ⟨date, type_, description, paidOut, paidIn, balance⟩
  | _ => .error (.err .format)

/-- The value of the tag with the sequence number (/repo/src/importers/nationwide_csv.rs:230,288,
/repo/src/importers/nationwide_pdf.rs:377). -/
def seqValueM (M : Machine) (ns : Str) (dateCounter : Int) : Except (Fault ImportErr) Str := do
  pure (ns ++ ['-'] ++ Str.ofInt (← M.i32 (dateCounter + 1)))

/-- The next value of the counter (/repo/src/importers/nationwide_csv.rs:141-145, /repo/src/importers/nationwide_pdf.rs:212-216,
228-232). -/
def nextCounterM (M : Machine) (date prevDate : Option Date) (dateCounter : Int) : Except (Fault ImportErr) Int :=
  if date ≠ prevDate then .ok 0 else M.i32 (dateCounter + 1)

/-- `PostingFormer` (/repo/src/importers/nationwide_csv.rs:171-181) for one of the two formats. -/
structure FormatM (T : Type) where
  ofRow : Row → Except (Fault ImportErr) T
  date : T → Date
  description : T → Str
  formPostings : T → (ns account : Str) → (dateCounter : Int) → (legacy : Bool) → Except (Fault ImportErr) (Posting × Posting)

/-- `RecordFive::form_postings` (/repo/src/importers/nationwide_csv.rs:194-253). -/
def RecordFive.formPostingsM (M : Machine) (L : ImportLib) (r : RecordFive) (ns account : Str) (dateCounter : Int) (_legacy : Bool) :
    Except (Fault ImportErr) (Posting × Posting) := do
  let amt ← lift (selfAmount r.paidIn r.paidOut)
  let halves := selfAndPeerAccountAmount amt Accounts.assetsUnknown
  let fp ← lift (r.fingerprintV1 L ns dateCounter)
  let base := ((((Comment.empty.withTag Tags.unknownAccount).withValueTag Tags.account account).withValueTag Tags.bank
    bankName).withValueTag transactionsTag r.transactions).withOptionValueTag locationTag
    (if r.location.isEmpty then none else some r.location)
  let seq ← seqValueM M ns dateCounter
  let selfComment := ((base.withTag fp.self.tag).withValueTag Tags.seq seq).withTag Tags.importSelf
  let peerComment := (base.withTag fp.peer.tag).withTag Tags.importPeer
  pure (mkPosting L halves.self none none selfComment, mkPosting L halves.peer none none peerComment)

/-- `PostingFormer for RecordFive` (/repo/src/importers/nationwide_csv.rs:183-254). -/
def fiveM (M : Machine) (L : ImportLib) : FormatM RecordFive where
  ofRow := RecordFive.ofRowM M L
  date := RecordFive.date
  description := (five L).description
  formPostings := RecordFive.formPostingsM M L

/-- `RecordSix::form_postings` (/repo/src/importers/nationwide_csv.rs:263-316). -/
def RecordSix.formPostingsM (M : Machine) (L : ImportLib) (r : RecordSix) (ns account : Str) (dateCounter : Int) (legacy : Bool) :
    Except (Fault ImportErr) (Posting × Posting) := do
  let amt ← lift (selfAmount r.paidIn r.paidOut)
  let halves := selfAndPeerAccountAmount amt Accounts.assetsUnknown
  let base := (((Comment.empty.withTag Tags.unknownAccount).withValueTag Tags.account account).withValueTag Tags.bank
    bankName).withValueTag transactionTypeTag r.type_
  let fp ← lift (r.fingerprintV1 L ns dateCounter)
  let seq ← seqValueM M ns dateCounter
  let selfComment := ((base.withTag fp.self.tag).withValueTag Tags.seq seq).withTag Tags.importSelf
  let peerComment := (base.withTag fp.peer.tag).withTag Tags.importPeer
  if legacy then
    let fpLegacy ← lift (r.fingerprintLegacy L ns dateCounter halves)
    pure (mkPosting L halves.self (some r.balance) none (selfComment.withTag fpLegacy.self.legacyTag),
      mkPosting L halves.peer none none (peerComment.withTag fpLegacy.peer.legacyTag))
  else
    pure (mkPosting L halves.self (some r.balance) none selfComment, mkPosting L halves.peer none none peerComment)

/-- `PostingFormer for RecordSix` (/repo/src/importers/nationwide_csv.rs:256-317). -/
def sixM (M : Machine) (L : ImportLib) : FormatM RecordSix where
  ofRow := RecordSix.ofRowM M L
  date := RecordSix.date
  description := RecordSix.description
  formPostings := RecordSix.formPostingsM M L

/-- The loop of `process_rows` (/repo/src/importers/nationwide_csv.rs:133-165), with the previous date and the counter. -/
def rowsLoopM {T : Type} (M : Machine) (F : FormatM T) (ns account : Str) (legacy : Bool) :
    Option Date → Int → List (Option Row) → Except (Fault ImportErr) (List Transaction)
  | _, _, [] => .ok []
  | _, _, none :: _ => .error (.err .input)
  | prevDate, dateCounter, some row :: rest => do
    let record ← F.ofRow row
    let date := F.date record
    let dateCounter ← nextCounterM M (some date) prevDate dateCounter
    let posts ← F.formPostings record ns account dateCounter legacy
    let ts ← rowsLoopM M F ns account legacy (some date) dateCounter rest
    pure (mkTransaction date none (F.description record) [posts.1, posts.2] :: ts)

/-- `process_file` (/repo/src/importers/nationwide_csv.rs:96-120). -/
def processFileM (M : Machine) (L : ImportLib) (ns account : Str) (legacy : Bool) :
    List (Option Row) → Except (Fault ImportErr) (List Transaction)
  | [] => .error (.err .format)
  | none :: _ => .error (.err .input)
  | some headers :: rows =>
    if headers = headersFive then rowsLoopM M (fiveM M L) ns account legacy none 0 rows
    else if headers = headersSix then rowsLoopM M (sixM M L) ns account legacy none 0 rows
    else .error (.err .format)

/-- `deserialize_required_record::<AccountQuantity>` and `check_header` (/repo/src/importers/nationwide_csv.rs:71-76, 501-506,
521-533). -/
def quantityRecordM (M : Machine) (L : ImportLib) (want : Str) : Option (Option Row) → Except (Fault ImportErr) Unit
  | some none => .error (.err .input)
  | some (some (header :: amount :: _)) => do
    let _ ← gbpValueM M L amount
    if header = want then .ok () else .error (.err .format)
  | _ => .error (.err .format)

/-- `get_transactions` (/repo/src/importers/nationwide_csv.rs:57-92), from the records of the file. -/
def getTransactionsM (M : Machine) (L : ImportLib) (fpNs : FpNamespace) (legacy : Bool) (records : List (Option Row)) :
    Except (Fault ImportErr) Import := do
  let account ← lift (accountRecord records[0]?)
  quantityRecordM M L "Account Balance:".toList records[1]?
  quantityRecordM M L "Available Balance:".toList records[2]?
  let ns ← lift (fpNs.make L account)
  let transactions ← processFileM M L ns account legacy (records.drop 3)
  pure ⟨ns, transactions⟩

end NationwideCsv

namespace NationwidePdf
open Nationwide NationwideCsv Tesseract

/-- `Word::horiz_bounds` (/repo/src/importers/tesseract.rs:258-263). -/
def horizBoundsM {E : Type} (M : Machine) (w : Word) : Except (Fault E) Bounds := do
  pure ⟨w.left, ← M.i32 (w.left + w.width)⟩

/-- `ColumnPos::collect_words_in` and `overlaps` (/repo/src/importers/nationwide_pdf.rs:675-687). -/
def collectWordsM {E : Type} (M : Machine) (col : ColumnPos) : List Word → Except (Fault E) (List Str)
  | [] => .ok []
  | w :: ws => do
    let b ← horizBoundsM M w
    let rest ← collectWordsM M col ws
    pure (if col.overlaps b then w.text :: rest else rest)

/-- `ColumnPos::join_words_in` (/repo/src/importers/nationwide_pdf.rs:666-673). -/
def joinWordsM {E : Type} (M : Machine) (col : ColumnPos) (line : Line) : Except (Fault E) (Option Str) := do
  let s := Str.join [' '] (← collectWordsM M col line.words)
  pure (if s.isEmpty then none else some s)

/-- `Columns::find_in_line` (/repo/src/importers/nationwide_pdf.rs:557-583). -/
def Columns.findInLineM {E : Type} (M : Machine) (idx : Nat) (line : Line) : Except (Fault E) (Option Columns) :=
  match line.words with
  | w0 :: w1 :: w2 :: w3 :: w4 :: _ =>
    if w0.text ≠ "Date".toList ∨ w1.text ≠ "Details".toList ∨ w2.text ≠ "Payments".toList ∨ w3.text ≠ "Receipts".toList ∨
      w4.text ≠ "Balance".toList then .ok none
    else do
      let b0 ← horizBoundsM M w0
      let b4 ← horizBoundsM M w4
      pure (some ⟨idx, b0, ⟨w1.left, w2.left⟩, ⟨w2.left, w3.left⟩, ⟨w3.left, w4.left⟩, b4⟩)
  | _ => .ok none

/-- The loop of `Columns::find_in_paragraph` (/repo/src/importers/nationwide_pdf.rs:549-554), from line number `idx` on. -/
def Columns.findFromM {E : Type} (M : Machine) (idx : Nat) : List Line → Except (Fault E) (Option Columns)
  | [] => .ok none
  | l :: ls => do
    match ← Columns.findInLineM M idx l with
    | some c => .ok (some c)
    | none => Columns.findFromM M (idx + 1) ls

/-- `Columns::update_date_from_line` (/repo/src/importers/nationwide_pdf.rs:585-639). -/
def updateDateM (M : Machine) (L : ImportLib) (col : ColumnPos) (line : Line) (st : DateState) :
    Except (Fault ImportErr) (DateField × DateState) := do
  match ← collectWordsM M col line.words with
  | [] => .ok (.nothing, st)
  | [y] =>
    match L.year y with
    | none => .error (.err .date)
    | some year => if 1980 ≤ year ∧ year ≤ 2100 then .ok (.year, { st with year := some year }) else .error (.err .date)
  | [d, m] =>
    match L.day d, L.month m, st.year with
    | some day, some month, some year =>
      if L.validDate year month day then .ok (.dayMonth, { st with date := some ⟨year, month, day⟩ }) else .error (.err .date)
    | _, _, _ => .error (.err .date)
  | _ => .error (.err .date)

/-- The body of the loop of `Table::read_lines` (/repo/src/importers/nationwide_pdf.rs:461-485): the line it adds, if any, and the
date afterwards. -/
def readLineM (M : Machine) (L : ImportLib) (cols : Columns) (st : DateState) (line : Line) :
    Except (Fault ImportErr) (Option TransactionLine × DateState) := do
  match ← updateDateM M L cols.date line st with
  | (.year, st) => .ok (none, st)
  | (_, st) =>
    match ← joinWordsM M cols.details line with
    | none => .ok (none, st)
    | some detail => do
      let payment ← joinWordsM M cols.payments line
      let receipt ← joinWordsM M cols.receipts line
      let balance ← joinWordsM M cols.balance line
      pure (some ⟨st.date, detail, payment, receipt, balance, line.top, line.height⟩, st)

/-- The loop of `Table::read_lines` (/repo/src/importers/nationwide_pdf.rs:455-486). -/
def readLinesLoopM (M : Machine) (L : ImportLib) (cols : Columns) (st : DateState) :
    List Line → Except (Fault ImportErr) (List TransactionLine)
  | [] => .ok []
  | line :: ls => do
    let (out, st) ← readLineM M L cols st line
    let rest ← readLinesLoopM M L cols st ls
    pure (out.toList ++ rest)

/-- `Table::read_lines` (/repo/src/importers/nationwide_pdf.rs:449-488). -/
def readLinesM (M : Machine) (L : ImportLib) (cols : Columns) (p : Paragraph) : Except (Fault ImportErr) (List TransactionLine) :=
  readLinesLoopM M L cols ⟨none, none⟩ (p.lines.drop (cols.headerLineIdx + 1))

/-- `TransactionBuilder::build` (/repo/src/importers/nationwide_pdf.rs:336-397). -/
def TransactionBuilder.buildM (M : Machine) (L : ImportLib) (t : TransactionBuilder) (ns : Str) :
    Except (Fault ImportErr) Transaction := do
  let b ← lift (newBuilder "nwpdf".toList 1 ns)
  let b := t.fill b
  let base := (Comment.empty.withValueTag Tags.bank bankName).withTag Tags.unknownAccount
  let selfFp := (fillHalf t.halves.self b).build L.sha1
  let peerFp := (fillHalf t.halves.peer b).build L.sha1
  let seq ← seqValueM M ns t.dateCounter
  pure (mkTransaction t.date t.effectiveDate t.description
    [mkPosting L t.halves.self t.balance none
      (((base.withValueTag Tags.seq seq).withTag Tags.importSelf).withTag selfFp.legacyTag),
     mkPosting L t.halves.peer none none ((base.withTag Tags.importPeer).withTag peerFp.legacyTag)])

/-- `flush_transaction` (/repo/src/importers/nationwide_pdf.rs:279-284). -/
def Acc.flushM (M : Machine) (L : ImportLib) (ns : Str) (acc : Acc) : Except (Fault ImportErr) Acc :=
  match acc.curTrn with
  | none => .ok acc
  | some pending => do
    let t ← pending.buildM M L ns
    pure { acc with curTrn := none, trns := acc.trns ++ [t] }

/-- Start of a new transaction (/repo/src/importers/nationwide_pdf.rs:211-223, 227-239). -/
def Acc.beginM (M : Machine) (L : ImportLib) (ns : Str) (acc : Acc) (line : TransactionLine) (value : Str) (type_ : TransactionType) :
    Except (Fault ImportErr) Acc := do
  let acc ← acc.flushM M L ns
  let dateCounter ← nextCounterM M line.impliedDate acc.prevDate acc.dateCounter
  let amount ← lift (parseAmount L value)
  let t ← lift (TransactionBuilder.new line.impliedDate dateCounter amount type_ line.detail)
  pure { acc with curTrn := some t, dateCounter := dateCounter }

/-- `feed_line` (/repo/src/importers/nationwide_pdf.rs:199-277). -/
def Acc.feedLineM (M : Machine) (L : ImportLib) (ns : Str) (acc : Acc) (line : TransactionLine) : Except (Fault ImportErr) Acc :=
  match line.payment, line.receipt with
  | some _, some _ => .error (.err .amounts)
  | some payment, none => do
    let acc ← acc.beginM M L ns line payment .payment
    lift (acc.finishLine L line)
  | none, some receipt => do
    let acc ← acc.beginM M L ns line receipt .receipt
    lift (acc.finishLine L line)
  | none, none =>
    match acc.curTrn with
    | none => .ok acc
    | some t => do
      let t ← lift (t.extend L line.detail)
      lift (Acc.finishLine L { acc with curTrn := some t } line)

/-- Whether a line is far below the one before (/repo/src/importers/nationwide_pdf.rs:162-163). -/
def farBelowM {E : Type} (M : Machine) (prev : Option TransactionLine) (line : TransactionLine) : Except (Fault E) Bool :=
  match prev with
  | none => .ok false
  | some p => do
    let twice ← M.i32 (p.height * 2)
    let limit ← M.i32 (p.top + twice)
    pure (decide (line.top > limit))

/-- The loop of `lines_to_transactions` (/repo/src/importers/nationwide_pdf.rs:159-174), with the previous line. -/
def linesLoopM (M : Machine) (L : ImportLib) (ns : Str) : Option TransactionLine → Acc → List TransactionLine → Except (Fault ImportErr) Acc
  | _, acc, [] => .ok acc
  | prev, acc, line :: ls => do
    if ← farBelowM M prev line then .ok acc
    else
      let acc ← acc.feedLineM M L ns line
      linesLoopM M L ns (some line) acc ls

/-- The loop over the paragraphs (/repo/src/importers/nationwide_pdf.rs:53-66, 440-447): each one with a table is read and its
transactions are added before the next one is looked at. -/
def paragraphsLoopM (M : Machine) (L : ImportLib) (ns : Str) : Acc → List Paragraph → Except (Fault ImportErr) Acc
  | acc, [] => .ok acc
  | acc, p :: ps => do
    match ← Columns.findFromM M 0 p.lines with
    | none => paragraphsLoopM M L ns acc ps
    | some cols =>
      let lines ← readLinesM M L cols p
      let acc ← linesLoopM M L ns none acc lines
      paragraphsLoopM M L ns acc ps

/-- `get_transactions` (/repo/src/importers/nationwide_pdf.rs:44-73), from the document. -/
def getTransactionsM (M : Machine) (L : ImportLib) (fpNs : FpNamespace) (doc : Document) : Except (Fault ImportErr) Import :=
  match findAccountName L doc with
  | none => .error (.err .format)
  | some account => do
    let ns ← lift (fpNs.make L account)
    let acc ← paragraphsLoopM M L ns Acc.new doc.paragraphs
    let acc ← acc.flushM M L ns
    pure ⟨ns, acc.trns⟩

end NationwidePdf

namespace TzAbbr

/-- `parse_utc_offset` (/repo/src/tzabbr.rs:55-79): seconds east of UTC. `FixedOffset::east_opt` accepts less than a day. -/
def parseUtcOffsetM (M : Machine) (s : Str) : Except (Fault OffsetErr) Int :=
  let parts : Option (Bool × Int × Int) :=
    match utcHoursRx.captures s with
    | some m => some ((m.get 1).getD [] = ['+'], capturedNumber m 2, 0)
    | none =>
      match utcHoursMinsRx.captures s with
      | some m => some ((m.get 1).getD [] = ['+'], capturedNumber m 2, capturedNumber m 3)
      | none => none
  match parts with
  | none => .error (.err .format)
  | some (positive, hours, minutes) =>
    if minutes > 59 then .error (.err .minutes)
    else do
      let sign : Int := if positive then 1 else -1
      let h ← M.i32 (hours * 3600)
      let m ← M.i32 (minutes * 60)
      let sum ← M.i32 (h + m)
      let secs ← M.i32 (sign * sum)
      if -86400 < secs ∧ secs < 86400 then .ok secs else .error (.err .range)

end TzAbbr
end Verif
