import Verif.Model.ImportUtil

/-!
# Nationwide CSV files (/repo/src/importers/nationwide_csv.rs)

The input is a sequence of records, each a list of fields without white space at the ends, or a failure to read one: decoding the
file and splitting it into records and fields (/repo/src/importers/nationwide_csv.rs:58-66) is library code.
-/

namespace Verif
namespace NationwideCsv
open Nationwide

/-- A record of a CSV file (`csv::StringRecord`, /repo/src/importers/nationwide_csv.rs:62-76). -/
abbrev Row := List Str

/-- `TRANSACTION_TYPE_TAG` (/repo/src/importers/nationwide_csv.rs:21). -/
def transactionTypeTag : Str := "trn_type".toList
/-- `TRANSACTIONS_TAG` (/repo/src/importers/nationwide_csv.rs:24). -/
def transactionsTag : Str := "transactions".toList
/-- `LOCATION_TAG` (/repo/src/importers/nationwide_csv.rs:25). -/
def locationTag : Str := "location".toList

/-- The regular expression `£(-?)(\d+)\.(\d+)` (/repo/src/importers/nationwide_csv.rs:481). -/
def gbpRx (digit : Char → Bool) : Rx :=
  .cat [.lit '£', .grp 1 (.opt (.lit '-')), .grp 2 (.plus (.chr digit)), .lit '.', .grp 3 (.plus (.chr digit))]

/-- `deserialize_captured_number::<i64>` on a string of digits (/repo/src/importers/nationwide_csv.rs:508-519). -/
def capturedNumber (s : Str) : Option Nat :=
  if s.all Char.isDigit then
    let n := Nat.ofDigitChars 10 s 0
    if n < 2 ^ 63 then some n else none
  else none

/-- The commodity of all amounts (/repo/src/importers/nationwide_csv.rs:492-495). -/
def gbp : Commodity := ⟨"GBP".toList, .left⟩

/-- `GbpValueVisitor::visit_str` (/repo/src/importers/nationwide_csv.rs:479-498). If `pounds * 100 + pence` does not fit into an
`i64` the import fails (a panic with overflow checks; without them it would wrap around, see Model/Machine). -/
def gbpValue (L : ImportLib) (s : Str) : Option Amount :=
  match (gbpRx L.digit).captures s with
  | none => none
  | some m =>
    let isNegative := (m.get 1).getD [] = ['-']
    match capturedNumber ((m.get 2).getD []), capturedNumber ((m.get 3).getD []) with
    | some pounds, some pence =>
      if pounds * 100 + pence < 2 ^ 63 then some ⟨⟨isNegative, pounds * 100 + pence, 2⟩, gbp⟩ else none
    | _, _ => none

/-- `Deserialize for Option<GbpValue>`: an empty field is absent (/repo/src/importers/nationwide_csv.rs:345,346,375,376). -/
def optGbpValue (L : ImportLib) (s : Str) : Option (Option Amount) :=
  if s = [] then some none else (gbpValue L s).map some

/-- `RecordFive` (/repo/src/importers/nationwide_csv.rs:341-347). -/
structure RecordFive where
  date : Date
  transactions : Str
  location : Str
  paidOut : Option Amount
  paidIn : Option Amount
  deriving DecidableEq

/-- `RecordSix` (/repo/src/importers/nationwide_csv.rs:371-378). -/
structure RecordSix where
  date : Date
  type_ : Str
  description : Str
  paidOut : Option Amount
  paidIn : Option Amount
  balance : Amount
  deriving DecidableEq

/-- `Deserialize for RecordFive` by position; further fields are ignored (/repo/src/importers/nationwide_csv.rs:135,340). -/
def RecordFive.ofRow (L : ImportLib) : Row → Option RecordFive
  | date :: transactions :: location :: paidOut :: paidIn :: _ => do
    let date ← L.dateDayMonYear date
    let paidOut ← optGbpValue L paidOut
    let paidIn ← optGbpValue L paidIn
    some ⟨date, transactions, location, paidOut, paidIn⟩
  | _ => none

/-- `Deserialize for RecordSix` by position; further fields are ignored (/repo/src/importers/nationwide_csv.rs:135,370). -/
def RecordSix.ofRow (L : ImportLib) : Row → Option RecordSix
  | date :: type_ :: description :: paidOut :: paidIn :: balance :: _ => do
    let date ← L.dateDayMonYear date
    let paidOut ← optGbpValue L paidOut
    let paidIn ← optGbpValue L paidIn
    let balance ← gbpValue L balance
    some ⟨date, type_, description, paidOut, paidIn, balance⟩
  | _ => none

/-- A builder with a name, version and namespace, or the error for a bad one (/repo/src/importers/nationwide_csv.rs:356,389,419,
/repo/src/importers/nationwide_pdf.rs:337, /repo/src/importers/paypal_csv.rs:193). -/
def newBuilder (name : Str) (version : Int) (ns : Str) : Except ImportErr FingerprintBuilder :=
  match FingerprintBuilder.new name version ns with
  | .ok b => .ok b
  | .error _ => .error .fingerprint

/-- What `fingerprint_v1` adds to the builder (/repo/src/importers/nationwide_csv.rs:355-364). -/
def RecordFive.fill (r : RecordFive) (dateCounter : Int) (b : FingerprintBuilder) : FingerprintBuilder :=
  (((((b.with_ (Enc.date r.date)).with_ (Enc.signed 4 dateCounter)).with_ (Enc.str r.transactions)).with_ (Enc.str r.location)).with_
    (Enc.option Enc.amount r.paidOut)).with_ (Enc.option Enc.amount r.paidIn)

/-- `RecordFive::fingerprint_v1` (/repo/src/importers/nationwide_csv.rs:350-365). -/
def RecordFive.fingerprintV1 (L : ImportLib) (r : RecordFive) (ns : Str) (dateCounter : Int) : Except ImportErr FingerprintHalves := do
  let b ← newBuilder "nwcsv5".toList 1 ns
  pure (selfAndPeerFingerprints L.sha1 (r.fill dateCounter b))

/-- What `fingerprint_v1` adds to the builder (/repo/src/importers/nationwide_csv.rs:418-428). -/
def RecordSix.fill (r : RecordSix) (dateCounter : Int) (b : FingerprintBuilder) : FingerprintBuilder :=
  ((((((b.with_ (Enc.str r.type_)).with_ (Enc.date r.date)).with_ (Enc.signed 4 dateCounter)).with_ (Enc.str r.description)).with_
    (Enc.option Enc.amount r.paidOut)).with_ (Enc.option Enc.amount r.paidIn)).with_ (Enc.amount r.balance)

/-- `RecordSix::fingerprint_v1` (/repo/src/importers/nationwide_csv.rs:413-429). -/
def RecordSix.fingerprintV1 (L : ImportLib) (r : RecordSix) (ns : Str) (dateCounter : Int) : Except ImportErr FingerprintHalves := do
  let b ← newBuilder "nwcsv6".toList 1 ns
  pure (selfAndPeerFingerprints L.sha1 (r.fill dateCounter b))

/-- What `fingerprint_legacy` adds to the builder for both halves (/repo/src/importers/nationwide_csv.rs:389-397). -/
def RecordSix.fillLegacy (r : RecordSix) (dateCounter : Int) (b : FingerprintBuilder) : FingerprintBuilder :=
  ((((b.with_ (Enc.str r.type_)).with_ (Enc.date r.date)).with_ (Enc.str [])).with_ (Enc.amount r.balance)).with_
    (Enc.signed 4 dateCounter)

/-- What is added for one half (/repo/src/importers/nationwide_csv.rs:399-405, /repo/src/importers/nationwide_pdf.rs:353-359). -/
def fillHalf (h : AccountAmount) (b : FingerprintBuilder) : FingerprintBuilder :=
  (b.with_ (Enc.str h.account)).with_ (Enc.amount h.amount)

/-- `RecordSix::fingerprint_legacy` (/repo/src/importers/nationwide_csv.rs:383-411). -/
def RecordSix.fingerprintLegacy (L : ImportLib) (r : RecordSix) (ns : Str) (dateCounter : Int) (halves : TransactionHalves) :
    Except ImportErr FingerprintHalves := do
  let b ← newBuilder [] 0 ns
  let b := r.fillLegacy dateCounter b
  pure ⟨(fillHalf halves.self b).build L.sha1, (fillHalf halves.peer b).build L.sha1⟩

/-- The amount of the posting for the account (/repo/src/importers/nationwide_csv.rs:204-211, 270-277). -/
def selfAmount (paidIn paidOut : Option Amount) : Except ImportErr Amount :=
  match paidIn, paidOut with
  | some amt, none => .ok amt
  | none, some amt => .ok (negateAmount amt)
  | _, _ => .error .amounts

/-- The value of the tag with the sequence number (/repo/src/importers/nationwide_csv.rs:230,288,
/repo/src/importers/nationwide_pdf.rs:377). -/
def seqValue (ns : Str) (dateCounter : Int) : Str := ns ++ ['-'] ++ Str.ofInt (dateCounter + 1)

/-- A posting as importers make it (/repo/src/importers/nationwide_csv.rs:236-251,299-314,
/repo/src/importers/nationwide_pdf.rs:369-395, /repo/src/importers/paypal_csv.rs:148-164). -/
def mkPosting (L : ImportLib) (half : AccountAmount) (balance : Option Amount) (status : Option Status) (comment : Comment) : Posting :=
  { account := half.account
    reality := .real
    amount := some (simplePostingAmount half.amount)
    balance := balance.map .amount
    status := status
    comment := comment.intoOptComment L.order }

/-- `PostingFormer` (/repo/src/importers/nationwide_csv.rs:171-181) for one of the two formats, with how to make a record of a
row. -/
structure Format (T : Type) where
  ofRow : Row → Option T
  date : T → Date
  description : T → Str
  formPostings : T → (ns account : Str) → (dateCounter : Int) → (legacy : Bool) → Except ImportErr (Posting × Posting)

/-- `RecordFive::form_postings` (/repo/src/importers/nationwide_csv.rs:194-253). -/
def RecordFive.formPostings (L : ImportLib) (r : RecordFive) (ns account : Str) (dateCounter : Int) (_legacy : Bool) :
    Except ImportErr (Posting × Posting) := do
  let amt ← selfAmount r.paidIn r.paidOut
  let halves := selfAndPeerAccountAmount amt Accounts.assetsUnknown
  let fp ← r.fingerprintV1 L ns dateCounter
  let base := ((((Comment.empty.withTag Tags.unknownAccount).withValueTag Tags.account account).withValueTag Tags.bank
    bankName).withValueTag transactionsTag r.transactions).withOptionValueTag locationTag
    (if r.location.isEmpty then none else some r.location)
  let selfComment := ((base.withTag fp.self.tag).withValueTag Tags.seq (seqValue ns dateCounter)).withTag Tags.importSelf
  let peerComment := (base.withTag fp.peer.tag).withTag Tags.importPeer
  pure (mkPosting L halves.self none none selfComment, mkPosting L halves.peer none none peerComment)

/-- `PostingFormer for RecordFive` (/repo/src/importers/nationwide_csv.rs:183-254). -/
def five (L : ImportLib) : Format RecordFive where
  ofRow := RecordFive.ofRow L
  date := RecordFive.date
  description r := if r.location.isEmpty then r.transactions else r.transactions ++ " @ ".toList ++ r.location
  formPostings := RecordFive.formPostings L

/-- `RecordSix::form_postings` (/repo/src/importers/nationwide_csv.rs:263-316). -/
def RecordSix.formPostings (L : ImportLib) (r : RecordSix) (ns account : Str) (dateCounter : Int) (legacy : Bool) :
    Except ImportErr (Posting × Posting) := do
  let amt ← selfAmount r.paidIn r.paidOut
  let halves := selfAndPeerAccountAmount amt Accounts.assetsUnknown
  let base := (((Comment.empty.withTag Tags.unknownAccount).withValueTag Tags.account account).withValueTag Tags.bank
    bankName).withValueTag transactionTypeTag r.type_
  let fp ← r.fingerprintV1 L ns dateCounter
  let selfComment := ((base.withTag fp.self.tag).withValueTag Tags.seq (seqValue ns dateCounter)).withTag Tags.importSelf
  let peerComment := (base.withTag fp.peer.tag).withTag Tags.importPeer
  if legacy then
    let fpLegacy ← r.fingerprintLegacy L ns dateCounter halves
    pure (mkPosting L halves.self (some r.balance) none (selfComment.withTag fpLegacy.self.legacyTag),
      mkPosting L halves.peer none none (peerComment.withTag fpLegacy.peer.legacyTag))
  else
    pure (mkPosting L halves.self (some r.balance) none selfComment, mkPosting L halves.peer none none peerComment)

/-- `PostingFormer for RecordSix` (/repo/src/importers/nationwide_csv.rs:256-317). -/
def six (L : ImportLib) : Format RecordSix where
  ofRow := RecordSix.ofRow L
  date := RecordSix.date
  description := RecordSix.description
  formPostings := RecordSix.formPostings L

/-- A transaction as importers make it (/repo/src/importers/nationwide_csv.rs:156-164). -/
def mkTransaction (date : Date) (effective : Option Date) (description : Str) (postings : List Posting) : Transaction :=
  { comment := none, date := date, effectiveDate := effective, status := none, code := none, description := description,
    postings := postings }

/-- The loop of `process_rows` (/repo/src/importers/nationwide_csv.rs:133-165), with the previous date and the counter. The
counter is an `i32` in the code and unbounded here, see Model/Machine. -/
def rowsLoop {T : Type} (F : Format T) (ns account : Str) (legacy : Bool) :
    Option Date → Int → List (Option Row) → Except ImportErr (List Transaction)
  | _, _, [] => .ok []
  | _, _, none :: _ => .error .input
  | prevDate, dateCounter, some row :: rest =>
    match F.ofRow row with
    | none => .error .format
    | some record =>
      let date := F.date record
      let dateCounter := if some date ≠ prevDate then 0 else dateCounter + 1
      match F.formPostings record ns account dateCounter legacy with
      | .error e => .error e
      | .ok (post1, post2) =>
        match rowsLoop F ns account legacy (some date) dateCounter rest with
        | .error e => .error e
        | .ok ts => .ok (mkTransaction date none (F.description record) [post1, post2] :: ts)

/-- `process_rows` (/repo/src/importers/nationwide_csv.rs:122-168). -/
def processRows {T : Type} (F : Format T) (ns account : Str) (legacy : Bool) (rows : List (Option Row)) :
    Except ImportErr (List Transaction) :=
  rowsLoop F ns account legacy none 0 rows

/-- The header of the format with five columns (/repo/src/importers/nationwide_csv.rs:107). -/
def headersFive : Row := ["Date".toList, "Transactions".toList, "Location".toList, "Paid out".toList, "Paid in".toList]

/-- The header of the format with six columns (/repo/src/importers/nationwide_csv.rs:110). -/
def headersSix : Row :=
  ["Date".toList, "Transaction type".toList, "Description".toList, "Paid out".toList, "Paid in".toList, "Balance".toList]

/-- `process_file` (/repo/src/importers/nationwide_csv.rs:96-120). -/
def processFile (L : ImportLib) (ns account : Str) (legacy : Bool) : List (Option Row) → Except ImportErr (List Transaction)
  | [] => .error .format
  | none :: _ => .error .input
  | some headers :: rows =>
    if headers = headersFive then processRows (five L) ns account legacy rows
    else if headers = headersSix then processRows (six L) ns account legacy rows
    else .error .format

/-- `deserialize_required_record::<AccountName>` and `check_header` (/repo/src/importers/nationwide_csv.rs:68-70, 501-506,
521-533). The record is the next one, if there is one. -/
def accountRecord : Option (Option Row) → Except ImportErr Str
  | some none => .error .input
  | some (some (header :: account :: _)) => if header = "Account Name:".toList then .ok account else .error .format
  | _ => .error .format

/-- `deserialize_required_record::<AccountQuantity>` and `check_header` (/repo/src/importers/nationwide_csv.rs:71-76, 501-506,
521-533). -/
def quantityRecord (L : ImportLib) (want : Str) : Option (Option Row) → Except ImportErr Unit
  | some none => .error .input
  | some (some (header :: amount :: _)) =>
    match gbpValue L amount with
    | none => .error .format
    | some _ => if header = want then .ok () else .error .format
  | _ => .error .format

/-- `get_transactions` (/repo/src/importers/nationwide_csv.rs:57-92), from the records of the file. -/
def getTransactions (L : ImportLib) (fpNs : FpNamespace) (legacy : Bool) (records : List (Option Row)) : Except ImportErr Import := do
  let account ← accountRecord records[0]?
  quantityRecord L "Account Balance:".toList records[1]?
  quantityRecord L "Available Balance:".toList records[2]?
  let ns ← fpNs.make L account
  let transactions ← processFile L ns account legacy (records.drop 3)
  pure ⟨ns, transactions⟩

end NationwideCsv
end Verif
