import Verif.Model.NationwideCsv
import Verif.Model.TzAbbr

/-!
# PayPal CSV files (/repo/src/importers/paypal_csv.rs)

As for Nationwide, splitting the file into records is library code. The fields of a record are found by the names in the header of the
file.
-/

namespace Verif
namespace PaypalCsv
open NationwideCsv

/-- `TRANSACTION_NAME_TAG` (/repo/src/importers/paypal_csv.rs:21). -/
def transactionNameTag : Str := "trn_name".toList
/-- `TRANSACTION_TYPE_TAG` (/repo/src/importers/paypal_csv.rs:23). -/
def transactionTypeTag : Str := "trn_type".toList
/-- The tag for the receipt (/repo/src/importers/paypal_csv.rs:124). -/
def receiptIdTag : Str := "receipt_id".toList

/-- An instant in time: seconds since 1970 and fraction, which also marks leap seconds. It stands for
`DateTime<FixedOffset>`, whose equality (/repo/src/importers/paypal_csv.rs:75) ignores the offset. -/
abbrev Instant := Int × Nat

/-- `de::Record` (/repo/src/importers/paypal_csv.rs:257-278). -/
structure RawRecord where
  date : Date
  time : Time
  timeZone : Str
  name : Option Str
  type_ : Str
  status : Status
  currency : Str
  amount : Decimal
  receiptId : Option Str
  balance : Decimal
  deriving DecidableEq

/-- The field below the header with that name; a missing header is an error except for optional fields. A header that is there
twice is an error too, not modelled here: see `RawRecord.ofRow` (library code of `csv`, call site
/repo/src/importers/paypal_csv.rs:256-278). -/
def field (headers row : Row) (name : Str) : Option Str := (headers.zip row).lookup name

/-- `Deserialize for Option<String>`: an empty field or a missing one is absent (library code of `csv`, call sites
/repo/src/importers/paypal_csv.rs:265,275). -/
def optField (headers row : Row) (name : Str) : Option Str :=
  match field headers row name with
  | some s => if s = [] then none else some s
  | none => none

/-- `Deserialize for Status` and its conversion (/repo/src/importers/paypal_csv.rs:304-319). -/
def statusOf (s : Str) : Option Status :=
  if s = "Completed".toList then some .cleared
  else if s = "Pending".toList then some .pending
  else none

/-- The names of the fields (/repo/src/importers/paypal_csv.rs:258-277). -/
def fieldNames : List Str :=
  ["Date".toList, "Time".toList, "Time zone".toList, "Name".toList, "Type".toList, "Status".toList, "Currency".toList,
    "Amount".toList, "Receipt ID".toList, "Balance".toList]

/-- `Deserialize for de::Record` (/repo/src/importers/paypal_csv.rs:242,256-278). Without `flexible`, a record with another number of
fields than the header is an error; so is a header that names a field twice. Further fields are ignored. -/
def RawRecord.ofRow (L : ImportLib) (headers row : Row) : Option RawRecord :=
  if headers.length ≠ row.length ∨ ∃ n ∈ fieldNames, 1 < headers.count n then none
  else do
    let date ← (field headers row "Date".toList).bind L.dateSlashes
    let time ← (field headers row "Time".toList).bind L.timeColons
    let timeZone ← field headers row "Time zone".toList
    let type_ ← field headers row "Type".toList
    let status ← (field headers row "Status".toList).bind statusOf
    let currency ← field headers row "Currency".toList
    let amount ← (field headers row "Amount".toList).bind L.decimalField
    let balance ← (field headers row "Balance".toList).bind L.decimalField
    some ⟨date, time, timeZone, optField headers row "Name".toList, type_, status, currency, amount,
      optField headers row "Receipt ID".toList, balance⟩

/-- `Record` (/repo/src/importers/paypal_csv.rs:168-177). -/
structure Record where
  datetime : Instant
  name : Option Str
  type_ : Str
  status : Status
  amount : Amount
  balance : Amount
  receiptId : Option Str
  partialFp : FingerprintBuilder
  deriving DecidableEq

/-- Days from 1970-01-01 to a date of the Gregorian calendar (part of `NaiveDateTime`). Library code of `chrono`, call site
/repo/src/importers/paypal_csv.rs:205-222; that it counts the days is proved, see `C50_days`. -/
def daysFromCivil (d : Date) : Int :=
  let y := if d.month ≤ 2 then d.year - 1 else d.year
  let m : Int := if d.month ≤ 2 then d.month + 9 else d.month - 3
  365 * y + y / 4 - y / 100 + y / 400 + (153 * m + 2) / 5 + d.day - 1 - 719468

/-- `from_local_datetime` for a fixed offset (/repo/src/importers/paypal_csv.rs:205-222). That the result can be out of the range of
`chrono` is not modelled; for a fixed offset it is never ambiguous. -/
def instant (d : Date) (t : Time) (offset : Int) : Instant :=
  (daysFromCivil d * 86400 + t.hour * 3600 + t.minute * 60 + t.second - offset, t.nano)

/-- What `from_csv_record` adds to the builder (/repo/src/importers/paypal_csv.rs:193-203). -/
def RawRecord.fill (v : RawRecord) (amount balance : Amount) (b : FingerprintBuilder) : FingerprintBuilder :=
  ((((((b.with_ (Enc.date v.date)).with_ (Enc.time v.time)).with_ (Enc.str v.timeZone)).with_ (Enc.option Enc.str v.name)).with_
    (Enc.str v.type_)).with_ (Enc.amount amount)).with_ (Enc.amount balance)

/-- `Record::from_csv_record` and `parse_timezone` (/repo/src/importers/paypal_csv.rs:180-233, 346-351). -/
def Record.ofRaw (v : RawRecord) (tz : TzAbbr.DB) (ns : Str) : Except ImportErr Record := do
  let commodity : Commodity := ⟨v.currency, .left⟩
  let amount : Amount := ⟨v.amount, commodity⟩
  let balance : Amount := ⟨v.balance, commodity⟩
  let b ← newBuilder "ppcsv".toList 1 ns
  match TzAbbr.abbrToTz tz v.timeZone with
  | none => .error .timezone
  | some offset =>
    pure ⟨instant v.date v.time offset, v.name, v.type_, v.status, amount, balance, v.receiptId, v.fill amount balance b⟩

/-- `deserialize_row` (/repo/src/importers/paypal_csv.rs:236-244). -/
def deserializeRow (L : ImportLib) (headers : Row) (tz : TzAbbr.DB) (ns : Str) : Option Row → Except ImportErr Record
  | none => .error .input
  | some row =>
    match RawRecord.ofRow L headers row with
    | none => .error .format
    | some v => Record.ofRaw v tz ns

/-- `form_postings` (/repo/src/importers/paypal_csv.rs:114-165). -/
def formPostings (L : ImportLib) (legacy : Bool) (r : Record) : Posting × Posting :=
  let fp := selfAndPeerFingerprints L.sha1 r.partialFp
  let selfComment := ((((Comment.empty.withTag Tags.importSelf).withTag Tags.unknownAccount).withOptionTag
    (if legacy then some fp.self.legacyTag else none)).withOptionValueTag receiptIdTag r.receiptId).withTag fp.self.tag
  let peerComment := (((Comment.empty.withTag Tags.importPeer).withTag Tags.unknownAccount).withOptionTag
    (if legacy then some fp.peer.legacyTag else none)).withValueTag transactionTypeTag r.type_
  let peerComment := match r.name with
    | some name => peerComment.withValueTag transactionNameTag name
    | none => peerComment
  let halves := selfAndPeerAccountAmount r.amount Accounts.assetsUnknown
  (mkPosting L halves.self (some r.balance) (some r.status) selfComment, mkPosting L halves.peer none (some r.status) peerComment)

/-- The loop of `form_transaction` (/repo/src/importers/paypal_csv.rs:95-101), from record number `i` on. -/
def postingsLoop (L : ImportLib) (legacy : Bool) : Nat → List Record → List Posting
  | _, [] => []
  | i, r :: rs =>
    let (p1, p2) := formPostings L legacy { r with partialFp := r.partialFp.with_ (Enc.usize i) }
    p1 :: p2 :: postingsLoop L legacy (i + 1) rs

/-- `form_transaction` (/repo/src/importers/paypal_csv.rs:83-112). -/
def formTransaction (L : ImportLib) (legacy : Bool) (dt : Instant) (records : List Record) : Except ImportErr Transaction :=
  match records.findSome? Record.name with
  | none => .error .noName
  | some description => .ok (mkTransaction (L.localDate dt) none description (postingsLoop L legacy 0 records))

/-- `Itertools::chunk_by` by instant (/repo/src/importers/paypal_csv.rs:75): runs of records with equal keys. -/
def chunks : List Record → List (Instant × List Record)
  | [] => []
  | r :: rs =>
    match chunks rs with
    | (dt, group) :: rest => if r.datetime = dt then (r.datetime, r :: group) :: rest else (r.datetime, [r]) :: (dt, group) :: rest
    | [] => [(r.datetime, [r])]

/-- `read_transactions` (/repo/src/importers/paypal_csv.rs:65-81). -/
def readTransactions (L : ImportLib) (headers : Row) (tz : TzAbbr.DB) (ns : Str) (legacy : Bool) (rows : List (Option Row)) :
    Except ImportErr (List Transaction) := do
  let records ← rows.mapM (deserializeRow L headers tz ns)
  (chunks records).mapM fun g => formTransaction L legacy g.1 g.2

/-- `get_transactions` (/repo/src/importers/paypal_csv.rs:44-61), from the records of the two files; `none` if the header cannot be
read. -/
def getTransactions (L : ImportLib) (ns : Str) (legacy : Bool) (headers : Option Row) (rows : List (Option Row))
    (tzRecords : List (Option TzAbbr.Record)) : Except ImportErr Import :=
  match headers with
  | none => .error .input
  | some headers =>
    match TzAbbr.fromRecords tzRecords with
    | .error _ => .error .timezone
    | .ok tz => do
      let transactions ← readTransactions L headers tz ns legacy rows
      pure ⟨ns, transactions⟩

end PaypalCsv
end Verif
