import Verif.Model.CommentText
import Verif.Model.Convert
import Verif.Model.Fingerprint

/-!
# What importers share (/repo/src/importers/{importer,util,nationwide}.rs, /repo/src/accounts.rs)
-/

namespace Verif

/-- Library functions that importers call and the model does not define (the call sites are cited below, e.g.
/repo/src/importers/paypal_csv.rs:298). -/
structure ImportLib where
  /-- `Sha1` (/repo/src/fingerprint.rs:123) -/
  sha1 : Bytes → Bytes
  /-- order of iteration of hash sets and maps when comments are written -/
  order : HashOrder
  /-- `\d` in a regular expression: any Unicode decimal digit (/repo/src/importers/nationwide_csv.rs:481,
  /repo/src/importers/nationwide_pdf.rs:707,710) -/
  digit : Char → Bool
  digit_ascii : ∀ c : Char, c.toNat < 128 → digit c = c.isDigit
  /-- `NaiveDate::parse_from_str(s, "%d %b %Y")` (/repo/src/importers/nationwide_csv.rs:450) -/
  dateDayMonYear : Str → Option Date
  /-- `NaiveDate::parse_from_str(s, "%d/%m/%Y")` (/repo/src/importers/paypal_csv.rs:298) -/
  dateSlashes : Str → Option Date
  /-- `NaiveTime::parse_from_str(s, "%H:%M:%S")` (/repo/src/importers/paypal_csv.rs:339) -/
  timeColons : Str → Option Time
  /-- `NaiveDate::parse_from_str(s, "Effective Date %d %b %Y")` (/repo/src/importers/nationwide_pdf.rs:255) -/
  dateEffective : Str → Option Date
  /-- `Decimal::from_str` (/repo/src/importers/nationwide_pdf.rs:402,404) -/
  decimal : Str → Option Decimal
  /-- `Deserialize for Decimal` from a field of a CSV record, which goes through a guess of the type of the field and possibly
  a floating point number (/repo/src/importers/paypal_csv.rs:273,277) -/
  decimalField : Str → Option Decimal
  /-- `date_fmt::parse` of a day (/repo/src/importers/nationwide_pdf.rs:591,629) -/
  day : Str → Option Nat
  /-- `date_fmt::parse` of a month (/repo/src/importers/nationwide_pdf.rs:593,630) -/
  month : Str → Option Nat
  /-- `date_fmt::parse` of a year (/repo/src/importers/nationwide_pdf.rs:595,606) -/
  year : Str → Option Int
  /-- `Parsed::to_naive_date` with year, month and day (/repo/src/importers/nationwide_pdf.rs:631): the day exists -/
  validDate : Int → Nat → Nat → Bool
  /-- the date in the output time zone at an instant: `with_timezone`, `naive_local`, `date`
  (/repo/src/importers/paypal_csv.rs:88) -/
  localDate : Int × Nat → Date

/-- Why an import fails, by kind (/repo/src/importers/nationwide_csv.rs:69-75,103,114,210,276,503,
/repo/src/importers/nationwide_pdf.rs:48,203,315,319,609,634, /repo/src/importers/paypal_csv.rs:93,211,216,350,
/repo/src/importers/nationwide.rs:58). -/
inductive ImportErr where
  /-- the input cannot be read or split into records -/
  | input
  /-- a record or header has the wrong form -/
  | format
  /-- there is no namespace for the account -/
  | namespace_
  /-- the namespace has bad characters -/
  | fingerprint
  /-- both or none of two amounts -/
  | amounts
  /-- a bad date or a missing one -/
  | date
  /-- a bad number or a negative one -/
  | number
  /-- no record of a transaction has a name -/
  | noName
  /-- unknown time zone, or time out of range -/
  | timezone
  deriving DecidableEq

/-- `Import` (/repo/src/importers/importer.rs:4-9). -/
structure Import where
  userFpNamespace : Str
  transactions : List Transaction
  deriving DecidableEq

namespace Accounts
/-- `ASSETS_UNKNOWN` (/repo/src/accounts.rs:1). -/
def assetsUnknown : Str := "assets:unknown".toList
/-- `EXPENSES_UNKNOWN` (/repo/src/accounts.rs:2). -/
def expensesUnknown : Str := "expenses:unknown".toList
/-- `INCOME_UNKNOWN` (/repo/src/accounts.rs:3). -/
def incomeUnknown : Str := "income:unknown".toList
end Accounts

/-- `negate_amount` (/repo/src/importers/util.rs:6-11). -/
def negateAmount (amt : Amount) : Amount := { amt with quantity := amt.quantity.negate }

/-- `AccountAmount` (/repo/src/importers/util.rs:13-16). -/
structure AccountAmount where
  account : Str
  amount : Amount
  deriving DecidableEq

/-- `TransactionHalves` (/repo/src/importers/util.rs:18-21). -/
structure TransactionHalves where
  self : AccountAmount
  peer : AccountAmount
  deriving DecidableEq

/-- `self_and_peer_account_amount` (/repo/src/importers/util.rs:23-43). -/
def selfAndPeerAccountAmount (selfAmount : Amount) (selfAccount : Str) : TransactionHalves :=
  let peerAccount := if selfAmount.quantity.neg then Accounts.expensesUnknown else Accounts.incomeUnknown
  ⟨⟨selfAccount, selfAmount⟩, ⟨peerAccount, negateAmount selfAmount⟩⟩

/-- `FingerprintHalves` (/repo/src/importers/util.rs:45-48). -/
structure FingerprintHalves where
  self : Fingerprint
  peer : Fingerprint
  deriving DecidableEq

/-- `self_and_peer_fingerprints` (/repo/src/importers/util.rs:50-55). -/
def selfAndPeerFingerprints (sha1 : Bytes → Bytes) (fpb : FingerprintBuilder) : FingerprintHalves :=
  ⟨(fpb.with_ (Enc.str "self".toList)).build sha1, (fpb.with_ (Enc.str "peer".toList)).build sha1⟩

namespace Nationwide

/-- `BANK_NAME` (/repo/src/importers/nationwide.rs:10). -/
def bankName : Str := "Nationwide".toList

/-- `FpNamespace` (/repo/src/importers/nationwide.rs:32-38). -/
inductive FpNamespace where
  | accountName
  | fixed (s : Str)
  | generated
  | lookup (t : StrMap)

/-- `FpNamespace::make_namespace` (/repo/src/importers/nationwide.rs:41-60). The hash has at least eight characters, all of one
byte. -/
def FpNamespace.make (L : ImportLib) (ns : FpNamespace) (account : Str) : Except ImportErr Str :=
  match ns with
  | .accountName => .ok account
  | .fixed s => .ok s
  | .generated => .ok ((Accumulator.intoBase64 L.sha1 (Enc.str bankName ++ Enc.str account)).take 8)
  | .lookup t =>
    match t[account]? with
    | some s => .ok s
    | none => .error .namespace_

/-- `FIXED_PREFIX` (/repo/src/importers/nationwide.rs:63). -/
def fixedPrefix : Str := "fixed:".toList
/-- `LOOKUP_PREFIX` (/repo/src/importers/nationwide.rs:64). -/
def lookupPrefix : Str := "lookup:".toList

/-- `FromStr for FpNamespace` (/repo/src/importers/nationwide.rs:66-84). `readTable` reads the table from the file with that
name. -/
def FpNamespace.fromStr (readTable : Str → Option StrMap) (s : Str) : Option FpNamespace :=
  if s = "account-name".toList then some .accountName
  else if s = "generated".toList then some .generated
  else if s.startsWith fixedPrefix then some (.fixed (s.drop fixedPrefix.length))
  else if s.startsWith lookupPrefix then (readTable (s.drop lookupPrefix.length)).map .lookup
  else none

end Nationwide
end Verif
