import Verif.Base.Str

/-!
# Splitting a text into records

The reader of the crate `csv` (1.4.0), as far as the repository uses it: the states of `csv-core` for its default settings, which all
callers leave as they are but for the delimiter (call sites /repo/src/importers/nationwide_csv.rs:62-67,
/repo/src/importers/paypal_csv.rs:45-49, /repo/src/importers/tesseract.rs:38-42, /repo/src/tzabbr.rs:27). A double quote begins a
quoted field only as the first character of a field; two double quotes stand for one in a quoted field; records end at a carriage
return or a line feed; lines with nothing in them are passed over. The model reads characters; that bytes must be UTF-8 is not
modelled.
-/

namespace Verif
namespace Csv

/-- The fields of a record: `StringRecord` (/repo/src/importers/nationwide_csv.rs:68). -/
abbrev Row := List Str

/-- Where the reader is (`NfaState` of `csv-core`, call sites /repo/src/importers/nationwide_csv.rs:62-67 and
/repo/src/importers/tesseract.rs:38-42). The state between a carriage return and a line feed is not there: a line feed at the
start of a record is passed over anyway. -/
inductive State where
  | startRecord
  | startField
  | inField
  | inQuoted
  /-- behind a double quote in a quoted field -/
  | afterQuote
  deriving DecidableEq

/-- The reader with what it has read (call sites /repo/src/importers/nationwide_csv.rs:62-67,
/repo/src/importers/tesseract.rs:38-42). -/
structure Reader where
  state : State
  /-- the field that is being read -/
  field : Str
  /-- the fields before it in the record -/
  fields : Row
  /-- the records before -/
  rows : List Row
  deriving DecidableEq

/-- The end of a record: `Terminator::CRLF`, which is the default (call sites /repo/src/importers/nationwide_csv.rs:62-67,
/repo/src/importers/tesseract.rs:38-42). -/
def isEnd (c : Char) : Bool := c == '\n' || c == '\r'

/-- A reader at the start (call sites /repo/src/importers/nationwide_csv.rs:67, /repo/src/importers/tesseract.rs:42). -/
def Reader.new : Reader := ⟨.startRecord, [], [], []⟩

/-- The field ends (call sites as for `Reader`: /repo/src/importers/nationwide_csv.rs:62-67,
/repo/src/importers/tesseract.rs:38-42). -/
def Reader.endField (r : Reader) : Reader := { r with state := .startField, field := [], fields := r.fields ++ [r.field] }

/-- The record ends (call sites as for `Reader`: /repo/src/importers/nationwide_csv.rs:62-67,
/repo/src/importers/tesseract.rs:38-42). -/
def Reader.endRecord (r : Reader) : Reader := ⟨.startRecord, [], [], r.rows ++ [r.fields ++ [r.field]]⟩

/-- A character of a field that is not quoted, or of one behind its quoted part (`transition_nfa` of `csv-core`; call sites
/repo/src/importers/nationwide_csv.rs:62-67, /repo/src/importers/tesseract.rs:38-42). -/
def Reader.bare (delim : Char) (r : Reader) (c : Char) : Reader :=
  if c = delim then r.endField
  else if isEnd c then r.endRecord
  else { r with state := .inField, field := r.field ++ [c] }

/-- The first character of a field (`transition_nfa` of `csv-core`; call sites /repo/src/importers/nationwide_csv.rs:62-67,
/repo/src/importers/tesseract.rs:38-42). -/
def Reader.first (delim : Char) (r : Reader) (c : Char) : Reader :=
  if c = '"' then { r with state := .inQuoted } else r.bare delim c

/-- One character (`transition_nfa` of `csv-core`; call sites /repo/src/importers/nationwide_csv.rs:62-67,
/repo/src/importers/tesseract.rs:38-42). -/
def Reader.char (delim : Char) (r : Reader) (c : Char) : Reader :=
  match r.state with
  | .startRecord => if isEnd c then r else r.first delim c
  | .startField => r.first delim c
  | .inField => r.bare delim c
  | .inQuoted => if c = '"' then { r with state := .afterQuote } else { r with field := r.field ++ [c] }
  | .afterQuote => if c = '"' then { r with state := .inQuoted, field := r.field ++ [c] } else r.bare delim c

/-- The end of the input, where a record ends too, even in a quoted field (`transition_final_nfa` of `csv-core`; call sites
/repo/src/importers/nationwide_csv.rs:62-67, /repo/src/importers/tesseract.rs:38-42). -/
def Reader.finish (r : Reader) : List Row :=
  match r.state with
  | .startRecord => r.rows
  | _ => r.endRecord.rows

/-- The records of a text, without a byte order mark at the start (`strip_utf8_bom` of `csv-core`; call sites
/repo/src/importers/nationwide_csv.rs:62-67, /repo/src/importers/paypal_csv.rs:45-49, /repo/src/importers/tesseract.rs:38-42,
/repo/src/tzabbr.rs:27). -/
def records (delim : Char) (text : Str) : List Row :=
  let text := if text.head? = some '\uFEFF' then text.tail else text
  (text.foldl (Reader.char delim) Reader.new).finish

/-- The records with `Trim::All` (/repo/src/importers/nationwide_csv.rs:65, /repo/src/importers/paypal_csv.rs:48,
/repo/src/importers/tesseract.rs:41): all fields are trimmed. -/
def trimmedRecords (delim : Char) (text : Str) : List Row := (records delim text).map fun row => row.map Str.trim

/-- The value of a digit (`char::to_digit`, in `from_str_radix`; see `parseI32`, call site /repo/src/importers/tesseract.rs:10-22). -/
def digit? (radix : Nat) (c : Char) : Option Nat :=
  let v := if c.isDigit then c.toNat - 48
    else if 'a' ≤ c ∧ c ≤ 'z' then c.toNat - 87
    else if 'A' ≤ c ∧ c ≤ 'Z' then c.toNat - 55
    else radix
  if v < radix then some v else none

/-- A sign and what is behind it: part of `from_str_radix` (see `parseI32`, call site /repo/src/importers/tesseract.rs:10-22). -/
def sign : Str → Bool × Str
  | '-' :: ds => (true, ds)
  | '+' :: ds => (false, ds)
  | ds => (false, ds)

/-- `i32::from_str_radix`: an optional sign and at least one digit, within range (see `parseI32`, call site
/repo/src/importers/tesseract.rs:10-22). -/
def fromRadix (radix : Nat) (s : Str) : Option Int :=
  if (sign s).2 = [] then none
  else do
    let ds ← (sign s).2.mapM (digit? radix)
    let n : Int := ((ds.foldl (fun n d => radix * n + d) 0 : Nat) : Int)
    let v := if (sign s).1 then -n else n
    if -2147483648 ≤ v ∧ v ≤ 2147483647 then some v else none

/-- `Deserialize for i32` from a field (/repo/src/importers/tesseract.rs:10-22): the crate `csv` also reads hexadecimal numbers. -/
def parseI32 (s : Str) : Option Int :=
  if s.startsWith "0x".toList then fromRadix 16 (s.drop 2) else fromRadix 10 s

end Csv
end Verif
