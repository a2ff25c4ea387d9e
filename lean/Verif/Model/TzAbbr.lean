import Verif.Base.Rx

/-!
# Time zone abbreviations (/repo/src/tzabbr.rs)
-/

namespace Verif
namespace TzAbbr
open Rx

/-- The class `[-+]` (/repo/src/tzabbr.rs:57,59). -/
def signChar (c : Char) : Bool := c == '-' || c == '+'

/-- The class `[0-9]` (/repo/src/tzabbr.rs:57,59). -/
def digitChar (c : Char) : Bool := '0' ≤ c && c ≤ '9'

/-- `UTC_HOURS_RX`: `^UTC([-+])([0-9]{2})$` (/repo/src/tzabbr.rs:57). -/
def utcHoursRx : Rx := cat [bol, str "UTC".toList, grp 1 (chr signChar), grp 2 (rep (chr digitChar) 2), eol]

/-- `UTC_HOURS_MINS_RX`: `^UTC([-+])([0-9]{2}):([0-9]{2})$` (/repo/src/tzabbr.rs:58-59). -/
def utcHoursMinsRx : Rx :=
  cat [bol, str "UTC".toList, grp 1 (chr signChar), grp 2 (rep (chr digitChar) 2), lit ':', grp 3 (rep (chr digitChar) 2), eol]

/-- `parse::<i32>` of a captured group of two digits, which cannot fail (/repo/src/tzabbr.rs:63,67,68). -/
def capturedNumber (m : Found) (n : Nat) : Int := Nat.ofDigitChars 10 ((m.get n).getD []) 0

/-- Why an offset is refused (/repo/src/tzabbr.rs:71,74,78). -/
inductive OffsetErr where
  | format
  | minutes
  | range
  deriving DecidableEq

/-- `parse_utc_offset` (/repo/src/tzabbr.rs:55-79): seconds east of UTC. `FixedOffset::east_opt` accepts less than a day. -/
def parseUtcOffset (s : Str) : Except OffsetErr Int :=
  let parts : Option (Bool × Int × Int) :=
    match utcHoursRx.captures s with
    | some m => some ((m.get 1).getD [] = ['+'], capturedNumber m 2, 0)
    | none =>
      match utcHoursMinsRx.captures s with
      | some m => some ((m.get 1).getD [] = ['+'], capturedNumber m 2, capturedNumber m 3)
      | none => none
  match parts with
  | none => .error .format
  | some (positive, hours, minutes) =>
    if minutes > 59 then .error .minutes
    else
      let sign : Int := if positive then 1 else -1
      let secs := sign * (hours * 3600 + minutes * 60)
      if -86400 < secs ∧ secs < 86400 then .ok secs else .error .range

/-- `TzRecord` (/repo/src/tzabbr.rs:12-15). -/
structure Record where
  abbreviation : Str
  utcOffset : Str
  deriving DecidableEq

/-- `TzAbbrDB` (/repo/src/tzabbr.rs:18-20). -/
abbrev DB := Std.ExtTreeMap Str Int compare

/-- Why a table is refused (/repo/src/tzabbr.rs:29-38). -/
inductive Err where
  /-- a record cannot be read (/repo/src/tzabbr.rs:29) -/
  | record
  /-- a bad offset (/repo/src/tzabbr.rs:30) -/
  | offset (e : OffsetErr)
  /-- an abbreviation is defined twice (/repo/src/tzabbr.rs:33-38) -/
  | duplicate (abbr : Str)
  deriving DecidableEq

/-- The loop of `TzAbbrDB::from_reader` (/repo/src/tzabbr.rs:28-44); a record that cannot be read is `none`. -/
def load (map : DB) : List (Option Record) → Except Err DB
  | [] => .ok map
  | none :: _ => .error .record
  | some r :: rest =>
    match parseUtcOffset r.utcOffset with
    | .error e => .error (.offset e)
    | .ok offset =>
      if r.abbreviation ∈ map then .error (.duplicate r.abbreviation)
      else load (map.insert r.abbreviation offset) rest

/-- `TzAbbrDB::from_reader` (/repo/src/tzabbr.rs:23-46), from the records of the file. -/
def fromRecords (records : List (Option Record)) : Except Err DB := load ∅ records

/-- `TzAbbrDB::abbr_to_tz` (/repo/src/tzabbr.rs:50-52). -/
def abbrToTz (db : DB) (abbr : Str) : Option Int := db[abbr]?

end TzAbbr
end Verif
