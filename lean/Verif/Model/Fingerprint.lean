import Verif.Base.Digest
import Verif.Base.Rx
import Verif.Model.Internal

/-!
# Fingerprints (/repo/src/fingerprint.rs)

The hash function is a parameter `sha1`, from all bytes given to the hasher to the digest.
-/

namespace Verif

/-- `chrono::NaiveTime` (used at /repo/src/fingerprint.rs:269-277). -/
structure Time where
  hour : Nat
  minute : Nat
  second : Nat
  nano : Nat
  deriving DecidableEq, Repr, Inhabited

/-- A number as text: `Display for i64`, `i32` (call sites /repo/src/fingerprint.rs:37-46,
/repo/src/importers/nationwide_csv.rs:230,288, /repo/src/importers/nationwide_pdf.rs:377). -/
def Str.ofInt (v : Int) : Str := if v < 0 then '-' :: Nat.toDigits 10 v.natAbs else Nat.toDigits 10 v.natAbs

/-- `Decimal::serialize` (call site /repo/src/fingerprint.rs:232): flags, then the mantissa, each with its least significant
byte first. The flags hold the scale from bit 16 on and the sign in bit 31. -/
def Decimal.serialize (d : Decimal) : Bytes :=
  (be 4 (d.scale * 0x10000 + if d.neg then 0x80000000 else 0)).reverse ++ (be 12 d.mant).reverse

/-! ## `Fingerprintable`: the bytes that a value adds to the hash -/

namespace Enc

/-- `u8`, `u16`, `u32`, `u64` (/repo/src/fingerprint.rs:190-219). -/
def unsigned (size v : Nat) : Bytes := be size v

/-- `i8`, `i16`, `i32`, `i64` (/repo/src/fingerprint.rs:159-188): two's complement. -/
def signed (size : Nat) (v : Int) : Bytes := be size (v % (256 ^ size : Nat)).toNat

/-- `usize`, written as `u64` (/repo/src/fingerprint.rs:221-226). -/
def usize (v : Nat) : Bytes := unsigned 8 v

/-- `&[u8]` (/repo/src/fingerprint.rs:152-157): the bytes alone, without their number. -/
def raw (b : Bytes) : Bytes := b

/-- `&str` (/repo/src/fingerprint.rs:254-258): the number of bytes, then the bytes. -/
def str (s : Str) : Bytes := usize s.byteLen ++ raw (encodeUtf8 s)

/-- `&Amount` (/repo/src/fingerprint.rs:228-240). -/
def amount (a : Amount) : Bytes :=
  usize (16 + 1 + a.commodity.name.byteLen) ++ raw a.quantity.serialize ++
    unsigned 1 (match a.commodity.position with | .left => 1 | .right => 2) ++ str a.commodity.name

/-- `Option<T>` (/repo/src/fingerprint.rs:242-252). -/
def option {α : Type} (f : α → Bytes) : Option α → Bytes
  | some a => unsigned 1 1 ++ f a
  | none => unsigned 1 0

/-- `NaiveDate` (/repo/src/fingerprint.rs:260-267). -/
def date (d : Date) : Bytes := usize 12 ++ signed 4 d.year ++ unsigned 4 d.month ++ unsigned 4 d.day

/-- `NaiveTime` (/repo/src/fingerprint.rs:269-277). -/
def time (t : Time) : Bytes :=
  usize 16 ++ unsigned 4 t.hour ++ unsigned 4 t.minute ++ unsigned 4 t.second ++ unsigned 4 t.nano

end Enc

/-- `Accumulator` (/repo/src/fingerprint.rs:121-124): the bytes given to the hasher so far. -/
abbrev Accumulator := Bytes

/-- `Accumulator::into_base64` (/repo/src/fingerprint.rs:132-138). -/
def Accumulator.intoBase64 (sha1 : Bytes → Bytes) (acc : Accumulator) : Str := Base64.encode (sha1 acc)

/-- `Fingerprint` (/repo/src/fingerprint.rs:20-25). -/
structure Fingerprint where
  algorithmName : Str
  algorithmVersion : Int
  userNamespace : Str
  value : Str
  deriving DecidableEq

/-- `Fingerprint::legacy_tag` (/repo/src/fingerprint.rs:28-35). -/
def Fingerprint.legacyTag (f : Fingerprint) : Str := Tags.fingerprintPrefix ++ f.userNamespace ++ ['-'] ++ f.value

/-- `Fingerprint::tag` (/repo/src/fingerprint.rs:37-46). -/
def Fingerprint.tag (f : Fingerprint) : Str :=
  Tags.fingerprintPrefix ++ f.algorithmName ++ ['.'] ++ Str.ofInt f.algorithmVersion ++ ['.'] ++ f.userNamespace ++ ['-'] ++ f.value

/-- `FingerprintBuilder` (/repo/src/fingerprint.rs:51-56). -/
structure FingerprintBuilder where
  acc : Accumulator
  algorithmName : Str
  algorithmVersion : Int
  userNamespace : Str
  deriving DecidableEq

namespace FingerprintBuilder

/-- The class `[a-zA-Z0-9_+/]` (/repo/src/fingerprint.rs:68). -/
def partChar (c : Char) : Bool :=
  ('a' ≤ c && c ≤ 'z') || ('A' ≤ c && c ≤ 'Z') || ('0' ≤ c && c ≤ '9') || c == '_' || c == '+' || c == '/'

/-- `VALID_FP_PART_RX`: `^[a-zA-Z0-9_+/]*$` (/repo/src/fingerprint.rs:68). -/
def validPartRx : Rx := .cat [.bol, .star (.chr partChar), .eol]

/-- Why a builder cannot be made (/repo/src/fingerprint.rs:71-84). -/
inductive Err where
  | name (s : Str)
  | namespace_ (s : Str)
  deriving DecidableEq

/-- `FingerprintBuilder::new` (/repo/src/fingerprint.rs:59-92). -/
def new (algorithmName : Str) (algorithmVersion : Int) (userNamespace : Str) : Except Err FingerprintBuilder :=
  if !validPartRx.isMatch algorithmName then .error (.name algorithmName)
  else if !validPartRx.isMatch userNamespace then .error (.namespace_ userNamespace)
  else .ok ⟨[], algorithmName, algorithmVersion, userNamespace⟩

/-- `FingerprintBuilder::with` (/repo/src/fingerprint.rs:103-113), given what the value adds. -/
def with_ (b : FingerprintBuilder) (v : Bytes) : FingerprintBuilder := { b with acc := b.acc ++ v }

/-- `FingerprintBuilder::build` (/repo/src/fingerprint.rs:94-101). -/
def build (sha1 : Bytes → Bytes) (b : FingerprintBuilder) : Fingerprint :=
  ⟨b.algorithmName, b.algorithmVersion, b.userNamespace, b.acc.intoBase64 sha1⟩

end FingerprintBuilder
end Verif
