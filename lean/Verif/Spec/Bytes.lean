import Verif.Model.Fingerprint

/-!
# Specification: the bytes that are hashed for a fingerprint, and how the hash is written
-/

namespace Verif.Spec

/-- A number in `k` bytes, most significant byte first. -/
def bigEndian (k n : Nat) : Bytes := (List.range k).map fun i => UInt8.ofNat (n / 256 ^ (k - 1 - i))
/-- A number in `k` bytes, least significant byte first. -/
def littleEndian (k n : Nat) : Bytes := (List.range k).map fun i => UInt8.ofNat (n / 256 ^ i)
/-- The bytes of a text in UTF-8. -/
def utf8 (s : Str) : Bytes := (String.ofList s).toUTF8.data.toList

/-- A text: the number of its bytes, and the bytes. -/
def textBytes (s : Str) : Bytes := bigEndian 8 (utf8 s).length ++ utf8 s
/-- A signed number of 32 bits. -/
def i32Bytes (v : Int) : Bytes := bigEndian 4 (BitVec.ofInt 32 v).toNat
/-- A date: the number of bytes that follow, year, month and day. -/
def dateBytes (d : Date) : Bytes := bigEndian 8 12 ++ i32Bytes d.year ++ bigEndian 4 d.month ++ bigEndian 4 d.day
/-- A time: the number of bytes that follow, hour, minute, second and nanosecond. -/
def timeBytes (t : Time) : Bytes :=
  bigEndian 8 16 ++ bigEndian 4 t.hour ++ bigEndian 4 t.minute ++ bigEndian 4 t.second ++ bigEndian 4 t.nano
/-- A decimal number: two bytes of nothing, the number of digits after the point, the sign, and the digits as a number. -/
def decimalBytes (d : Decimal) : Bytes := [0, 0, UInt8.ofNat d.scale, if d.neg then 128 else 0] ++ littleEndian 12 d.mant
/-- An amount: the number of bytes of the number, the side and the name (which does not count those for the length of the name), the number, the
side that the commodity stands on, and its name. -/
def amountBytes (a : Amount) : Bytes :=
  bigEndian 8 (17 + (utf8 a.commodity.name).length) ++ decimalBytes a.quantity ++
    (match a.commodity.position with | .left => [1] | .right => [2]) ++ textBytes a.commodity.name
/-- Something that may be missing. -/
def optionBytes {α : Type} (f : α → Bytes) : Option α → Bytes
  | none => [0]
  | some a => 1 :: f a

/-- Bit number `j` of a sequence of bytes, from the most significant bit of the first byte on; zero after the end. -/
def bitAt (x : Bytes) (j : Nat) : Nat := ((x.getD (j / 8) 0).toNat / 2 ^ (7 - j % 8)) % 2
/-- The character that stands for six bits. -/
def sextetChar (n : Nat) : Char :=
  if n < 26 then Char.ofNat ('A'.toNat + n)
  else if n < 52 then Char.ofNat ('a'.toNat + (n - 26))
  else if n < 62 then Char.ofNat ('0'.toNat + (n - 52))
  else if n = 62 then '+' else '/'
/-- Base64: a character for each six bits, as many as needed. -/
def base64 (x : Bytes) : Str :=
  (List.range ((8 * x.length + 5) / 6)).map fun i => sextetChar (((List.range 6).map fun k => bitAt x (6 * i + k) * 2 ^ (5 - k)).sum)

/-- The tag of a fingerprint. -/
def fpTag (name : String) (version : Int) (ns : Str) (hash : Bytes) : Str := s!"fp-{name}.{version}.{String.ofList ns}-".toList ++ base64 hash
/-- The tag of a fingerprint in the old format. -/
def oldFpTag (ns : Str) (hash : Bytes) : Str := s!"fp-{String.ofList ns}-".toList ++ base64 hash

end Verif.Spec
