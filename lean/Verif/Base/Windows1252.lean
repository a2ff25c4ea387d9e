import Verif.Base.Digest

/-!
# Windows-1252

The decoder of the crate `encoding_rs` for Windows-1252, through which Nationwide CSV files are read
(/repo/src/importers/nationwide_csv.rs:59-61). As the encoding is given, `encoding_rs_io` does not look for a byte order mark.
-/

namespace Verif
namespace Windows1252

/-- The characters of the bytes 0x80 to 0x9F, as in the index of the WHATWG encoding standard; the five bytes that are not assigned
stand for control characters (library code of `encoding_rs`, call site /repo/src/importers/nationwide_csv.rs:59-61). -/
def high : List Char :=
  ['€', '\u0081', '‚', 'ƒ', '„', '…', '†', '‡', 'ˆ', '‰', 'Š', '‹', 'Œ', '\u008D', 'Ž', '\u008F',
    '\u0090', '‘', '’', '“', '”', '•', '–', '—', '˜', '™', 'š', '›', 'œ', '\u009D', 'ž', 'Ÿ']

/-- The character of a byte (library code of `encoding_rs`, call site /repo/src/importers/nationwide_csv.rs:59-61). -/
def char (b : UInt8) : Char :=
  if 0x80 ≤ b.toNat ∧ b.toNat < 0xA0 then high.getD (b.toNat - 0x80) '?' else Char.ofNat b.toNat

/-- The decoder: one character for each byte (`DecodeReaderBytesBuilder` with `WINDOWS_1252`,
/repo/src/importers/nationwide_csv.rs:59-61). -/
def decode (b : Bytes) : Str := b.map char

end Windows1252
end Verif
