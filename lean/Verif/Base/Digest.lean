import Verif.Base.Str

/-!
# Bytes, SHA-1 and base64

Library code used by /repo/src/fingerprint.rs. No theorem depends on what SHA-1 computes: the model takes the hash function as a
parameter. The concrete function below serves to run the model on the files of the repository's own tests.
-/

namespace Verif

/-- A sequence of bytes (what is hashed, /repo/src/fingerprint.rs:112-120, and what files hold, /repo/src/filespec.rs:67-88). -/
abbrev Bytes := List UInt8

/-- UTF-8 encoding: `str::as_bytes` (call site /repo/src/filespec.rs:81, /repo/src/fingerprint.rs:254-258). -/
def encodeUtf8 (s : Str) : Bytes := s.flatMap String.utf8EncodeChar

/-- UTF-8 decoding: `read_to_string` fails on invalid UTF-8 (call site /repo/src/filespec.rs:70). -/
def decodeUtf8 (b : Bytes) : Option Str := (ByteArray.utf8Decode? b.toByteArray).map Array.toList

/-- `n` bytes of a number, most significant first: `byteorder::BigEndian` and `to_be_bytes`
(call sites /repo/src/fingerprint.rs:159-226). Higher bytes are cut off. -/
def be : Nat → Nat → Bytes
  | 0, _ => []
  | n + 1, v => be n (v / 256) ++ [UInt8.ofNat v]

namespace Sha1

/-- A number cut to 32 bits (library code of `sha1`, call sites /repo/src/fingerprint.rs:122,128,133-137; no theorem depends on it). -/
def w32 (x : Nat) : Nat := x % 0x100000000

/-- Rotation of a 32 bit word to the left (library code of `sha1`, call sites /repo/src/fingerprint.rs:122,128,133-137; no theorem
depends on it). -/
def rotl (n x : Nat) : Nat := (w32 (x <<< n)) ||| (x >>> (32 - n))

/-- The message followed by the bit 1, zeros and its length in bits (library code of `sha1`, call sites
/repo/src/fingerprint.rs:122,128,133-137; no theorem depends on it). -/
def padded (m : Bytes) : Bytes :=
  m ++ [0x80] ++ List.replicate ((119 - m.length % 64) % 64) 0 ++ be 8 (8 * m.length)

/-- Words of four bytes (library code of `sha1`, call sites /repo/src/fingerprint.rs:122,128,133-137; no theorem depends on it). -/
def words : Bytes → List Nat
  | a :: b :: c :: d :: rest => (a.toNat * 0x1000000 + b.toNat * 0x10000 + c.toNat * 0x100 + d.toNat) :: words rest
  | _ => []

/-- The message schedule: each new word depends on the last sixteen (kept latest first) (library code of `sha1`, call sites
/repo/src/fingerprint.rs:122,128,133-137; no theorem depends on it). -/
def schedule : Nat → List Nat → List Nat
  | 0, w => w
  | n + 1, w => schedule n (rotl 1 (w.getD 2 0 ^^^ w.getD 7 0 ^^^ w.getD 13 0 ^^^ w.getD 15 0) :: w)

/-- The state of the hash function (library code of `sha1`, call sites /repo/src/fingerprint.rs:122,128,133-137; no theorem depends on
it). -/
structure State where
  a : Nat
  b : Nat
  c : Nat
  d : Nat
  e : Nat

/-- One round (library code of `sha1`, call sites /repo/src/fingerprint.rs:122,128,133-137; no theorem depends on it). -/
def round (s : State) (i w : Nat) : State :=
  let nb := 0xffffffff - s.b
  let fk :=
    if i < 20 then ((s.b &&& s.c) ||| (nb &&& s.d), 0x5A827999)
    else if i < 40 then (s.b ^^^ s.c ^^^ s.d, 0x6ED9EBA1)
    else if i < 60 then ((s.b &&& s.c) ||| (s.b &&& s.d) ||| (s.c &&& s.d), 0x8F1BBCDC)
    else (s.b ^^^ s.c ^^^ s.d, 0xCA62C1D6)
  ⟨w32 (rotl 5 s.a + fk.1 + s.e + fk.2 + w), s.a, rotl 30 s.b, s.c, s.d⟩

/-- All rounds of a block (library code of `sha1`, call sites /repo/src/fingerprint.rs:122,128,133-137; no theorem depends on it). -/
def rounds (s : State) : Nat → List Nat → State
  | _, [] => s
  | i, w :: ws => rounds (round s i w) (i + 1) ws

/-- One block of sixteen words (library code of `sha1`, call sites /repo/src/fingerprint.rs:122,128,133-137; no theorem depends on it). -/
def block (s : State) (ws : List Nat) : State :=
  let t := rounds s 0 (schedule 64 ws.reverse).reverse
  ⟨w32 (s.a + t.a), w32 (s.b + t.b), w32 (s.c + t.c), w32 (s.d + t.d), w32 (s.e + t.e)⟩

/-- All blocks (library code of `sha1`, call sites /repo/src/fingerprint.rs:122,128,133-137; no theorem depends on it). -/
def blocks : Nat → State → List Nat → State
  | 0, s, _ => s
  | n + 1, s, ws => blocks n (block s (ws.take 16)) (ws.drop 16)

/-- `Sha1::finalize` of everything given to `update` (call site /repo/src/fingerprint.rs:134). -/
def digest (m : Bytes) : Bytes :=
  let ws := words (padded m)
  let s := blocks (ws.length / 16) ⟨0x67452301, 0xEFCDAB89, 0x98BADCFE, 0x10325476, 0xC3D2E1F0⟩ ws
  be 4 s.a ++ be 4 s.b ++ be 4 s.c ++ be 4 s.d ++ be 4 s.e

end Sha1

namespace Base64

/-- The characters of the standard alphabet (library code of `base64`, call site /repo/src/fingerprint.rs:132-138). -/
def alphabet : Str := "ABCDEFGHIJKLMNOPQRSTUVWXYZabcdefghijklmnopqrstuvwxyz0123456789+/".toList

/-- The character for six bits (library code of `base64`, call site /repo/src/fingerprint.rs:132-138). -/
def char (n : Nat) : Char := alphabet.getD n 'A'

/-- Base64 without padding: `STANDARD_NO_PAD` (call site /repo/src/fingerprint.rs:132-138). -/
def encode : Bytes → Str
  | [] => []
  | [a] => [char (a.toNat / 4), char (a.toNat % 4 * 16)]
  | [a, b] => [char (a.toNat / 4), char (a.toNat % 4 * 16 + b.toNat / 16), char (b.toNat % 16 * 4)]
  | a :: b :: c :: rest => char (a.toNat / 4) :: char (a.toNat % 4 * 16 + b.toNat / 16) :: char (b.toNat % 16 * 4 + c.toNat / 64) ::
      char (c.toNat % 64) :: encode rest

end Base64
end Verif
