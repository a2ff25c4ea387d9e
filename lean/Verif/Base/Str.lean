import Std.Data.ExtTreeMap
import Std.Data.ExtTreeSet

/-!
# Strings

Rust `String`/`&str` values are modelled by their list of Unicode scalar values.
This file models the `std` string functions the repository uses; it models library
code, so the citations name the call sites in `/repo`.
-/

-- Results can be compared.
deriving instance DecidableEq for Except

namespace Verif

/-- A Rust `String`/`&str`: its list of chars. `Ord` on `List Char` is code-point lexicographic,
which equals Rust's byte-wise order on UTF-8 (used by `sort` in /repo/src/comment.rs:110,115,130
and /repo/src/merge/sources.rs:37). -/
abbrev Str := List Char

/-- `HashSet<String>` (/repo/src/comment.rs:16). A finite set with extensional equality;
iteration order is *not* taken from it, see `Verif.Base.Hash`. -/
abbrev TagSet := Std.ExtTreeSet Str compare

/-- `HashMap<String, String>` (/repo/src/comment.rs:18). -/
abbrev StrMap := Std.ExtTreeMap Str Str compare

namespace Str

/-- `str::len`: length in bytes of the UTF-8 encoding (call site /repo/src/comment.rs:107). -/
def byteLen (s : Str) : Nat := (s.map fun c => c.utf8Size).sum

/-- `str::starts_with(&str)` (call sites /repo/src/fingerprint.rs:13, /repo/src/merge/posting.rs:190). -/
def startsWith (s pre : Str) : Bool := pre.isPrefixOf s

/-- `char::is_whitespace`, i.e. the Unicode `White_Space` property. Used by `str::trim`
(call sites /repo/src/comment.rs:76,89,123,132,158). -/
def isWs (c : Char) : Bool :=
  let n := c.toNat
  (9 ≤ n && n ≤ 13) || n == 0x20 || n == 0x85 || n == 0xA0 || n == 0x1680 ||
  (0x2000 ≤ n && n ≤ 0x200A) || n == 0x2028 || n == 0x2029 || n == 0x202F || n == 0x205F || n == 0x3000

/-- `str::trim_start` (part of `trim`, call sites /repo/src/comment.rs:76,89,123,132,158-161). -/
def trimStart (s : Str) : Str := s.dropWhile isWs

/-- `str::trim_end` (part of `trim`, call sites /repo/src/comment.rs:76,89,123,132,158-161). -/
def trimEnd (s : Str) : Str := (s.reverse.dropWhile isWs).reverse

/-- `str::trim` (call sites /repo/src/comment.rs:76,89,123,132,158). -/
def trim (s : Str) : Str := trimEnd (trimStart s)

/-- `str::split(char)`: always yields at least one piece
(call sites /repo/src/comment.rs:56,84). -/
def splitOn (sep : Char) : Str → List Str
  | [] => [[]]
  | c :: cs =>
    if c = sep then [] :: splitOn sep cs
    else match splitOn sep cs with
      | [] => [[c]]           -- unreachable: `splitOn` is never empty
      | p :: ps => (c :: p) :: ps

/-- `[String]::join(&str)` (call sites /repo/src/comment.rs:111,136). -/
def join (sep : Str) : List Str → Str
  | [] => []
  | [a] => a
  | a :: b :: rest => a ++ sep ++ join sep (b :: rest)

/-- `str::trim_end_matches(char)` (call site /repo/src/comment.rs:84). -/
def trimEndChar (c : Char) (s : Str) : Str := (s.reverse.dropWhile (· == c)).reverse

end Str

/-- Insert before the first element that is not less (part of `sort`, call sites /repo/src/comment.rs:110,115,130,
/repo/src/merge/sources.rs:37). -/
def insertBy {α : Type} (le : α → α → Bool) (a : α) : List α → List α
  | [] => [a]
  | b :: l => if le a b then a :: b :: l else b :: insertBy le a l

/-- `Vec::sort` (/repo/src/comment.rs:110,115,130) and `sort_by` (call site /repo/src/merge/sources.rs:37), as a sort by insertion: every stable sort has the same result. -/
def sortBy {α : Type} (le : α → α → Bool) : List α → List α
  | [] => []
  | a :: l => insertBy le a (sortBy le l)

end Verif
