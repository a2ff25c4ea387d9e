import Verif.Base.Str

/-!
# Regular expressions

A model of the part of the `regex` crate that the repository uses. The semantics is the documented one: leftmost match,
and among the matches that start there the first one in backtracking order (greedy repetition tries more repetitions
first, alternatives are tried in order). `Rx.run` lists all matches in that order. Library code: the citations name the
call sites in `/repo`.
-/

namespace Verif

/-- A pattern (syntax of the crate `regex`; the patterns are at /repo/src/comment.rs:43,46, /repo/src/fingerprint.rs:68,
/repo/src/tzabbr.rs:57-59, /repo/src/importers/nationwide_csv.rs:481, /repo/src/importers/nationwide_pdf.rs:707,710). -/
inductive Rx where
  /-- matches the empty string -/
  | eps
  /-- one character of a class -/
  | chr (p : Char → Bool)
  /-- one after the other -/
  | seq (a b : Rx)
  /-- `a|b` -/
  | alt (a b : Rx)
  /-- `a*` -/
  | star (a : Rx)
  /-- a capture group -/
  | grp (n : Nat) (a : Rx)
  /-- `^` -/
  | bol
  /-- `$` -/
  | eol

namespace Rx

/-- `a+` (the patterns of /repo/src/comment.rs:43,46 and others, see `Rx`). -/
def plus (a : Rx) : Rx := seq a (star a)
/-- `a?` (the patterns of /repo/src/comment.rs:43,46 and others, see `Rx`). -/
def opt (a : Rx) : Rx := alt a eps
/-- A literal character (the patterns of /repo/src/comment.rs:43,46 and others, see `Rx`). -/
def lit (c : Char) : Rx := chr (· == c)
/-- A literal string (the patterns of /repo/src/comment.rs:43,46 and others, see `Rx`). -/
def str : List Char → Rx
  | [] => eps
  | [c] => lit c
  | c :: cs => seq (lit c) (str cs)
/-- `a{n}` (the patterns of /repo/src/comment.rs:43,46 and others, see `Rx`). -/
def rep (a : Rx) : Nat → Rx
  | 0 => eps
  | 1 => a
  | n + 1 => seq a (rep a n)
/-- `.`: any character but a newline (the patterns of /repo/src/comment.rs:43,46 and others, see `Rx`). -/
def dot : Rx := chr (· != '\n')
/-- Several patterns one after the other (the patterns of /repo/src/comment.rs:43,46 and others, see `Rx`). -/
def cat : List Rx → Rx
  | [] => eps
  | [a] => a
  | a :: as => seq a (cat as)

/-- A point in a match: position, remaining text and captures so far (latest first) (matching by the crate `regex`, call sites
/repo/src/comment.rs:58,68, /repo/src/tzabbr.rs:62-64 and others). -/
structure St where
  pos : Nat
  rest : Str
  caps : List (Nat × Str)
  deriving DecidableEq

/-- Greedy repetition, at most `n` times; a repetition must consume something (matching by the crate `regex`, call sites
/repo/src/comment.rs:58,68, /repo/src/tzabbr.rs:62-64 and others). -/
def iter (f : St → List St) : Nat → St → List St
  | 0, s => [s]
  | n + 1, s => ((f s).filter (fun s' => s.pos < s'.pos)).flatMap (iter f n) ++ [s]

/-- All ways to match at a point, in order of preference (matching by the crate `regex`, call sites /repo/src/comment.rs:58,68,
/repo/src/tzabbr.rs:62-64 and others). -/
def run : Rx → St → List St
  | .eps, s => [s]
  | .chr p, s =>
    match s.rest with
    | c :: cs => if p c then [{ s with pos := s.pos + 1, rest := cs }] else []
    | [] => []
  | .seq a b, s => (run a s).flatMap (run b)
  | .alt a b, s => run a s ++ run b s
  | .star a, s => iter (run a) s.rest.length s
  | .grp n a, s => (run a s).map fun s' => { s' with caps := (n, s.rest.take (s'.pos - s.pos)) :: s'.caps }
  | .bol, s => if s.pos = 0 then [s] else []
  | .eol, s => if s.rest = [] then [s] else []

/-- A match: where it starts and the state at its end (matching by the crate `regex`, call sites /repo/src/comment.rs:58,68,
/repo/src/tzabbr.rs:62-64 and others). -/
structure Found where
  start : Nat
  stop : St
  deriving DecidableEq

/-- The text of a capture group, if it took part in the match (matching by the crate `regex`, call sites /repo/src/comment.rs:58,68,
/repo/src/tzabbr.rs:62-64 and others). -/
def Found.get (m : Found) (n : Nat) : Option Str := (m.stop.caps.find? (·.1 == n)).map (·.2)

/-- Leftmost match in `rest`, which starts at position `pos` of the text (matching by the crate `regex`, call sites
/repo/src/comment.rs:58,68, /repo/src/tzabbr.rs:62-64 and others). -/
def findFrom (r : Rx) (pos : Nat) : Str → Option Found
  | [] => (run r ⟨pos, [], []⟩).head?.map (⟨pos, ·⟩)
  | c :: cs =>
    match (run r ⟨pos, c :: cs, []⟩).head? with
    | some s => some ⟨pos, s⟩
    | none => findFrom r (pos + 1) cs

/-- `Regex::captures` (call sites /repo/src/comment.rs:58, /repo/src/tzabbr.rs). -/
def captures (r : Rx) (text : Str) : Option Found := findFrom r 0 text

/-- `Regex::is_match` (call sites /repo/src/fingerprint.rs:71,78, /repo/src/importers/nationwide_pdf.rs:725,728). -/
def isMatch (r : Rx) (text : Str) : Bool := (captures r text).isSome

/-- `Regex::captures_iter` (call site /repo/src/comment.rs:69): search again from the end of the last match. Simplified:
only for patterns that never match the empty string, which holds for the one pattern it is used with; after an empty
match the model stops. `fuel` bounds the number of matches. -/
def capturesFrom (r : Rx) : Nat → Nat → Str → List Found
  | 0, _, _ => []
  | fuel + 1, pos, text =>
    match findFrom r pos text with
    | none => []
    | some m => m :: if m.stop.pos ≤ m.start then [] else capturesFrom r fuel m.stop.pos m.stop.rest

/-- `Regex::captures_iter`: a text has at most as many non-empty matches as characters (call site /repo/src/comment.rs:68). -/
def capturesIter (r : Rx) (text : Str) : List Found := capturesFrom r (text.length + 1) 0 text

end Rx
end Verif
