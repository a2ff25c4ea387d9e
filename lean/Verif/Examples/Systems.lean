import Verif.Examples.Journals
import Verif.Model.Commands
import Verif.Spec.Sources

/-!
# Systems used in the examples

In the examples a ledger text is a list of letters, each standing for a transaction; other letters are not ledgers.
-/

namespace Verif.Ex
open Spec

/-- The transaction that a letter stands for. -/
def letterTrn : Char → Option TransactionPostings
  | 'a' => some (trn 2 "shop" [post "assets:a" (-500) ["fp-a1"], post "expenses" 500 ["fp-a2", "unknown-account"]])
  | 'b' => some (trn 1 "cafe" [post "assets:a" (-200) ["fp-a3"], post "expenses:food" 200 ["fp-a4"]])
  | 'c' => some (trn 2 "transfer" [post "assets:b" 500 ["fp-b1"]])
  | 't' => some (trn 3 "bus" [post "expenses:bus" 150 ["fp-t1"]])
  | 'u' => some (trn 3 "bus back" [post "expenses:bus" 150 ["fp-t2"]])
  | 'v' => some (trn 3 "ticket" [post "expenses:bus" 150 ["fp-c1"]])
  | 'n' => some (trn 4 "none" [post "expenses" 150 [], post "bank" (-150) ["fp-n1"], post "fee" 1 []])
  | _ => none

/-- The raw transaction, with fingerprints as they are written. -/
def rawOf (t : TransactionPostings) : Transaction :=
  { t.trn.raw with postings := t.posts.map fun p =>
      { p.raw with comment := if p.comment.tags.toList = [] then none else some (':' :: p.comment.tags.toList.flatMap (· ++ [':'])) } }

/-- Parsing texts of letters. -/
def parseLetters (s : Str) : Option Ledger := (s.mapM letterTrn).map fun ts => ⟨ts.map (fun t => .transaction (rawOf t))⟩

/-- Rendering a ledger: one letter for each transaction, the first one of the description. -/
def renderLetters (l : Ledger) : Str := l.items.filterMap fun
  | .transaction t => t.description.head?
  | _ => none

/-- A system: the file a path names is given by its first letter; files 97 and 98 (`a`, `b`) exist, with the given
contents. -/
def system (a b : String) (fault : Nat → Option Nat) : Sys where
  file p := (p.head?.map (·.toNat)).getD 0
  start n := if n = 97 then some (encodeUtf8 a.toList) else if n = 98 then some (encodeUtf8 b.toList) else none
  stdin := encodeUtf8 "t".toList
  fault := fault
  showPath p := p
  parse := parseLetters
  render := renderLetters
  random n := ['r', Char.ofNat (97 + n)]

/-- A file argument. -/
def file (s : String) : FileSpec := .path s.toList

end Verif.Ex
