import Verif.Spec.Days
import Verif.Spec.Session
import Verif.Spec.Comment

/-!
# Downloads of whole days, in files
-/

namespace Verif.Spec
open Verif Spec.Book

/-- The transactions in a file that has nothing else in it. -/
def contentOf (sys : Sys) (files : Nat → Option Bytes) (q : Str) : Option (List TransactionPostings) :=
  (ledgerAt sys files false (.path q)).bind TransactionPostings.fromLedger

/-- No transaction has a note of its source. -/
def NoSources (ts : List TransactionPostings) : Prop := ∀ t ∈ ts, srcKey ∉ t.trn.comment.valueTags

/-- All comments are plain (see `Plain`). -/
def PlainComments (ts : List TransactionPostings) : Prop := ∀ t ∈ ts, Plain t.trn.comment ∧ ∀ p ∈ t.posts, Plain p.comment

/-- The run merges the files `qs` into the journal `p`; no operation fails and nothing stops it. -/
structure MergesInto (p : Str) (s : Step) (qs : List Str) : Prop where
  cmd : s.cmd = .merge ⟨.path p :: qs.map .path, none, .path p⟩
  fault : ∀ n, s.fault n = none
  killed : s.killed = none

/-- The text of a journal. -/
def textOf (sys : Sys) (j : List TransactionPostings) : Str := sys.render (TransactionPostings.intoLedger HashOrder.sorted j)

/-- The journal is parsed as what was printed. -/
def ParsedBack (sys : Sys) (j : List TransactionPostings) : Prop :=
  sys.parse (textOf sys j) = some (TransactionPostings.intoLedger HashOrder.sorted j)

end Verif.Spec
