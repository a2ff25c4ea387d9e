import Verif.Model.Merger
import Verif.Spec.Book
import Mathlib.Data.List.Forall2

/-!
# Histories of merge calls
-/

namespace Verif.Spec

/-- A history: the merge calls made on one merger, each with its own hash iteration orders. -/
abbrev History := List (HashOrder × List TransactionPostings)

/-- Continue a history on the merger `m`. A failing call does not end the history. -/
def continueFrom (m : Merger) (calls : History) : Merger := calls.foldl (fun m c => (m.merge c.1 c.2).2) m

/-- The merger after a history that starts with a fresh merger. -/
def run (calls : History) : Merger := continueFrom Merger.new calls

/-- The inputs of a history. -/
def inputs (calls : History) : List (List TransactionPostings) := calls.map (·.2)

/-- Every call of the history, made on `m`, succeeds and leaves nothing unmerged. -/
def AllMerged : Merger → History → Prop
  | _, [] => True
  | m, (h, ts) :: calls => (m.merge h ts).1 = .ok [] ∧ AllMerged (m.merge h ts).2 calls

/-- The postings of a journal in order. -/
abbrev postingsOf (js : List TransactionPostings) : List PostingInternal := Book.allPosts js

/-- What merging may do to a posting that is in the journal: `p` before, `p'` after. -/
structure Grown (p p' : PostingInternal) : Prop where
  amount : p'.raw.amount = p.raw.amount
  reality : p'.raw.reality = p.raw.reality
  balance : p.raw.balance = none ∨ p'.raw.balance = p.raw.balance
  status : p'.raw.status = p.raw.status ∨ p.raw.status = none ∨
    (p.raw.status = some .pending ∧ p'.raw.status = some .cleared)
  account : p'.raw.account = p.raw.account ∨ UnknownAccount p
  unknown : UnknownAccount p' → UnknownAccount p
  fingerprints : ∀ f ∈ fps p, f ∈ fps p'
  tags : ∀ t ∈ tagsOf p, t = unknownTag ∨ t ∈ tagsOf p'
  lines : p.comment.lines <+: p'.comment.lines
  keys : ∀ k ∈ p.comment.valueTags, k ∈ p'.comment.valueTags

/-- What merging may do to a transaction that is in the journal: the header stays, the postings stay
in order (each possibly `Grown`), and postings may be appended. -/
def Extended (t t' : TransactionPostings) : Prop :=
  t'.trn = t.trn ∧ ∃ old new, t'.posts = old ++ new ∧ List.Forall₂ Grown t.posts old

end Verif.Spec
