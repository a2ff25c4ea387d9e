import Verif.Spec.RulesMerge
import Verif.Spec.Again

/-!
# Specification: a journal that was edited by hand
-/

namespace Verif.Spec
open Verif Book

/-- Every transaction of `A` can be found in `B` by its fingerprints: those of one posting are on one posting, those of one transaction are in one
transaction, and no posting of `B` has fingerprints of two postings of `A`. Nothing else need be the same. -/
structure Keeps (A B : List TransactionPostings) : Prop where
  together : ∀ t ∈ A, ∃ u ∈ B, ∀ p ∈ t.posts, ∃ q ∈ u.posts, ∀ f ∈ fps p, f ∈ fps q
  apart : ∀ p ∈ allPosts A, ∀ p' ∈ allPosts A, ∀ q ∈ allPosts B, SharesFp q p → SharesFp q p' → p = p'

/-- Every transaction of `A` is recognised in `B`: each posting has fingerprints of one posting, those of one transaction of postings of one
transaction, and no two postings have fingerprints of the same posting. Of the fingerprints of a posting, some can be missing in `B`. -/
structure Recognised (A B : List TransactionPostings) : Prop where
  together : ∀ t ∈ A, ∃ u ∈ B, ∀ p ∈ t.posts, ∃ q ∈ u.posts, SharesFp q p
  one : ∀ p ∈ allPosts A, ∀ q ∈ allPosts B, ∀ q' ∈ allPosts B, SharesFp q p → SharesFp q' p → q = q'
  apart : ∀ p ∈ allPosts A, ∀ p' ∈ allPosts A, ∀ q ∈ allPosts B, SharesFp q p → SharesFp q p' → p = p'

/-- Every posting of `A` has a fingerprint of some posting of `B`. -/
def AllKnown (A B : List TransactionPostings) : Prop := ∀ p ∈ allPosts A, ∃ q ∈ allPosts B, SharesFp q p

/-- A posting after those of a file that have fingerprints of it were merged into it. -/
def broughtIn (g : List TransactionPostings) (q : PostingInternal) : PostingInternal :=
  ((allPosts g).filter fun p => SharesFp q p).foldl absorb q

/-- Transactions after the postings of a file were merged into those that have their fingerprints; there is nothing else in the file. -/
def broughtInto (js g : List TransactionPostings) : List TransactionPostings :=
  js.map fun u => { u with posts := u.posts.map (broughtIn g) }

/-- The source posting has nothing to tell that the destination does not have already. -/
structure NothingNew (d s : PostingInternal) : Prop where
  balance : d.raw.balance = none → s.raw.balance = none
  status : strongest d.raw.status s.raw.status = d.raw.status
  lines : ∀ l ∈ s.comment.lines, l ∈ d.comment.lines
  tags : ∀ t ∈ tagsOf s, t ≠ unknownTag → t ∈ tagsOf d
  unknown : UnknownAccount d → UnknownAccount s
  values : ∀ (k v : Str), s.comment.valueTags[k]? = some v → d.comment.valueTags[k]? = some v

end Verif.Spec
