import Verif.Spec.History

/-!
# Specification: what a merge call hands back
-/

namespace Verif.Spec

/-- `q` is the posting `p` with one candidate tag for each of the postings `named`: each tag is `candidate-` followed by
a fingerprint of that posting. Nothing else is different. -/
structure Annotated (named : List PostingInternal) (p q : PostingInternal) : Prop where
  raw : q.raw = p.raw
  lines : q.comment.lines = p.comment.lines
  valueTags : q.comment.valueTags = p.comment.valueTags
  tags : ∃ names : List Str, List.Forall₂ (fun c f => f ∈ fps c) named names ∧
    ∀ t, t ∈ tagsOf q ↔ t ∈ tagsOf p ∨ ∃ f ∈ names, t = candPrefix ++ f

/-- `u` is the transaction `t` handed back: the same header, the same postings in the same order, each possibly with
candidate tags that name postings of the journal `js`. -/
def HandedBack (js : List TransactionPostings) (t u : TransactionPostings) : Prop :=
  u.trn = t.trn ∧ List.Forall₂ (fun p q => ∃ named, (∀ c ∈ named, c ∈ postingsOf js) ∧ Annotated named p q) t.posts u.posts

/-- The records of the book that are filed under `d` and softly match `p`, in order of arrival. -/
def Book.softMatches (J : Book) (d : Date) (p : PostingInternal) : List PostingInternal :=
  (J.recs.filter (fun r => r.date = d ∧ SoftMatch r.post p)).map (·.post)

/-- `p` shares no fingerprint with the book and softly matches several records: only a human can say which one it is. -/
def Book.Unclear (J : Book) (d : Date) (p : PostingInternal) : Prop :=
  (∀ r ∈ J.recs, ¬ SharesFp r.post p) ∧ 2 ≤ (J.softMatches d p).length
instance (J d p) : Decidable (Book.Unclear J d p) := by unfold Book.Unclear; infer_instance

end Verif.Spec
