import Verif.Spec.Book
import Verif.Model.MergePosting

/-!
# Specification: which error a merge call reports

The input is read in order; the first problem found is reported. Two input postings that match the same existing
posting are only noticed once the whole input has been read.
-/

namespace Verif.Spec.Book

/-- The problem with one posting, if any; `earlier` are the postings read before it. -/
def postError (J : Book) (d : Date) (earlier : List PostingInternal) (p : PostingInternal) : Option MergeErr :=
  if ∃ t ∈ (tagsOf p).toList, IsCand t then some .candidateTag
  else if fps p = [] then some .noFingerprint
  else if ∃ q ∈ earlier, SharesFp q p then some .duplicateFingerprint
  else if J.verdict d p = .conflict then some .multipleDestinations
  else none

/-- The first problem with the postings of a transaction. -/
def postsError (J : Book) (d : Date) : List PostingInternal → List PostingInternal → Option MergeErr
  | _, [] => none
  | earlier, p :: ps =>
    match J.postError d earlier p with
    | some e => some e
    | none => postsError J d (earlier ++ [p]) ps

/-- The postings of the transaction go into records of different transactions. -/
def SplitTrn (J : Book) (t : TransactionPostings) : Prop :=
  ¬ Undecided J t ∧ ∃ i ∈ J.dests t, ∃ j ∈ J.dests t, J.trnOf i ≠ J.trnOf j
instance (J t) : Decidable (SplitTrn J t) := by unfold SplitTrn; infer_instance

/-- The first problem with the transactions. -/
def trnsError (J : Book) : List PostingInternal → List TransactionPostings → Option MergeErr
  | _, [] => none
  | earlier, t :: ts =>
    match J.postsError (dateOf t) earlier t.posts with
    | some e => some e
    | none => if SplitTrn J t then some .splitTransaction else trnsError J (earlier ++ t.posts) ts

instance (J ts) : Decidable (SameDest J ts) := by unfold SameDest; infer_instance

/-- The error that a merge call reports, if any. -/
def error? (J : Book) (ts : List TransactionPostings) : Option MergeErr :=
  match J.trnsError [] ts with
  | some e => some e
  | none => if J.SameDest ts then some .sameDestination else none

end Verif.Spec.Book
