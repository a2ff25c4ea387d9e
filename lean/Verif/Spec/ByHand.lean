import Verif.Spec.Outcome

/-!
# Specification: what a user does with the unmerged postings

README "Matching algorithm", 2: "It is left for the user to select which of the existing postings it should be merged
into by editing the unmerged output file: removing the `candidate-` prefix from one of the tags on one of the unmerged
postings to identify which destination tag it should merge into; removing the other `candidate-$FINGERPRINT` tags
completely."
-/

namespace Verif.Spec

/-- The user has removed the prefix from the tag `candidate-f` of `q` and removed all other candidate tags. Apart from
tags they may have edited anything. -/
def Chosen (f : Str) (q q' : PostingInternal) : Prop :=
  candPrefix ++ f ∈ tagsOf q ∧ ∀ x, x ∈ tagsOf q' ↔ x = f ∨ (x ∈ tagsOf q ∧ ¬ IsCand x)

/-- The user has removed all candidate tags of `q`, if there were any, and chosen nothing. -/
def Stripped (q q' : PostingInternal) : Prop :=
  q'.raw = q.raw ∧ ∀ x, x ∈ tagsOf q' ↔ x ∈ tagsOf q ∧ ¬ IsCand x

/-- The user has edited `q` in one of the two ways. -/
def Edited (q q' : PostingInternal) : Prop := (∃ f, Chosen f q q') ∨ Stripped q q'

/-- No two postings of the list have a fingerprint in common. -/
def NoShare (ps : List PostingInternal) : Prop := ps.Pairwise (fun p q => ¬ SharesFp p q)
instance (ps) : Decidable (NoShare ps) := by unfold NoShare; infer_instance

/-- What becomes of the journal posting `c` when each fingerprint of the list has been chosen for the posting beside
it: it takes in the posting whose chosen fingerprint it bears. -/
def taken (picks : List (Str × PostingInternal)) (c : PostingInternal) : PostingInternal :=
  match picks.find? (fun x => decide (x.1 ∈ fps c)) with
  | some x => absorb c x.2
  | none => c

/-- The chosen fingerprints are on different postings of one transaction of the journal. -/
def FitTogether (js : List TransactionPostings) (fs : List Str) : Prop :=
  ∃ T ∈ js, (∀ f ∈ fs, ∃ c ∈ T.posts, f ∈ fps c) ∧ fs.Pairwise (fun f g => ∀ c ∈ T.posts, ¬ (f ∈ fps c ∧ g ∈ fps c))
instance (js fs) : Decidable (FitTogether js fs) := by unfold FitTogether; infer_instance

/-- A transaction that the user has edited: its header, and its postings, each with the fingerprint that was chosen for it. -/
structure Resolution where
  hdr : TransactionInternal
  picks : List (Str × PostingInternal)

/-- The edited transaction. -/
def Resolution.trn (e : Resolution) : TransactionPostings := ⟨e.hdr, e.picks.map (·.2)⟩

/-- The edited postings of all transactions, with the fingerprints that were chosen for them. -/
def picksOf (rs : List Resolution) : List (Str × PostingInternal) := rs.flatMap (·.picks)

/-- The choices can be carried out in the journal `js`. -/
structure Resolves (js : List TransactionPostings) (rs : List Resolution) : Prop where
  /-- no two edited postings have a fingerprint in common -/
  noShare : NoShare ((picksOf rs).map (·.2))
  /-- the edited postings are known under the chosen fingerprints only -/
  known : ∀ x ∈ picksOf rs, ∀ c ∈ postingsOf js, SharesFp c x.2 → x.1 ∈ fps c
  /-- the fingerprints that were chosen for a transaction are on different postings of one transaction -/
  fit : ∀ e ∈ rs, FitTogether js (e.picks.map (·.1))
  /-- no posting was chosen twice -/
  apart : ((picksOf rs).map (·.1)).Pairwise (fun f g => ∀ c ∈ postingsOf js, ¬ (f ∈ fps c ∧ g ∈ fps c))

end Verif.Spec
