import Verif.Proofs.Bisim2
import Verif.Spec.MergeCmd

/-!
# Merging does not depend on the headers of transactions, except for their dates
-/

namespace Verif
open Spec Spec.Book

/-- The transaction with a changed header. -/
def withHead (g : TransactionInternal → TransactionInternal) (t : TransactionPostings) : TransactionPostings := ⟨g t.trn, t.posts⟩

/-- The book with changed headers. -/
def Spec.Book.relabel (g : TransactionInternal → TransactionInternal) (J : Book) : Book := ⟨J.hdrs.map g, J.recs⟩

section Relabel
variable {g : TransactionInternal → TransactionInternal} (hg : ∀ x, (g x).raw.date = x.raw.date)
include hg

theorem verdicts_relabel (J : Book) (t : TransactionPostings) : (J.relabel g).verdicts (withHead g t) = J.verdicts t := by
  unfold verdicts
  show t.posts.map ((J.relabel g).verdict (g t.trn).raw.date) = _
  rw [hg]
  rfl

theorem undecided_relabel (J : Book) (t : TransactionPostings) : Undecided (J.relabel g) (withHead g t) ↔ Undecided J t := by
  unfold Undecided
  rw [verdicts_relabel hg]
  exact Iff.rfl

theorem dests_relabel (J : Book) (t : TransactionPostings) : (J.relabel g).dests (withHead g t) = J.dests t := by
  unfold dests
  rw [verdicts_relabel hg]

omit hg in
theorem putPosts_relabel (K : Book) (k : Nat) (d : Date) (ps : List PostingInternal) (vs : List Verdict) :
    (K.relabel g).putPosts k d ps vs = (K.putPosts k d ps vs).relabel g := by
  induction ps generalizing K vs with
  | nil => rfl
  | cons p ps ih =>
    cases vs with
    | nil => rfl
    | cons v vs =>
      have h : (K.relabel g).putPost k d p v = (K.putPost k d p v).relabel g := by cases v <;> rfl
      show ((K.relabel g).putPost k d p v).putPosts k d ps vs = ((K.putPost k d p v).putPosts k d ps vs).relabel g
      rw [h, ih]

theorem putTrn_relabel (J K : Book) (t : TransactionPostings) :
    (J.relabel g).putTrn (K.relabel g) (withHead g t) = (J.putTrn K t).relabel g := by
  unfold putTrn
  rw [dests_relabel hg, verdicts_relabel hg]
  by_cases hu : Undecided J t
  · rw [if_pos hu, if_pos ((undecided_relabel hg J t).2 hu)]
  · rw [if_neg hu, if_neg (fun h => hu ((undecided_relabel hg J t).1 h))]
    have ht : (J.relabel g).trnOf = J.trnOf := rfl
    have hd : dateOf (withHead g t) = dateOf t := hg _
    rw [ht, hd]
    cases (J.dests t).head?.bind J.trnOf with
    | some k => exact putPosts_relabel K k _ _ _
    | none =>
      simp only
      have h1 : ({ K.relabel g with hdrs := (K.relabel g).hdrs ++ [(withHead g t).trn] } : Book) = Spec.Book.relabel g { K with hdrs := K.hdrs ++ [t.trn] } := by
        unfold Spec.Book.relabel withHead
        simp
      have h2 : (K.relabel g).hdrs.length = K.hdrs.length := by simp [Spec.Book.relabel]
      rw [h1, h2]
      exact putPosts_relabel _ _ _ _ _

theorem after_relabel (J : Book) (ts : List TransactionPostings) : (J.relabel g).after (ts.map (withHead g)) = (J.after ts).relabel g := by
  unfold Book.after
  have key : ∀ K : Book, (ts.map (withHead g)).foldl ((J.relabel g).putTrn ·) (K.relabel g) = (ts.foldl (J.putTrn ·) K).relabel g := by
    induction ts with
    | nil => intro K; rfl
    | cons t ts ih =>
      intro K
      rw [List.map_cons, List.foldl_cons, List.foldl_cons, putTrn_relabel hg, ih]
  exact key J

theorem bad_relabel (J : Book) (ts : List TransactionPostings) : (J.relabel g).Bad (ts.map (withHead g)) ↔ J.Bad ts := by
  have hp : allPosts (ts.map (withHead g)) = allPosts ts := by
    unfold allPosts
    rw [List.flatMap_map]
    rfl
  have h1 : (J.relabel g).Conflicting (ts.map (withHead g)) ↔ J.Conflicting ts := by
    unfold Conflicting
    simp only [List.mem_map, exists_exists_and_eq_and, verdicts_relabel hg]
  have h2 : (J.relabel g).Split (ts.map (withHead g)) ↔ J.Split ts := by
    unfold Split
    simp only [List.mem_map, exists_exists_and_eq_and, undecided_relabel hg, dests_relabel hg]
    rfl
  have h3 : (J.relabel g).allDests (ts.map (withHead g)) = J.allDests ts := by
    unfold allDests
    rw [List.filter_map, List.flatMap_map]
    simp only [Function.comp_def, undecided_relabel hg, dests_relabel hg]
  unfold Bad HasCandidate LacksFingerprint DuplicateFp SameDest
  rw [hp, h1, h2, h3]

theorem refused_relabel (J : Book) (gs : List (List TransactionPostings)) :
    Refused (J.relabel g) (gs.map (·.map (withHead g))) ↔ Refused J gs := by
  induction gs generalizing J with
  | nil => exact Iff.rfl
  | cons ts gs ih =>
    show (J.relabel g).Bad (ts.map (withHead g)) ∨ Refused ((J.relabel g).after (ts.map (withHead g))) _ ↔ _
    rw [bad_relabel hg, after_relabel hg, ih]
    exact Iff.rfl

theorem leftOver_relabel (J : Book) (gs : List (List TransactionPostings)) :
    leftOver (J.relabel g) (gs.map (·.map (withHead g))) = (leftOver J gs).map (withHead g) := by
  induction gs generalizing J with
  | nil => rfl
  | cons ts gs ih =>
    show (ts.map (withHead g)).filter (fun t => decide (Undecided (J.relabel g) t)) ++
      leftOver ((J.relabel g).after (ts.map (withHead g))) (gs.map (·.map (withHead g))) =
        (ts.filter (fun t => decide (Undecided J t)) ++ leftOver (J.after ts) gs).map (withHead g)
    rw [after_relabel hg, ih, List.map_append, List.filter_map]
    simp only [Function.comp_def, undecided_relabel hg]

theorem foldl_after_relabel (J : Book) (gs : List (List TransactionPostings)) :
    (gs.map (·.map (withHead g))).foldl Book.after (J.relabel g) = (gs.foldl Book.after J).relabel g := by
  induction gs generalizing J with
  | nil => rfl
  | cons ts gs ih =>
    rw [List.map_cons, List.foldl_cons, List.foldl_cons, after_relabel hg, ih]

theorem journal_relabel (J : Book) : (J.relabel g).journal = J.journal.map (withHead g) := by
  have he : (J.relabel g).entries = J.entries.map (withHead g) := by
    unfold Spec.Book.entries Spec.Book.relabel
    apply List.ext_getElem?
    intro k
    simp only [List.getElem?_mapIdx, List.getElem?_map, Option.map_map]
    rfl
  have hd : ∀ t, dateOf (withHead g t) = dateOf t := fun t => hg _
  rw [journal_eq, journal_eq]
  unfold byDate
  apply eq_of_sorted_filter dateOf
  · exact sorted_mergeSort dateOf _
  · rw [List.pairwise_map]
    exact (sorted_mergeSort dateOf J.entries).imp fun {a b} h => by rw [hd, hd]; exact h
  · intro d
    rw [filter_mergeSort, he, List.filter_map, List.filter_map]
    simp only [Function.comp_def, hd]
    rw [filter_mergeSort]

end Relabel

end Verif
