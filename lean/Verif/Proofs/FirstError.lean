import Verif.Proofs.History
import Verif.Spec.FirstError

/-!
# The error of a merge call
-/

namespace Verif
open Spec Spec.Book

/-- The set of fingerprints seen so far. -/
def SeenIs (seen : TagSet) (earlier : List PostingInternal) : Prop := ∀ f, f ∈ seen ↔ ∃ q ∈ earlier, f ∈ fps q

theorem processPosts_error {m : Merger} {J : Book} (hR : R m J) (h : HashOrder) (d : Date)
    (ps : List PostingInternal) (n : Nat) (seen : TagSet) (earlier : List PostingInternal) (hs : SeenIs seen earlier)
    (a : MergeActions) :
    (∃ e, J.postsError d earlier ps = some e ∧ m.processPosts h d ps n seen (.value a) = .error e) ∨
    (J.postsError d earlier ps = none ∧
      ∃ n' seen' acc, m.processPosts h d ps n seen (.value a) = .ok (n', seen', acc) ∧ SeenIs seen' (earlier ++ ps)) := by
  induction ps generalizing n seen earlier a with
  | nil => right; exact ⟨rfl, n, seen, _, rfl, by simpa using hs⟩
  | cons p ps ih =>
    unfold Merger.processPosts postsError postError
    rw [fromPostingInternal_eq]
    have hc : (∃ t ∈ (tagsOf p).toList, IsCand t) ↔ ∃ t ∈ tagsOf p, IsCand t := by simp
    by_cases c1 : ∃ t ∈ tagsOf p, IsCand t
    · left
      exact ⟨.candidateTag, by rw [if_pos (hc.2 c1)], by rw [if_pos c1]; rfl⟩
    rw [if_neg c1, if_neg (fun hh => c1 (hc.1 hh))]
    by_cases c2 : fps p = []
    · left; exact ⟨.noFingerprint, by rw [if_pos c2], by rw [if_pos c2]; rfl⟩
    rw [if_neg c2, if_neg c2]
    have hperm := fingerprintsFromComment_perm h (.inputTags n) p
    have hnd : ((Input.mk d p).iterFingerprints h (.inputTags n)).Nodup := hperm.nodup_iff.2 (fps_nodup p)
    have hmem : ∀ f, f ∈ (Input.mk d p).iterFingerprints h (.inputTags n) ↔ f ∈ fps p := fun f => hperm.mem_iff
    rcases checkSeen_eq _ hnd seen with ⟨h1, f, hf, hfs⟩ | ⟨seen1, h1, h2, h3⟩
    · left
      obtain ⟨q, hq, hfq⟩ := (hs f).1 hfs
      refine ⟨.duplicateFingerprint, by rw [if_pos ⟨q, hq, f, hfq, (hmem f).1 hf⟩], ?_⟩
      simp only [bind, Except.bind, h1]
    have hnd : ¬ ∃ q ∈ earlier, SharesFp q p := by
      rintro ⟨q, hq, f, hf, hf'⟩
      exact h2 f ((hmem f).2 hf') ((hs f).2 ⟨q, hq, hf⟩)
    rw [if_neg hnd]
    simp only [bind, Except.bind, h1]
    by_cases c3 : J.verdict d p = .conflict
    · left
      exact ⟨.multipleDestinations, by rw [if_pos c3], by rw [determine_conflict hR h _ c3]⟩
    rw [if_neg c3, determine_ok hR h _ c3]
    simp only [MergeActionsAccumulator.push, MutCell.mapValue]
    have hs1 : SeenIs seen1 (earlier ++ [p]) := by
      intro f
      rw [h3, hmem, hs]
      simp only [List.mem_append, List.mem_singleton]
      constructor
      · rintro (⟨q, hq, hf⟩ | hf)
        · exact ⟨q, Or.inl hq, hf⟩
        · exact ⟨p, Or.inr rfl, hf⟩
      · rintro ⟨q, hq | rfl, hf⟩
        · exact Or.inl ⟨q, hq, hf⟩
        · exact Or.inr hf
    have := ih (n + 1) seen1 (earlier ++ [p]) hs1
      (MergeActionsAccumulator.pushInner ⟨d, J.handBackPost (pickFp h J) d p⟩ (actionOf (J.verdict d p)) a)
    rw [List.append_assoc, List.singleton_append] at this
    exact this

theorem toTransactionMergeAction_error {m : Merger} {J : Book} (hR : R m J) (h : HashOrder) (n : Nat) (seen : TagSet)
    (t : TransactionPostings) (earlier : List PostingInternal) (hs : SeenIs seen earlier) :
    (∃ e, J.postsError (dateOf t) earlier t.posts = some e ∧ m.toTransactionMergeAction h n seen t = .error e) ∨
    (J.postsError (dateOf t) earlier t.posts = none ∧ SplitTrn J t ∧
      m.toTransactionMergeAction h n seen t = .error .splitTransaction) ∨
    (J.postsError (dateOf t) earlier t.posts = none ∧ ¬ SplitTrn J t ∧
      ∃ n' seen', m.toTransactionMergeAction h n seen t = .ok (n', seen', trnPlan J h t) ∧
        SeenIs seen' (earlier ++ t.posts)) := by
  have hmono : ∀ seen', (∀ f, f ∈ seen' ↔ f ∈ seen ∨ ∃ p ∈ t.posts, f ∈ fps p) → SeenIs seen' (earlier ++ t.posts) := by
    intro seen' hg f
    rw [hg, hs]
    simp only [List.mem_append]
    constructor
    · rintro (⟨q, hq, hf⟩ | ⟨q, hq, hf⟩)
      · exact ⟨q, Or.inl hq, hf⟩
      · exact ⟨q, Or.inr hq, hf⟩
    · rintro ⟨q, hq | hq, hf⟩
      · exact Or.inl ⟨q, hq, hf⟩
      · exact Or.inr ⟨q, hq, hf⟩
  rcases processPosts_error hR h (dateOf t) t.posts n seen earlier hs (.actions []) with ⟨e, h1, h2⟩ | ⟨h1, n1, seen1, acc, h2, h3⟩
  · left
    refine ⟨e, h1, ?_⟩
    unfold Merger.toTransactionMergeAction
    have hne : ¬ t.posts.isEmpty = true := by
      intro he
      rw [List.isEmpty_iff] at he
      rw [he] at h1; cases h1
    rw [if_neg hne]
    simp only [TrnHolder.fromTransactionInternal, bind, Except.bind]
    unfold MergeActionsAccumulator.new MutCell.new
    rw [h2]
  · right
    rcases toTransactionMergeAction_spec hR h n seen t with ⟨e, he, hte⟩ | ⟨n', seen', he, g1, g2, g3, g4, g5, g6⟩
    · left
      cases hte with
      | post hpe =>
        exfalso
        rcases processPosts_spec hR h (dateOf t) t.posts n seen (.actions []) with ⟨e', he', _⟩ | ⟨_, _, _, g1, g2, g3, g4, _⟩
        · rw [h2] at he'; cases he'
        · cases hpe with
          | cand p hp x hx hc => exact (g1 p hp).1 x hx hc
          | nofp p hp hf => exact (g1 p hp).2 hf
          | seen p hp f hf hs => exact g3 p hp f hf hs
          | dup hd => exact hd g2
          | multi p hp hv => exact g4 p hp hv
      | split hu i hi j hj hne => exact ⟨h1, ⟨hu, i, hi, j, hj, hne⟩, he⟩
    · right
      refine ⟨h1, ?_, n', seen', he, hmono seen' g6⟩
      rintro ⟨hu, i, hi, j, hj, hne⟩
      exact hne (g5 hu i hi j hj)

theorem makePendingLoop_error {m : Merger} {J : Book} (hR : R m J) (h : HashOrder) (ts : List TransactionPostings)
    (n : Nat) (seen : TagSet) (earlier : List PostingInternal) (hs : SeenIs seen earlier) :
    (∃ e, J.trnsError earlier ts = some e ∧ m.makePendingLoop h ts n seen = .error e) ∨
    (J.trnsError earlier ts = none ∧ m.makePendingLoop h ts n seen = .ok (ts.map (trnPlan J h))) := by
  induction ts generalizing n seen earlier with
  | nil => right; exact ⟨rfl, rfl⟩
  | cons t ts ih =>
    unfold Merger.makePendingLoop trnsError
    simp only [bind, Except.bind]
    rcases toTransactionMergeAction_error hR h n seen t earlier hs with
      ⟨e, h1, h2⟩ | ⟨h1, h2, h3⟩ | ⟨h1, h2, n', seen', h3, h4⟩
    · left; rw [h1, h2]; exact ⟨e, rfl, rfl⟩
    · left; rw [h1, h3]; exact ⟨.splitTransaction, if_pos h2, rfl⟩
    · rw [h1, h3]
      simp only [h2, if_false]
      rcases ih n' seen' _ h4 with ⟨e, g1, g2⟩ | ⟨g1, g2⟩
      · left; rw [g2]; exact ⟨e, g1, rfl⟩
      · right; rw [g2]; exact ⟨g1, rfl⟩

/-- The error of a merge call is the one that the specification names. -/
theorem merge_error_iff {m : Merger} {J : Book} (hR : R m J) (h : HashOrder) (ts : List TransactionPostings) (e : MergeErr) :
    (m.merge h ts).1 = .error e ↔ J.error? ts = some e := by
  have h0 : SeenIs ∅ [] := by intro f; simp
  have hloop := makePendingLoop_error hR h ts 0 ∅ [] h0
  unfold Spec.Book.error?
  rcases hloop with ⟨e', h1, h2⟩ | ⟨h1, h2⟩
  · rw [h1]
    have : m.merge h ts = (.error e', m) := by
      unfold Merger.merge Merger.makePending; rw [h2]
    rw [this]; simp
  · rw [h1]
    rcases checkPending_spec hR h ts with ⟨g1, g2⟩ | ⟨g1, g2⟩
    · have : m.merge h ts = (.error .sameDestination, m) := by
        unfold Merger.merge Merger.makePending; rw [h2]; simp only [g1]
      rw [this]; simp [g2]
    · rcases merge_spec hR h ts with ⟨hb, e', he', hm⟩ | ⟨hb, m', he', _⟩
      · exfalso
        rcases makePending_spec hR h ts with ⟨e2, he2, _⟩ | ⟨_, hck⟩
        · unfold Merger.makePending at he2; rw [h2] at he2; cases he2
        · rcases hb with hb | hb | hb | hb | hb | hb
          · obtain ⟨p, hp, t, ht, hc⟩ := hb; exact (hck.ok p hp).1 t ht hc
          · obtain ⟨p, hp, hf⟩ := hb; exact (hck.ok p hp).2 hf
          · exact hb hck.disjoint
          · exact hck.noConflict hb
          · exact hck.noSplit hb
          · exact g2 hb
      · rw [he']; simp [g2]

end Verif
