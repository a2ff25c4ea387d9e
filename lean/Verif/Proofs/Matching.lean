import Verif.Proofs.Outcome

/-!
# Consequences of matching for the journal
-/

namespace Verif
open Spec Spec.Book

theorem pairwise_recs {J : Book} (hw : J.WF) : J.recs.Pairwise (fun r s => ¬ SharesFp r.post s.post) := by
  rw [List.pairwise_iff_getElem]
  intro i j hi hj hij hs
  have := hw.unique i j _ _ (List.getElem?_eq_getElem hi) (List.getElem?_eq_getElem hj) hs
  omega

theorem pairwise_journal {J : Book} (hw : J.WF) : (postingsOf J.journal).Pairwise (fun p q => ¬ SharesFp p q) := by
  rw [(journal_posts_perm hw).pairwise_iff (fun {x y} hxy hyx => hxy (sharesFp_comm.1 hyx)), List.pairwise_map]
  exact pairwise_recs hw

/-- In a journal, a fingerprint determines the posting and its position. -/
theorem journal_index_unique {J : Book} (hw : J.WF) {i j : Nat} {p q : PostingInternal}
    (hi : (postingsOf J.journal)[i]? = some p) (hj : (postingsOf J.journal)[j]? = some q) (hs : SharesFp p q) : i = j := by
  have hp := pairwise_journal hw
  rw [List.pairwise_iff_getElem] at hp
  obtain ⟨hi', rfl⟩ := List.getElem?_eq_some_iff.1 hi
  obtain ⟨hj', rfl⟩ := List.getElem?_eq_some_iff.1 hj
  rcases Nat.lt_trichotomy i j with h | h | h
  · exact absurd hs (hp i j hi' hj' h)
  · exact h
  · exact absurd (sharesFp_comm.1 hs) (hp j i hj' hi' h)

/-- In a good input, a posting belongs to one transaction. -/
theorem Good.trn_eq {J : Book} {ts : List TransactionPostings} (hg : Good J ts) {t t' : TransactionPostings} (ht : t ∈ ts)
    (ht' : t' ∈ ts) {p : PostingInternal} (hp : p ∈ t.posts) (hp' : p ∈ t'.posts) : t = t' := by
  have hn := hg.nodup
  unfold allPosts at hn
  rw [List.nodup_flatMap] at hn
  by_contra hne
  have : Std.Symm (Function.onFun List.Disjoint (fun x : TransactionPostings => x.posts)) :=
    ⟨fun _ _ hab _ hx hy => hab hy hx⟩
  exact hn.2.forall ht ht' hne hp hp'

/-- A posting that could not be decided is not in the book afterwards. -/
theorem Good.ambiguous_absent {J : Book} {ts : List TransactionPostings} (hg : Good J ts) {t : TransactionPostings}
    (ht : t ∈ ts) {p : PostingInternal} (hp : p ∈ t.posts) (hf : J.fpHits p = []) (hu : Undecided J t) {r : Rec}
    (hr : r ∈ (J.after ts).recs) : ¬ SharesFp r.post p := by
  have hpa : p ∈ allPosts ts := mem_allPosts.2 ⟨t, ht, hp⟩
  have key : ∀ t' ∈ ts, ¬ Undecided J t' → ∀ q ∈ t'.posts, ¬ SharesFp q p := by
    intro t' ht' hu' q hq hs
    have := hg.eq_of_shares (mem_allPosts.2 ⟨t', ht', hq⟩) hpa hs
    subst this
    rw [hg.trn_eq ht ht' hp hq] at hu
    exact hu' hu
  rcases mem_after.1 hr with ⟨i, hi, rfl⟩ | hr
  · rintro ⟨f, hf1, hf2⟩
    rcases mem_fps_foldl.1 hf1 with h | ⟨q, hq, hfq⟩
    · have : i ∈ J.fpHits p := mem_fpHits.2 ⟨_, List.getElem?_eq_getElem hi, f, h, hf2⟩
      rw [hf] at this; cases this
    · obtain ⟨t', ht', hu', hq', _⟩ := mem_hits.1 hq
      exact key t' ht' hu' q hq' ⟨f, hfq, hf2⟩
  · obtain ⟨t', ht', hu', hp', _⟩ := mem_news hr
    exact key t' ht' hu' _ hp'

theorem undecided_iff {J : Book} {t : TransactionPostings} :
    Undecided J t ↔ t.posts = [] ∨ ∃ p ∈ t.posts, J.fpHits p = [] ∧ 2 ≤ (J.softHits (dateOf t) p).length := by
  unfold Undecided verdicts
  apply or_congr_right
  constructor
  · rintro ⟨v, hv, ha⟩
    obtain ⟨p, hp, rfl⟩ := List.mem_map.1 hv
    cases hw : J.verdict (dateOf t) p with
    | ambiguous is =>
      obtain ⟨h1, h2, h3⟩ := ambiguous_softHits hw
      exact ⟨p, hp, h1, h2 ▸ h3⟩
    | new => rw [hw] at ha; cases ha
    | into _ => rw [hw] at ha; cases ha
    | conflict => rw [hw] at ha; cases ha
  · rintro ⟨p, hp, h1, h2⟩
    refine ⟨_, List.mem_map.2 ⟨p, hp, rfl⟩, ?_⟩
    unfold verdict
    rw [h1]
    match hl : J.softHits (dateOf t) p, h2 with
    | _ :: _ :: _, _ => rfl

/-- The verdict on a posting that shares a fingerprint with exactly one record. -/
theorem verdict_of_fp {J : Book} {d : Date} {p : PostingInternal} {i : Nat} {r : Rec} (hr : J.recs[i]? = some r)
    (hs : SharesFp r.post p) (hnc : J.verdict d p ≠ .conflict) : J.verdict d p = .into i := by
  have hm : i ∈ J.fpHits p := mem_fpHits.2 ⟨r, hr, hs⟩
  unfold verdict at hnc ⊢
  split
  · rename_i j hj; rw [hj] at hm; simp at hm; rw [hm]
  · rename_i h; rw [h] at hnc; simp at hnc
  · rename_i h; rw [h] at hm; cases hm

/-! ### Sublists of an input -/

theorem sublist_flatMap {α β : Type} (f : α → List β) {l l' : List α} (hs : l.Sublist l') :
    (l.flatMap f).Sublist (l'.flatMap f) := by
  induction hs with
  | slnil => exact List.Sublist.refl _
  | cons a _ ih => rw [List.flatMap_cons]; exact ih.trans (List.sublist_append_right _ _)
  | cons_cons a _ ih => rw [List.flatMap_cons, List.flatMap_cons]; exact (List.Sublist.refl _).append ih


theorem good_sublist {J : Book} {ts ts' : List TransactionPostings} (hs : ts.Sublist ts') (hg : Good J ts') : Good J ts where
  ok := fun p hp => by
    obtain ⟨t, ht, hpt⟩ := mem_allPosts.1 hp
    exact hg.ok p (mem_allPosts.2 ⟨t, hs.subset ht, hpt⟩)
  disjoint := hg.disjoint.sublist (by unfold allPosts; exact sublist_flatMap _ hs)
  noConflict := fun ⟨t, ht, hv⟩ => hg.noConflict ⟨t, hs.subset ht, hv⟩
  noSplit := fun ⟨t, ht, hx⟩ => hg.noSplit ⟨t, hs.subset ht, hx⟩
  noSame := by
    refine hg.noSame.sublist ?_
    unfold allDests
    exact sublist_flatMap _ (hs.filter _)

theorem hits_sublist {J : Book} {ts ts' : List TransactionPostings} (hs : ts.Sublist ts') (i : Nat) :
    (J.hits ts i).Sublist (J.hits ts' i) := by
  unfold hits; exact sublist_flatMap _ hs

theorem handedBack_sublist {J : Book} {ts ts' : List TransactionPostings} (hs : ts.Sublist ts') (pick : Nat → Str) :
    (J.handedBack pick ts).Sublist (J.handedBack pick ts') := by
  unfold handedBack; exact (hs.filter _).map _

/-! ### Only the decided transactions matter -/

theorem putTrn_undecided {J₀ J : Book} {t : TransactionPostings} (hu : Undecided J₀ t) : J₀.putTrn J t = J := by
  unfold putTrn; rw [if_pos hu]

theorem after_filter (J : Book) (ts : List TransactionPostings) :
    J.after (ts.filter (fun t => ¬ Undecided J t)) = J.after ts := by
  unfold after
  generalize hK : J = K
  conv_lhs => rw [← hK]
  conv_rhs => rw [← hK]
  subst hK
  suffices ∀ K : Book, (ts.filter (fun t => ¬ Undecided J t)).foldl (J.putTrn ·) K = ts.foldl (J.putTrn ·) K from this J
  induction ts with
  | nil => intro K; rfl
  | cons t ts ih =>
    intro K
    by_cases hu : Undecided J t
    · rw [List.filter_cons_of_neg (by simpa using hu), List.foldl_cons, putTrn_undecided hu]
      exact ih K
    · rw [List.filter_cons_of_pos (by simpa using hu), List.foldl_cons, List.foldl_cons]
      exact ih _

end Verif
