import Verif.Proofs.Settled

/-!
# The journal of a book
-/

namespace Verif
open Spec Spec.Book

/-- The transactions of the book in order of arrival. -/
def Spec.Book.entries (J : Book) : List TransactionPostings :=
  J.hdrs.mapIdx fun k hdr => ⟨hdr, (J.recs.filter (·.trn = k)).map (·.post)⟩

/-- Sorting by date, stably. -/
def byDate (l : List TransactionPostings) : List TransactionPostings :=
  l.mergeSort fun a b => (compare (dateOf a) (dateOf b)).isLE

theorem journal_eq (J : Book) : J.journal = byDate J.entries := rfl

theorem journal_perm (J : Book) : J.journal.Perm J.entries := List.mergeSort_perm _ _

theorem mergeSort_filter {α : Type} (key : α → Date) (P : α → Bool) (l : List α) :
    (l.mergeSort fun a b => (compare (key a) (key b)).isLE).filter P =
      (l.filter P).mergeSort fun a b => (compare (key a) (key b)).isLE := by
  apply eq_of_sorted_filter key
  · exact (sorted_mergeSort key l).sublist List.filter_sublist
  · exact sorted_mergeSort key _
  · intro d
    rw [filter_mergeSort, List.filter_filter, List.filter_filter]
    have : ∀ l : List α, l.filter (fun a => decide (key a = d) && P a) = (l.filter (fun a => decide (key a = d))).filter P := by
      intro l
      rw [List.filter_filter]
      apply List.filter_congr
      intro a _; exact Bool.and_comm _ _
    rw [this, this, filter_mergeSort]

theorem sublist_mergeSort_append {α : Type} (key : α → Date) (l e : List α) :
    (l.mergeSort fun a b => (compare (key a) (key b)).isLE).Sublist
      ((l ++ e).mergeSort fun a b => (compare (key a) (key b)).isLE) := by
  let L := l.map (fun a => (a, true)) ++ e.map (fun a => (a, false))
  have h1 : L.map (·.1) = l ++ e := by simp [L, Function.comp_def]
  have h2 : (L.filter (·.2)).map (·.1) = l := by
    simp [L, List.filter_map, Function.comp_def]
  rw [← h1]
  conv_lhs => rw [← h2]
  rw [← List.map_mergeSort (r := fun a b => (compare (key a.1) (key b.1)).isLE) (fun _ _ _ _ => rfl),
    ← List.map_mergeSort (r := fun a b => (compare (key a.1) (key b.1)).isLE) (fun _ _ _ _ => rfl),
    ← mergeSort_filter (fun a : α × Bool => key a.1)]
  exact List.Sublist.map _ List.filter_sublist

theorem forall₂_mergeSort {α β : Type} (key : α → Date) (key' : β → Date) {Rel : α → β → Prop}
    (hk : ∀ a b, Rel a b → key a = key' b) {l : List α} {l' : List β} (h : List.Forall₂ Rel l l') :
    List.Forall₂ Rel (l.mergeSort fun a b => (compare (key a) (key b)).isLE)
      (l'.mergeSort fun a b => (compare (key' a) (key' b)).isLE) := by
  have hlen := h.length_eq
  let L := l.zip l'
  have h1 : L.map (·.1) = l := by simp [L, List.map_fst_zip, hlen]
  have h2 : L.map (·.2) = l' := by simp [L, List.map_snd_zip, hlen]
  have hrel : ∀ e ∈ L, Rel e.1 e.2 := by
    intro e he
    exact (List.forall₂_iff_zip.1 h).2 (by simpa [L] using he)
  rw [← h1, ← h2,
    ← List.map_mergeSort (r := fun a b => (compare (key a.1) (key b.1)).isLE) (fun _ _ _ _ => rfl),
    ← List.map_mergeSort (r := fun a b => (compare (key a.1) (key b.1)).isLE) (f := fun e : α × β => e.2)
      (fun a ha b hb => by rw [hk _ _ (hrel a ha), hk _ _ (hrel b hb)])]
  rw [List.forall₂_map_left_iff, List.forall₂_map_right_iff]
  rw [List.forall₂_same]
  intro e he
  exact hrel e (List.mem_mergeSort.1 he)

theorem forall₂_filter {α β : Type} {Rel : α → β → Prop} {P : α → Bool} {Q : β → Bool}
    (hPQ : ∀ a b, Rel a b → P a = Q b) {l : List α} {l' : List β} (h : List.Forall₂ Rel l l') :
    List.Forall₂ Rel (l.filter P) (l'.filter Q) := by
  induction h with
  | nil => exact List.Forall₂.nil
  | cons hab _ ih =>
    rw [List.filter_cons, List.filter_cons, hPQ _ _ hab]
    split
    · exact List.Forall₂.cons hab ih
    · exact ih

/-- The records of an extended book: the old ones, grown, and then more. -/
theorem Ext.split {J J' : Book} (h : Ext J J') : ∃ old new, J'.recs = old ++ new ∧
    List.Forall₂ (fun r r' : Rec => r'.trn = r.trn ∧ r'.date = r.date ∧ Grown r.post r'.post) J.recs old := by
  refine ⟨J'.recs.take J.recs.length, J'.recs.drop J.recs.length, (List.take_append_drop _ _).symm, ?_⟩
  rw [List.forall₂_iff_get]
  have hlen : J.recs.length ≤ J'.recs.length := by
    by_contra hc
    have hpos : J'.recs.length < J.recs.length := by omega
    obtain ⟨r', hr', _⟩ := h.recs J'.recs.length J.recs[J'.recs.length] (List.getElem?_eq_getElem hpos)
    rw [List.getElem?_eq_none (le_refl _)] at hr'; cases hr'
  refine ⟨by simp [hlen], ?_⟩
  intro i hi hi'
  obtain ⟨r', hr', hx⟩ := h.recs i _ (List.getElem?_eq_getElem hi)
  simp only [List.get_eq_getElem, List.getElem_take]
  rw [List.getElem?_eq_getElem (by omega)] at hr'
  rw [Option.some.inj hr']
  exact hx

theorem Ext.entries {J J' : Book} (h : Ext J J') : ∃ old new, J'.entries = old ++ new ∧
    List.Forall₂ Extended J.entries old := by
  obtain ⟨hd, hhd⟩ := h.hdrs
  obtain ⟨orec, nrec, hrec, hf⟩ := h.split
  refine ⟨J.hdrs.mapIdx fun k hdr => ⟨hdr, (J'.recs.filter (·.trn = k)).map (·.post)⟩,
    hd.mapIdx fun k hdr => ⟨hdr, (J'.recs.filter (·.trn = k + J.hdrs.length)).map (·.post)⟩, ?_, ?_⟩
  · unfold Spec.Book.entries
    rw [← hhd, List.mapIdx_append]
  · unfold Spec.Book.entries
    rw [List.forall₂_iff_get]
    refine ⟨by simp, ?_⟩
    intro k hk hk'
    simp only [List.get_eq_getElem, List.getElem_mapIdx]
    refine ⟨rfl, (orec.filter (·.trn = k)).map (·.post), (nrec.filter (·.trn = k)).map (·.post), ?_, ?_⟩
    · show (J'.recs.filter (·.trn = k)).map (·.post) = _
      rw [hrec, List.filter_append, List.map_append]
    · rw [List.forall₂_map_left_iff, List.forall₂_map_right_iff]
      have := forall₂_filter (P := fun r : Rec => decide (r.trn = k)) (Q := fun r : Rec => decide (r.trn = k))
        (fun a b hab => by rw [hab.1]) hf
      exact this.imp (fun a b hab => hab.2.2)

theorem Ext.journal {J J' : Book} (h : Ext J J') : ∃ kept, List.Forall₂ Extended J.journal kept ∧ kept.Sublist J'.journal := by
  obtain ⟨old, new, h1, h2⟩ := h.entries
  refine ⟨byDate old, ?_, ?_⟩
  · exact forall₂_mergeSort dateOf dateOf (fun a b hab => by unfold dateOf; rw [hab.1]) h2
  · rw [journal_eq, h1]
    exact sublist_mergeSort_append dateOf old new

/-- The postings of the journal are the posts of the records. -/
theorem entries_posts_perm {J : Book} (hw : ∀ r ∈ J.recs, r.trn < J.hdrs.length) :
    (allPosts J.entries).Perm (J.recs.map (·.post)) := by
  have h1 : allPosts J.entries = (List.range J.hdrs.length).flatMap (fun k => (J.recs.filter (·.trn = k)).map (·.post)) := by
    have he : J.entries = (List.range J.hdrs.length).map
        (fun k => ⟨J.hdrs[k]?.getD default, (J.recs.filter (·.trn = k)).map (·.post)⟩) := by
      unfold Spec.Book.entries
      apply List.ext_getElem?
      intro k
      rw [List.getElem?_mapIdx, List.getElem?_map]
      by_cases hk : k < J.hdrs.length
      · rw [List.getElem?_eq_getElem hk, List.getElem?_range hk]; simp [List.getElem?_eq_getElem hk]
      · rw [List.getElem?_eq_none (by omega), List.getElem?_eq_none (by simp; omega)]; rfl
    rw [he]
    unfold allPosts
    rw [List.flatMap_map]
  rw [h1]
  have h2 : ∀ (n : Nat) (rs : List Rec), ((List.range n).flatMap (fun k => (rs.filter (·.trn = k)).map (·.post))).Perm
      ((rs.filter (·.trn < n)).map (·.post)) := by
    intro n rs
    induction n with
    | zero => simp
    | succ n ih =>
      rw [List.range_succ, List.flatMap_append]
      refine (List.Perm.append_right _ ih).trans ?_
      simp only [List.flatMap_cons, List.flatMap_nil, List.append_nil]
      rw [← List.map_append]
      apply List.Perm.map
      clear ih h1
      induction rs with
      | nil => simp
      | cons r rs ih2 =>
        rcases Nat.lt_trichotomy r.trn n with hlt | heq | hgt
        · have a : r.trn < n + 1 := by omega
          have b : ¬ r.trn = n := by omega
          simp only [List.filter_cons, hlt, decide_true, if_true, b, decide_false, Bool.false_eq_true, if_false, a,
            List.cons_append]
          exact ih2.cons r
        · have a : r.trn < n + 1 := by omega
          have b : ¬ r.trn < n := by omega
          rw [List.filter_cons_of_neg (by simpa using b), List.filter_cons_of_pos (by simpa using heq),
            List.filter_cons_of_pos (by simpa using a)]
          exact List.perm_middle.trans (ih2.cons r)
        · have a : ¬ r.trn < n + 1 := by omega
          have b : ¬ r.trn < n := by omega
          have c : ¬ r.trn = n := by omega
          simp only [List.filter_cons, a, b, c, decide_false, Bool.false_eq_true, if_false]
          exact ih2
  refine (h2 _ _).trans ?_
  have : J.recs.filter (·.trn < J.hdrs.length) = J.recs := by
    rw [List.filter_eq_self]; intro r hr; simpa using hw r hr
  rw [this]

theorem allPosts_perm {l l' : List TransactionPostings} (h : l.Perm l') : (allPosts l).Perm (allPosts l') :=
  h.flatMap_right _

theorem journal_posts_perm {J : Book} (hw : J.WF) : (allPosts J.journal).Perm (J.recs.map (·.post)) :=
  (allPosts_perm (journal_perm J)).trans (entries_posts_perm hw.owner)

theorem mem_journal_posts {J : Book} (hw : J.WF) {p : PostingInternal} :
    p ∈ allPosts J.journal ↔ ∃ (i : Nat) (r : Rec), J.recs[i]? = some r ∧ r.post = p := by
  rw [(journal_posts_perm hw).mem_iff, List.mem_map]
  constructor
  · rintro ⟨r, hr, rfl⟩
    obtain ⟨i, hi⟩ := List.mem_iff_getElem?.1 hr
    exact ⟨i, r, hi, rfl⟩
  · rintro ⟨i, r, hr, rfl⟩; exact ⟨r, List.mem_of_getElem? hr, rfl⟩

/-- A transaction of the journal and a posting in it. -/
theorem mem_journal {J : Book} {T : TransactionPostings} {p : PostingInternal} :
    (T ∈ J.journal ∧ p ∈ T.posts) → ∃ (i : Nat) (r : Rec), J.recs[i]? = some r ∧ r.post = p ∧
      J.hdrs[r.trn]? = some T.trn := by
  rintro ⟨hT, hp⟩
  have hT := (journal_perm J).mem_iff.1 hT
  unfold Spec.Book.entries at hT
  rw [List.mem_mapIdx] at hT
  obtain ⟨k, hk, rfl⟩ := hT
  simp only [List.mem_map, List.mem_filter, decide_eq_true_eq] at hp
  obtain ⟨r, ⟨hr, hrk⟩, rfl⟩ := hp
  obtain ⟨i, hi⟩ := List.mem_iff_getElem?.1 hr
  exact ⟨i, r, hi, rfl, by rw [hrk, List.getElem?_eq_getElem hk]⟩

theorem journal_mem_of {J : Book} (hw : J.WF) {i : Nat} {r : Rec} (hr : J.recs[i]? = some r) :
    ∃ T ∈ J.journal, J.hdrs[r.trn]? = some T.trn ∧ r.post ∈ T.posts := by
  have hk := hw.owner r (List.mem_of_getElem? hr)
  refine ⟨⟨J.hdrs[r.trn], (J.recs.filter (·.trn = r.trn)).map (·.post)⟩, ?_, ?_, ?_⟩
  · rw [(journal_perm J).mem_iff]
    unfold Spec.Book.entries
    rw [List.mem_mapIdx]
    exact ⟨r.trn, hk, rfl⟩
  · rw [List.getElem?_eq_getElem hk]
  · simp only [List.mem_map, List.mem_filter, decide_eq_true_eq]
    exact ⟨r, ⟨List.mem_of_getElem? hr, rfl⟩, rfl⟩

end Verif
