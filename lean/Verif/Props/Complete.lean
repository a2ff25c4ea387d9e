import Verif.Spec.Complete
import Verif.Props.RulesMerge

/-!
# C96: when every transaction of every file becomes one of the journal
-/

namespace Verif
open Spec Spec.Book

/-- A book that just lists the transactions, with all their postings. -/
structure ListsAll (J : Book) (done : List TransactionPostings) : Prop extends Lists J done where
  back : ∀ t ∈ done, ∀ p ∈ t.posts, ∃ r ∈ J.recs, r.post = p ∧ r.date = dateOf t

theorem listsAll_empty : ListsAll Book.empty [] :=
  ⟨⟨reached_empty, rfl, fun r hr => by cases hr⟩, fun t ht => by cases ht⟩

theorem ListsAll.new_iff {J : Book} {done g : List TransactionPostings} (hJ : ListsAll J done) :
    (∀ t ∈ g, ∀ p ∈ t.posts, J.verdict (dateOf t) p = .new) ↔ Separate done g := by
  constructor
  · intro h t ht p hp u hu q hq
    obtain ⟨r, hr, rfl, hd⟩ := hJ.back t ht p hp
    have := verdict_new_iff.1 (h u hu q hq) r hr
    rwa [hd] at this
  · intro h t ht p hp
    rw [verdict_new_iff]
    intro r hr
    obtain ⟨u, hu, hru, hd⟩ := hJ.recs r hr
    have := h u hu _ hru t ht p hp
    rwa [← hd] at this

theorem ListsAll.after {J : Book} {done g : List TransactionPostings} (hJ : ListsAll J done) (hu : Separate done g) (hi : InOrder g) :
    ListsAll (J.after g) (done ++ g) := by
  have hnew := hJ.new_iff.2 hu
  obtain ⟨hb, hn⟩ := (not_bad_inOrder hnew).2 hi
  refine ⟨hJ.toLists.after_new hnew hb hi.nonempty, fun t ht p hp => ?_⟩
  rw [new_recs hnew]
  rcases List.mem_append.1 ht with ht | ht
  · obtain ⟨r, hr, h⟩ := hJ.back t ht p hp
    exact ⟨r, List.mem_append_left _ hr, h⟩
  · obtain ⟨c, hc⟩ := news_of_mem (J := J) J.hdrs.length ht (hn t ht)
    exact ⟨_, List.mem_append_right _ (hc p hp (by rw [hnew t ht p hp]; rfl)), rfl, rfl⟩

theorem entries_length (J : Book) : J.entries.length = J.hdrs.length := by simp [Spec.Book.entries]

theorem after_length (J : Book) (g : List TransactionPostings) :
    (J.after g).entries.length = J.entries.length + (g.filter (J.Fresh ·)).length := by
  rw [entries_length, entries_length, after_hdrs]
  simp

theorem calls_length (J : Book) (gs : List (List TransactionPostings)) :
    (gs.foldl Book.after J).entries.length ≤ J.entries.length + gs.flatten.length := by
  induction gs generalizing J with
  | nil => simp
  | cons g gs ih =>
    have h1 := ih (J.after g)
    have h2 := after_length J g
    have h3 := List.length_filter_le (fun t => decide (J.Fresh t)) g
    rw [List.foldl_cons, List.flatten_cons, List.length_append]
    omega

/-- Postings that go nowhere and cause no conflict are new. -/
theorem fresh_new {J : Book} {g : List TransactionPostings} (hb : ¬ J.Bad g) {t : TransactionPostings} (ht : t ∈ g) (hf : J.Fresh t) :
    ∀ p ∈ t.posts, J.verdict (dateOf t) p = .new := by
  intro p hp
  have h1 := dests_nil_iff.1 hf.2 p hp
  have hm : J.verdict (dateOf t) p ∈ J.verdicts t := List.mem_map_of_mem hp
  cases hv : J.verdict (dateOf t) p with
  | new => rfl
  | into i => rw [hv] at h1; cases h1
  | ambiguous is => exact absurd (.inr ⟨_, hm, by rw [hv]; rfl⟩) hf.1
  | conflict => exact absurd (.inr (.inr (.inr (.inl ⟨t, ht, by rw [← hv]; exact hm⟩)))) hb

theorem ListsAll.calls {J : Book} {done : List TransactionPostings} (hJ : ListsAll J done) (gs : List (List TransactionPostings)) :
    (¬ Refused J gs ∧ leftOver J gs = [] ∧ (gs.foldl Book.after J).entries.length = done.length + gs.flatten.length ↔
      (∀ g ∈ gs, InOrder g) ∧ (∀ g ∈ gs, Separate done g) ∧ gs.Pairwise Separate) ∧
    ((∀ g ∈ gs, InOrder g) → (∀ g ∈ gs, Separate done g) → gs.Pairwise Separate → (gs.foldl Book.after J).entries = done ++ gs.flatten) := by
  induction gs generalizing J done with
  | nil =>
    have he : ([].foldl Book.after J).entries = done ++ [].flatten := by rw [List.foldl_nil, hJ.entries]; simp
    refine ⟨⟨fun _ => ?_, fun _ => ⟨id, rfl, by rw [he, List.length_append]⟩⟩, fun _ _ _ => he⟩
    exact ⟨fun g hg => (List.not_mem_nil hg).elim, fun g hg => (List.not_mem_nil hg).elim, List.Pairwise.nil⟩
  | cons g gs ih =>
    have happ : ∀ g', Separate done g' ∧ Separate g g' → Separate (done ++ g) g' := by
      rintro g' ⟨h1, h2⟩ t ht
      rcases List.mem_append.1 ht with ht | ht
      · exact h1 t ht
      · exact h2 t ht
    have next : InOrder g → Separate done g → _ := fun hi ha => ih (hJ.after ha hi)
    constructor
    · constructor
      · rintro ⟨hr, hl, hlen⟩
        obtain ⟨hn, hl⟩ := leftOver_cons_nil.1 hl
        have hb : ¬ J.Bad g := fun hx => hr (.inl hx)
        -- all transactions of `g` are new
        have hfresh : ∀ t ∈ g, J.Fresh t := by
          have h1 := calls_length (J.after g) gs
          have h2 := after_length J g
          have h3 := List.length_filter_le (fun t => decide (J.Fresh t)) g
          rw [List.foldl_cons] at hlen
          rw [List.flatten_cons, List.length_append, ← hJ.entries] at hlen
          have h4 : (g.filter fun t => decide (J.Fresh t)).length = g.length := by omega
          intro t ht
          exact of_decide_eq_true (List.length_filter_eq_length_iff.1 h4 t ht)
        have hnew : ∀ t ∈ g, ∀ p ∈ t.posts, J.verdict (dateOf t) p = .new := fun t ht => fresh_new hb ht (hfresh t ht)
        have ha := hJ.new_iff.1 hnew
        have hi := (not_bad_inOrder hnew).1 ⟨hb, hn⟩
        obtain ⟨k1, k2, k3⟩ := (next hi ha).1.1 ⟨fun hx => hr (.inr hx), hl, by
          rw [List.foldl_cons, List.flatten_cons, List.length_append] at hlen
          rw [List.length_append]; omega⟩
        refine ⟨List.forall_mem_cons.2 ⟨hi, k1⟩, List.forall_mem_cons.2 ⟨ha, fun g' hg' t ht => k2 g' hg' t (List.mem_append_left _ ht)⟩,
          List.pairwise_cons.2 ⟨fun g' hg' t ht => k2 g' hg' t (List.mem_append_right _ ht), k3⟩⟩
      · rintro ⟨hi, ha, hp⟩
        obtain ⟨hi1, hi2⟩ := List.forall_mem_cons.1 hi
        obtain ⟨ha1, ha2⟩ := List.forall_mem_cons.1 ha
        obtain ⟨hp1, hp2⟩ := List.pairwise_cons.1 hp
        obtain ⟨k1, k2, k3⟩ := (next hi1 ha1).1.2 ⟨hi2, fun g' hg' => happ g' ⟨ha2 g' hg', hp1 g' hg'⟩, hp2⟩
        obtain ⟨hb, hn⟩ := (not_bad_inOrder (hJ.new_iff.2 ha1)).2 hi1
        refine ⟨fun hx => hx.elim hb k1, leftOver_cons_nil.2 ⟨hn, k2⟩, ?_⟩
        rw [List.foldl_cons, k3, List.flatten_cons, List.length_append, List.length_append]
        omega
    · intro hi ha hp
      obtain ⟨hi1, hi2⟩ := List.forall_mem_cons.1 hi
      obtain ⟨ha1, ha2⟩ := List.forall_mem_cons.1 ha
      obtain ⟨hp1, hp2⟩ := List.pairwise_cons.1 hp
      rw [List.foldl_cons, (next hi1 ha1).2 hi2 (fun g' hg' => happ g' ⟨ha2 g' hg', hp1 g' hg'⟩) hp2, List.flatten_cons, List.append_assoc]

/-- **C96.** Files are merged into one journal. The run succeeds with nothing left over and every transaction of every file becomes one of the journal,
exactly if each file could be merged alone and no posting of a file can be taken for one of another file; the journal is then that of
all transactions, sorted by date, unchanged. -/
theorem C96_complete (calls : History) (j : List TransactionPostings) :
    journalOf calls = some j ∧ j.length = (inputs calls).flatten.length ↔
      (∀ g ∈ inputs calls, InOrder g) ∧ (inputs calls).Pairwise Separate ∧
        j = (inputs calls).flatten.mergeSort fun a b => (compare (dateOf a) (dateOf b)).isLE := by
  obtain ⟨h1, h2⟩ := listsAll_empty.calls (inputs calls)
  have hlen : ∀ J : Book, J.journal.length = J.entries.length := fun J => (journal_perm J).length_eq
  have hj : ∀ g ∈ inputs calls, Separate [] g := fun g _ t ht => by cases ht
  constructor
  · rintro ⟨hc, hl⟩
    obtain ⟨hr, hn, rfl⟩ := journalOf_books.1 hc
    rw [hlen] at hl
    obtain ⟨k1, _, k3⟩ := h1.1 ⟨hr, hn, by rw [List.length_nil, Nat.zero_add]; exact hl⟩
    refine ⟨k1, k3, ?_⟩
    rw [journal_eq, show (bookAfter (inputs calls)).entries = _ from h2 k1 hj k3, List.nil_append]; rfl
  · rintro ⟨k1, k3, rfl⟩
    obtain ⟨hr, hn, _⟩ := h1.2 ⟨k1, hj, k3⟩
    refine ⟨journalOf_books.2 ⟨hr, hn, ?_⟩, List.length_mergeSort _⟩
    rw [journal_eq, show (bookAfter (inputs calls)).entries = _ from h2 k1 hj k3, List.nil_append]; rfl

set_option maxRecDepth 100000 in
/-- Three files that meet the condition of `C96_complete`, two of them with a transaction of the same date: all four transactions become ones of the
journal. -/
example : ∃ j, journalOf [(.rev, Ex.shopJournal), (.rev, Ex.shopStatement), (.sorted, [Ex.trn 1 "tea" [Ex.post "assets:a" (-2) ["fp-7"]],
    Ex.trn 3 "cake" [Ex.post "assets:a" (-4) ["fp-8"]]])] = some j ∧ j.length = 4 := by
  have hi : ∀ g ∈ [Ex.shopJournal, Ex.shopStatement, [Ex.trn 1 "tea" [Ex.post "assets:a" (-2) ["fp-7"]], Ex.trn 3 "cake" [Ex.post "assets:a" (-4) ["fp-8"]]]],
      InOrder g := by
    have : ∀ g ∈ [Ex.shopJournal, Ex.shopStatement, [Ex.trn 1 "tea" [Ex.post "assets:a" (-2) ["fp-7"]], Ex.trn 3 "cake" [Ex.post "assets:a" (-4) ["fp-8"]]]],
        (∀ t ∈ g, t.posts ≠ []) ∧ (∀ p ∈ allPosts g, ∀ tag ∈ (tagsOf p).toList, ¬ IsCand tag) ∧ (∀ p ∈ allPosts g, fps p ≠ []) ∧
          (allPosts g).Pairwise fun p q => ¬ SharesFp p q := by decide +kernel
    intro g hg
    obtain ⟨h1, h2, h3, h4⟩ := this g hg
    exact ⟨h1, fun p hp tag ht => h2 p hp tag (Std.ExtTreeSet.mem_toList.2 ht), h3, h4⟩
  obtain ⟨h1, h2⟩ := (C96_complete [(.rev, Ex.shopJournal), (.rev, Ex.shopStatement), (.sorted, [Ex.trn 1 "tea" [Ex.post "assets:a" (-2) ["fp-7"]],
    Ex.trn 3 "cake" [Ex.post "assets:a" (-4) ["fp-8"]]])] _).2 ⟨hi, by
      show List.Pairwise Separate [_, _, _]
      decide +kernel, rfl⟩
  exact ⟨_, h1, h2⟩

end Verif
