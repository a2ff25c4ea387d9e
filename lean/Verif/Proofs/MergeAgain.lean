import Verif.Proofs.MergeCmd
import Verif.Proofs.Replay
import Verif.Props.Convert

/-!
# Merging a written journal with its inputs again
-/

namespace Verif
open Spec Spec.Book

/-- A book that merge calls can lead to. -/
def Reached (J : Book) : Prop := ∃ m, R m J

theorem Reached.wf {J : Book} (h : Reached J) : J.WF := by obtain ⟨_, h⟩ := h; exact h.wf

theorem reached_empty : Reached Book.empty := ⟨_, R_new⟩

theorem Reached.after {J : Book} (h : Reached J) {g : List TransactionPostings} (hb : ¬ J.Bad g) : Reached (J.after g) := by
  obtain ⟨_, h⟩ := h
  obtain ⟨m', _, hR⟩ := merge_of_not_bad h HashOrder.sorted hb
  exact ⟨m', hR⟩

theorem leftOver_cons_nil {J : Book} {g : List TransactionPostings} {gs : List (List TransactionPostings)} :
    leftOver J (g :: gs) = [] ↔ (∀ t ∈ g, ¬ Undecided J t) ∧ leftOver (J.after g) gs = [] := by
  show g.filter (fun t => decide (Undecided J t)) ++ leftOver (J.after g) gs = [] ↔ _
  rw [List.append_eq_nil_iff, List.filter_eq_nil_iff]
  simp

theorem made_of_calls {J : Book} (hr : Reached J) {done gs : List (List TransactionPostings)} (hm : Made J done)
    (hb : ¬ Refused J gs) (hl : leftOver J gs = []) :
    Reached (gs.foldl Book.after J) ∧ Made (gs.foldl Book.after J) (done ++ gs) := by
  induction gs generalizing J done with
  | nil => rw [List.append_nil]; exact ⟨hr, hm⟩
  | cons g gs ih =>
    have hb1 : ¬ J.Bad g := fun h => hb (.inl h)
    have hb2 : ¬ Refused (J.after g) gs := fun h => hb (.inr h)
    obtain ⟨hd, hl'⟩ := leftOver_cons_nil.1 hl
    have := ih (hr.after hb1) (hm.step (good_iff.2 hb1) hd hr.wf (hr.after hb1).wf) hb2 hl'
    rwa [List.append_assoc] at this

theorem populated_of_calls {J : Book} (hr : Reached J) (hp : Populated J) {gs : List (List TransactionPostings)}
    (hb : ¬ Refused J gs) : Populated (gs.foldl Book.after J) := by
  induction gs generalizing J with
  | nil => exact hp
  | cons g gs ih =>
    exact ih (hr.after (fun h => hb (.inl h))) (populated_after hr.wf hp g) (fun h => hb (.inr h))

theorem replay_calls {K : Book} (hw : K.WF) {K' : Book} (hR : Reached K') {done : List (List TransactionPostings)}
    (hs : ∀ ts ∈ done, Settled K ts) (hext : Ext K K') (hh : K'.hdrs = K.hdrs) (hr : K'.recs = K.recs.map (replayed done))
    (gs : List (List TransactionPostings)) (hsc : ∀ ts ∈ gs, Settled K ts) :
    ¬ Refused K' gs ∧ leftOver K' gs = [] ∧ (gs.foldl Book.after K').hdrs = K.hdrs ∧
      (gs.foldl Book.after K').recs = K.recs.map (replayed (done ++ gs)) := by
  induction gs generalizing K' done with
  | nil => exact ⟨id, rfl, hh, by rw [List.append_nil]; exact hr⟩
  | cons g gs ih =>
    have hst : Settled K' g := (hsc g (by simp)).mono hext hR.wf
    have hnb : ¬ K'.Bad g := good_iff.1 (hst.good hR.wf)
    obtain ⟨e1, e2⟩ := replayed_step hw hR.wf hs hst hh hr
    have hs' : ∀ ts' ∈ done ++ [g], Settled K ts' := by
      intro ts' h'
      rcases List.mem_append.1 h' with h' | h'
      · exact hs ts' h'
      · rw [List.mem_singleton.1 h']; exact hsc g (by simp)
    obtain ⟨a1, a2, a3, a4⟩ := ih (hR.after hnb) hs' (hext.trans (ext_after K' g)) e1 e2
      (fun ts' h' => hsc ts' (List.mem_cons_of_mem _ h'))
    refine ⟨fun h => h.elim hnb a1, leftOver_cons_nil.2 ⟨fun t ht => hst.decided hR.wf ht, a2⟩, a3, ?_⟩
    rw [List.append_assoc] at a4
    exact a4

/-- Replaying the last inputs on a record that was made of all of them changes nothing. -/
theorem replayed_suffix {r : Rec} {hist late : List (List TransactionPostings)} {p : PostingInternal} {l : List PostingInternal}
    (h1 : sourcesOf (hist ++ late) r.post = p :: l) (h2 : r.post = l.foldl absorb p) : replayed late r = r := by
  unfold replayed
  rw [sourcesOf_append] at h1
  have h3 : (p :: l).foldl absorb p = r.post := by rw [List.foldl_cons, absorb_self, h2]
  rw [← h1, List.foldl_append] at h3
  have := absorb_replay ((sourcesOf hist r.post).foldl absorb p) (sourcesOf late r.post)
  rw [h3] at this
  rw [this]

/-- The same transactions under changed headers: dates and postings stay. -/
def Relabel (f : TransactionPostings → TransactionPostings) : Prop := ∀ t, dateOf (f t) = dateOf t ∧ (f t).posts = t.posts

theorem Relabel.allPosts {f : TransactionPostings → TransactionPostings} (hf : Relabel f) (ts : List TransactionPostings) :
    allPosts (ts.map f) = allPosts ts := by
  unfold Spec.Book.allPosts
  rw [List.flatMap_map]
  apply List.flatMap_congr
  intro t _
  exact (hf t).2

theorem Relabel.contains {f : TransactionPostings → TransactionPostings} (hf : Relabel f) {js ts : List TransactionPostings}
    (h : Contains js ts) : Contains (js.map f) ts where
  ok := h.ok
  disjoint := h.disjoint
  nonempty := h.nonempty
  home := by
    intro t ht
    obtain ⟨T, hT, hp⟩ := h.home t ht
    exact ⟨f T, List.mem_map_of_mem hT, by rw [(hf T).2]; exact hp⟩
  apart := by
    intro p hp q hq x hx
    rw [postingsOf, hf.allPosts] at hx
    exact h.apart p hp q hq x hx

/-- The merge calls `gs ++ late` were all successful and complete. Then reading the journal, under changed headers, and
merging the calls `late` again is successful and complete, and gives the journal that was read. -/
theorem merge_again {gs late : List (List TransactionPostings)} (hb : ¬ Refused Book.empty (gs ++ late))
    (hl : leftOver Book.empty (gs ++ late) = []) {f : TransactionPostings → TransactionPostings} (hf : Relabel f) :
    ¬ Refused Book.empty ((bookAfter (gs ++ late)).journal.map f :: late) ∧
    leftOver Book.empty ((bookAfter (gs ++ late)).journal.map f :: late) = [] ∧
    (bookAfter ((bookAfter (gs ++ late)).journal.map f :: late)).journal = (bookAfter (gs ++ late)).journal.map f := by
  obtain ⟨hr, hm⟩ := made_of_calls reached_empty made_empty hb hl
  have hp : Populated (bookAfter (gs ++ late)) :=
    populated_of_calls reached_empty (by intro t ht; simp [Spec.Book.entries, Spec.Book.empty] at ht) hb
  rw [List.nil_append] at hm
  change Reached (bookAfter (gs ++ late)) at hr
  change Made (bookAfter (gs ++ late)) _ at hm
  set J := bookAfter (gs ++ late)
  have hgood : Good Book.empty (J.journal.map f) := by
    have := journal_good hr.wf
    exact good_empty (by rw [hf.allPosts]; exact this.ok) (by rw [hf.allPosts]; exact this.disjoint)
  have hne : ∀ t ∈ J.journal.map f, t.posts ≠ [] := by
    intro t ht
    obtain ⟨T, hT, rfl⟩ := List.mem_map.1 ht
    rw [(hf T).2]
    exact journal_nonempty hp T hT
  have hdec : ∀ t ∈ J.journal.map f, ¬ Undecided Book.empty t := fun t ht hu => hne t ht (empty_undecided.1 hu)
  have hnb := good_iff.1 hgood
  have hK : Reached (Book.empty.after (J.journal.map f)) := reached_empty.after hnb
  have hKj : (Book.empty.after (J.journal.map f)).journal = J.journal.map f := by
    rw [journal_eq, entries_empty_after hne]
    apply byDate_of_sorted
    rw [List.pairwise_map]
    exact (journal_sorted J).imp (fun {a b} h => by rw [(hf a).1, (hf b).1]; exact h)
  set K := Book.empty.after (J.journal.map f)
  have hs : ∀ ts ∈ late, Settled K ts := by
    intro ts hts
    have := hf.contains ((hm.settled ts (List.mem_append_right _ hts)).contains hr.wf)
    rw [← hKj] at this
    exact this.settled hK.wf
  obtain ⟨a1, a2, a3, a4⟩ := replay_calls hK.wf hK (done := []) (by intro ts hts; cases hts) (ext_refl K) rfl
    (by rw [show (replayed [] : Rec → Rec) = id from funext fun r => rfl, List.map_id]) late hs
  refine ⟨fun h => h.elim hnb a1, leftOver_cons_nil.2 ⟨hdec, a2⟩, ?_⟩
  show (late.foldl Book.after K).journal = _
  have hrecs : (late.foldl Book.after K).recs = K.recs := by
    rw [a4, List.nil_append]
    conv_rhs => rw [← List.map_id K.recs]
    apply List.map_congr_left
    intro r hrm
    obtain ⟨i, hi⟩ := List.mem_iff_getElem?.1 hrm
    have hx : r.post ∈ postingsOf K.journal := (mem_journal_posts hK.wf).2 ⟨i, r, hi, rfl⟩
    rw [hKj, postingsOf, hf.allPosts] at hx
    obtain ⟨j, s, hsj, hse⟩ := (mem_journal_posts hr.wf).1 hx
    obtain ⟨p, l, h1, h2⟩ := hm.made s (List.mem_of_getElem? hsj)
    rw [hse] at h1 h2
    exact replayed_suffix h1 h2
  have : late.foldl Book.after K = K := by
    generalize late.foldl Book.after K = K'' at a3 hrecs
    cases K''; cases hk : K
    rw [hk] at a3 hrecs
    simp only at a3 hrecs
    rw [a3, hrecs]
  rw [this, hKj]

/-! ### What holds of all input postings and headers -/

/-- What holds of the headers of the input and of its postings, and is kept by merging, holds in the journal. -/
theorem holds_of_calls {A : TransactionInternal → Prop} {B : PostingInternal → Prop} (hB : ∀ d s, B d → B s → B (absorb d s))
    {J : Book} {gs : List (List TransactionPostings)} (hg : ∀ g ∈ gs, ∀ t ∈ g, A t.trn ∧ ∀ p ∈ t.posts, B p)
    (hh : ∀ x ∈ J.hdrs, A x) (hr : ∀ r ∈ J.recs, B r.post) :
    (∀ x ∈ (gs.foldl Book.after J).hdrs, A x) ∧ ∀ r ∈ (gs.foldl Book.after J).recs, B r.post := by
  induction gs generalizing J with
  | nil => exact ⟨hh, hr⟩
  | cons g gs ih =>
    apply ih (fun g' hg' => hg g' (List.mem_cons_of_mem _ hg'))
    · intro x hx
      rw [after_hdrs] at hx
      rcases List.mem_append.1 hx with hx | hx
      · exact hh x hx
      · obtain ⟨t, ht, rfl⟩ := List.mem_map.1 hx
        exact (hg g (by simp) t (List.mem_filter.1 ht).1).1
    · intro r hrm
      rcases mem_after.1 hrm with ⟨i, hi, rfl⟩ | hn
      · simp only
        have key : ∀ (l : List PostingInternal) (d : PostingInternal), B d → (∀ p ∈ l, B p) → B (l.foldl absorb d) := by
          intro l
          induction l with
          | nil => intro d hd _; exact hd
          | cons p l ihl => intro d hd hl; exact ihl _ (hB d p hd (hl p (by simp))) (fun q hq => hl q (by simp [hq]))
        apply key _ _ (hr _ (List.getElem_mem hi))
        intro p hp
        obtain ⟨t, ht, _, hpt, _⟩ := mem_hits.1 hp
        exact (hg g (by simp) t ht).2 p hpt
      · obtain ⟨t, ht, _, hpt, _⟩ := mem_news hn
        exact (hg g (by simp) t ht).2 _ hpt

theorem holds_of_journal {A : TransactionInternal → Prop} {B : PostingInternal → Prop} {J : Book}
    (hh : ∀ x ∈ J.hdrs, A x) (hr : ∀ r ∈ J.recs, B r.post) : ∀ T ∈ J.journal, A T.trn ∧ ∀ p ∈ T.posts, B p := by
  intro T hT
  have hT := (journal_perm _).mem_iff.1 hT
  unfold Spec.Book.entries at hT
  rw [List.mem_mapIdx] at hT
  obtain ⟨k, hk, rfl⟩ := hT
  refine ⟨hh _ (List.getElem_mem hk), ?_⟩
  intro p hp
  obtain ⟨r, hrm, rfl⟩ := List.mem_map.1 hp
  exact hr r (List.mem_filter.1 hrm).1

theorem plain_absorb {d s : PostingInternal} (hd : Plain d.comment) (hs : Plain s.comment) : Plain (absorb d s).comment := by
  have htags : ∀ t ∈ (absorb d s).comment.tags, t ∈ d.comment.tags ∨ t ∈ s.comment.tags := by
    intro t ht
    have := mem_mergedTags.1 (show t ∈ mergedTags d.comment.tags s.comment.tags from ht)
    split at this
    · exact .inl this.1
    · exact this
  have hvals : ∀ (k v : Str), (absorb d s).comment.valueTags[k]? = some v → d.comment.valueTags[k]? = some v ∨ s.comment.valueTags[k]? = some v := by
    intro k v h
    have h : (d.comment.valueTags ∪ s.comment.valueTags)[k]? = some v := h
    rw [Std.ExtTreeMap.getElem?_union] at h
    cases hk : s.comment.valueTags[k]? with
    | none => rw [hk] at h; exact .inl h
    | some w => rw [hk] at h; exact .inr h
  have hlines : ∀ l ∈ (absorb d s).comment.lines, l ∈ d.comment.lines ∨ l ∈ s.comment.lines := by
    intro l hl
    rcases List.mem_append.1 (show l ∈ d.comment.lines ++ _ from hl) with h | h
    · exact .inl h
    · rw [List.mem_eraseDups] at h
      exact .inr (List.mem_filter.1 h).1
  have hnv : ∀ l ∈ (absorb d s).comment.lines, ¬ IsValueLine l := fun l hl => (hlines l hl).elim (hd.noValues l) (hs.noValues l)
  exact {
    tags := fun t ht => (htags t ht).elim (hd.tags t) (hs.tags t)
    keys := fun k v h => (hvals k v h).elim (hd.keys k v) (hs.keys k v)
    values := fun k v h => (hvals k v h).elim (hd.values k v) (hs.values k v)
    lines := fun l hl => (hlines l hl).elim (hd.lines l) (hs.lines l)
    notValue := by
      intro l hl
      apply hnv
      split at hl
      · exact hl
      · exact List.mem_of_mem_tail hl
    noValues := hnv }

end Verif
