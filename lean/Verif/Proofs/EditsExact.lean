import Verif.Proofs.Edits

/-!
# Proofs for C101: exactly when a file is accepted whose postings are all known
-/

namespace Verif
open Spec Spec.Book

/-- A file whose postings each have fingerprints of one record, in one transaction and apart. -/
structure Matched (J : Book) (g : List TransactionPostings) : Prop where
  home : ∀ t ∈ g, ∃ k, ∀ p ∈ t.posts, ∃ (i : Nat) (r : Rec), J.recs[i]? = some r ∧ r.trn = k ∧ SharesFp r.post p
  one : ∀ p ∈ allPosts g, ∀ (i j : Nat) (r s : Rec), J.recs[i]? = some r → J.recs[j]? = some s → SharesFp r.post p → SharesFp s.post p → i = j
  apart : ∀ p ∈ allPosts g, ∀ q ∈ allPosts g, ∀ (i : Nat) (r : Rec), J.recs[i]? = some r →
    SharesFp r.post p → SharesFp r.post q → p = q

/-- A book in which postings of the file have the fingerprints of one record. -/
theorem verdict_one {J : Book} {p : PostingInternal} {i : Nat} {r : Rec} (hr : J.recs[i]? = some r) (hs : SharesFp r.post p)
    (h1 : ∀ (j : Nat) (s : Rec), J.recs[j]? = some s → SharesFp s.post p → j = i) (d : Date) : J.verdict d p = .into i := by
  have hall : ∀ j, j ∈ J.fpHits p ↔ j = i := by
    intro j
    rw [mem_fpHits]
    constructor
    · rintro ⟨s, hs1, hs2⟩; exact h1 j s hs1 hs2
    · rintro rfl; exact ⟨r, hr, hs⟩
  have hn : (J.fpHits p).Nodup := where_nodup _ _
  have : J.fpHits p = [i] := by
    generalize J.fpHits p = l at hall hn
    match l, hn with
    | [], _ => exact absurd ((hall i).2 rfl) List.not_mem_nil
    | [a], _ => rw [(hall a).1 List.mem_cons_self]
    | a :: b :: l, hn =>
      have ha := (hall a).1 List.mem_cons_self
      have hb := (hall b).1 (List.mem_cons_of_mem _ List.mem_cons_self)
      subst ha
      subst hb
      simp at hn
  unfold Spec.Book.verdict
  rw [this]

theorem verdict_two {J : Book} {p : PostingInternal} {i j : Nat} {r s : Rec} (hr : J.recs[i]? = some r) (hs : J.recs[j]? = some s)
    (h1 : SharesFp r.post p) (h2 : SharesFp s.post p) (hij : i ≠ j) (d : Date) : J.verdict d p = .conflict := by
  have hi : i ∈ J.fpHits p := mem_fpHits.2 ⟨r, hr, h1⟩
  have hj : j ∈ J.fpHits p := mem_fpHits.2 ⟨s, hs, h2⟩
  unfold Spec.Book.verdict
  generalize J.fpHits p = l at hi hj
  match l with
  | [] => cases hi
  | [a] =>
    rw [List.mem_singleton] at hi hj
    exact absurd (hi.trans hj.symm) hij
  | a :: b :: l => rfl

theorem Matched.verdict {J : Book} {g : List TransactionPostings} (hm : Matched J g) {p : PostingInternal} (hp : p ∈ allPosts g) {i : Nat} {r : Rec}
    (hr : J.recs[i]? = some r) (hs : SharesFp r.post p) (d : Date) : J.verdict d p = .into i :=
  verdict_one hr hs (fun j s h1 h2 => hm.one p hp j i s r h1 hr h2 hs) d

theorem Matched.found {J : Book} {g : List TransactionPostings} (hm : Matched J g) {p : PostingInternal} (hp : p ∈ allPosts g) :
    ∃ (i : Nat) (r : Rec), J.recs[i]? = some r ∧ SharesFp r.post p ∧ ∀ d, J.verdict d p = .into i := by
  obtain ⟨t, ht, hpt⟩ := mem_allPosts.1 hp
  obtain ⟨k, hk⟩ := hm.home t ht
  obtain ⟨i, r, hr, _, hs⟩ := hk p hpt
  exact ⟨i, r, hr, hs, hm.verdict hp hr hs⟩

theorem Matched.decided {J : Book} {g : List TransactionPostings} (hm : Matched J g) (hg : InOrder g) {t : TransactionPostings} (ht : t ∈ g) :
    ¬ Undecided J t := by
  rintro (he | ⟨v, hv, ha⟩)
  · exact hg.nonempty t ht he
  · obtain ⟨p, hp, rfl⟩ := List.mem_map.1 hv
    obtain ⟨i, _, _, _, hvi⟩ := hm.found (mem_allPosts.2 ⟨t, ht, hp⟩)
    rw [hvi] at ha
    cases ha

theorem Matched.hits_eq {J : Book} {g : List TransactionPostings} (hm : Matched J g) (hg : InOrder g) {i : Nat} {r : Rec} (hr : J.recs[i]? = some r) :
    J.hits g i = (allPosts g).filter fun p => SharesFp r.post p := by
  unfold Spec.Book.hits allPosts
  rw [List.filter_flatMap]
  apply List.flatMap_congr
  intro t ht
  unfold trnHits
  rw [if_neg (hm.decided hg ht)]
  apply List.filter_congr
  intro p hp
  have hpa := mem_allPosts.2 ⟨t, ht, hp⟩
  obtain ⟨j, r', hr', hs, hv⟩ := hm.found hpa
  rw [hv, decide_eq_decide, Verdict.into.injEq]
  constructor
  · rintro rfl
    rw [hr] at hr'
    cases hr'
    exact hs
  · intro hs'
    exact hm.one p hpa j i r' r hr' hr hs hs'

theorem inOrder_nodup {g : List TransactionPostings} (hg : InOrder g) : (allPosts g).Nodup := by
  rw [List.nodup_iff_pairwise_ne]
  refine hg.distinct.imp_of_mem fun {a b} ha _ h e => h ?_
  rw [← e]
  exact sharesFp_self (hg.marked a ha)

theorem Matched.good {J : Book} {g : List TransactionPostings} (hm : Matched J g) (hg : InOrder g) : Good J g where
  ok := fun p hp => ⟨hg.clean p hp, hg.marked p hp⟩
  disjoint := hg.distinct
  noConflict := by
    rintro ⟨t, ht, hv⟩
    obtain ⟨p, hp, he⟩ := List.mem_map.1 hv
    obtain ⟨i, _, _, _, hvi⟩ := hm.found (mem_allPosts.2 ⟨t, ht, hp⟩)
    rw [hvi] at he
    cases he
  noSplit := by
    rintro ⟨t, ht, _, i, hi, j, hj, hne⟩
    obtain ⟨k, hk⟩ := hm.home t ht
    have key : ∀ i ∈ J.dests t, J.trnOf i = some k := by
      intro i hi
      obtain ⟨p, hp, hv⟩ := mem_dests.1 hi
      obtain ⟨i', r, hr, hrk, hs⟩ := hk p hp
      rw [hm.verdict (mem_allPosts.2 ⟨t, ht, hp⟩) hr hs] at hv
      cases hv
      simp [trnOf, hr, hrk]
    exact hne ((key i hi).trans (key j hj).symm)
  noSame := by
    rw [List.nodup_iff_count_le_one]
    intro i
    rw [count_allDests]
    cases hr : J.recs[i]? with
    | none =>
      have : J.hits g i = [] := by
        rw [List.eq_nil_iff_forall_not_mem]
        intro p hp
        obtain ⟨t, ht, _, hpt, hv⟩ := mem_hits.1 hp
        obtain ⟨j, r, hr', _, hvj⟩ := hm.found (mem_allPosts.2 ⟨t, ht, hpt⟩)
        rw [hvj] at hv
        cases hv
        rw [hr] at hr'
        cases hr'
      rw [this]
      exact Nat.zero_le _
    | some r =>
      rw [hm.hits_eq hg hr]
      have hn := (inOrder_nodup hg).sublist (List.filter_sublist (p := fun p => decide (SharesFp r.post p)))
      have hall : ∀ x ∈ (allPosts g).filter (fun p => decide (SharesFp r.post p)), ∀ y ∈ (allPosts g).filter (fun p => decide (SharesFp r.post p)), x = y := by
        intro x hx y hy
        obtain ⟨h1, h2⟩ := List.mem_filter.1 hx
        obtain ⟨h3, h4⟩ := List.mem_filter.1 hy
        exact hm.apart x h1 y h3 i r hr (of_decide_eq_true h2) (of_decide_eq_true h4)
      generalize (allPosts g).filter (fun p => decide (SharesFp r.post p)) = l at hn hall
      match l, hn with
      | [], _ => exact Nat.zero_le _
      | [a], _ => exact Nat.le_refl _
      | a :: b :: l, hn =>
        have := hall a List.mem_cons_self b (List.mem_cons_of_mem _ List.mem_cons_self)
        subst this
        simp at hn

theorem Matched.after_entries {J : Book} {g : List TransactionPostings} (hm : Matched J g) (hg : InOrder g) :
    (J.after g).entries = broughtInto J.entries g := by
  have h1 : (J.after g).hdrs = J.hdrs := by
    rw [after_hdrs]
    have : g.filter (J.Fresh ·) = [] := by
      rw [List.filter_eq_nil_iff]
      intro t ht hf
      rw [decide_eq_true_iff] at hf
      obtain ⟨p, hp⟩ := List.exists_mem_of_ne_nil _ (hg.nonempty t ht)
      obtain ⟨i, _, _, _, hv⟩ := hm.found (mem_allPosts.2 ⟨t, ht, hp⟩)
      have : i ∈ J.dests t := mem_dests.2 ⟨p, hp, hv _⟩
      rw [hf.2] at this
      cases this
    rw [this]
    simp
  have h3 : (J.after g).recs = J.recs.map fun r => { r with post := broughtIn g r.post } := by
    rw [after_recs]
    have : J.news J.hdrs.length g = [] := by
      apply List.eq_nil_iff_forall_not_mem.2
      intro r hr
      obtain ⟨t, ht, _, hp, hv, _⟩ := mem_news hr
      obtain ⟨i, _, _, _, hvi⟩ := hm.found (mem_allPosts.2 ⟨t, ht, hp⟩)
      rw [hvi] at hv
      cases hv
    rw [this, List.append_nil]
    apply List.ext_getElem?
    intro i
    rw [List.getElem?_mapIdx, List.getElem?_map]
    cases hr : J.recs[i]? with
    | none => rfl
    | some r =>
      simp only [Option.map_some, Option.some.injEq]
      rw [hm.hits_eq hg hr]
      rfl
  unfold Spec.Book.entries broughtInto
  rw [h1, h3]
  apply List.ext_getElem?
  intro k
  rw [List.getElem?_map, List.getElem?_mapIdx, List.getElem?_mapIdx]
  cases J.hdrs[k]? with
  | none => rfl
  | some hd =>
    simp only [Option.map_some, Option.some.injEq, TransactionPostings.mk.injEq, true_and]
    rw [List.filter_map, List.map_map, List.map_map]
    rfl

theorem mem_entries_allPosts {J : Book} (hw : J.WF) {q : PostingInternal} : q ∈ allPosts J.entries ↔ ∃ (i : Nat) (r : Rec), J.recs[i]? = some r ∧ r.post = q := by
  constructor
  · intro h
    obtain ⟨u, hu, hq⟩ := mem_allPosts.1 h
    obtain ⟨k, hk⟩ := List.mem_iff_getElem?.1 hu
    obtain ⟨r, hr, _, rfl⟩ := entries_posts hk hq
    obtain ⟨i, hi⟩ := List.mem_iff_getElem?.1 hr
    exact ⟨i, r, hi, rfl⟩
  · rintro ⟨i, r, hr, rfl⟩
    obtain ⟨u, hu, hp⟩ := mem_entries_posts hw (List.mem_of_getElem? hr)
    exact mem_allPosts.2 ⟨u, List.mem_of_getElem? hu, hp⟩

/-- Records with the same posting are the same. -/
theorem same_rec {J : Book} (hw : J.WF) {i j : Nat} {r s : Rec} (hr : J.recs[i]? = some r) (hs : J.recs[j]? = some s) (h : r.post = s.post) : i = j := by
  refine hw.unique i j r s hr hs ?_
  rw [h]
  exact sharesFp_self (hw.hasFp s (List.mem_of_getElem? hs))

theorem matched_iff {J : Book} (hw : J.WF) {g : List TransactionPostings} (hne : ∀ t ∈ g, t.posts ≠ []) :
    Matched J g ↔ Recognised g J.entries := by
  constructor
  · intro h
    refine ⟨?_, ?_, ?_⟩
    · intro t ht
      obtain ⟨k, hk⟩ := h.home t ht
      obtain ⟨p, hp⟩ := List.exists_mem_of_ne_nil _ (hne t ht)
      obtain ⟨i, r, hr, rfl, _⟩ := hk p hp
      obtain ⟨u, hu, _⟩ := mem_entries_posts hw (List.mem_of_getElem? hr)
      refine ⟨u, List.mem_of_getElem? hu, fun p hp => ?_⟩
      obtain ⟨i', r', hr', hrt, hs⟩ := hk p hp
      obtain ⟨u', hu', hp'⟩ := mem_entries_posts hw (List.mem_of_getElem? hr')
      rw [hrt, hu] at hu'
      cases hu'
      exact ⟨r'.post, hp', hs⟩
    · intro p hp q hq q' hq' h1 h2
      obtain ⟨i, r, hr, rfl⟩ := (mem_entries_allPosts hw).1 hq
      obtain ⟨j, s, hs, rfl⟩ := (mem_entries_allPosts hw).1 hq'
      have := h.one p hp i j r s hr hs h1 h2
      subst this
      rw [hr] at hs
      cases hs
      rfl
    · intro p hp p' hp' q hq h1 h2
      obtain ⟨i, r, hr, rfl⟩ := (mem_entries_allPosts hw).1 hq
      exact h.apart p hp p' hp' i r hr h1 h2
  · rintro ⟨h1, h2, h3⟩
    refine ⟨?_, ?_, ?_⟩
    · intro t ht
      obtain ⟨u, hu, hq⟩ := h1 t ht
      obtain ⟨k, hk⟩ := List.mem_iff_getElem?.1 hu
      refine ⟨k, fun p hp => ?_⟩
      obtain ⟨q, hq, hs⟩ := hq p hp
      obtain ⟨r, hr, hrk, rfl⟩ := entries_posts hk hq
      obtain ⟨i, hi⟩ := List.mem_iff_getElem?.1 hr
      exact ⟨i, r, hi, hrk, hs⟩
    · intro p hp i j r s hr hs hx hy
      exact same_rec hw hr hs (h2 p hp _ ((mem_entries_allPosts hw).2 ⟨i, r, hr, rfl⟩) _ ((mem_entries_allPosts hw).2 ⟨j, s, hs, rfl⟩) hx hy)
    · intro p hp p' hp' i r hr hx hy
      exact h3 p hp p' hp' _ ((mem_entries_allPosts hw).2 ⟨i, r, hr, rfl⟩) hx hy

/-- If all postings of the file are known, it is refused unless they are recognised. -/
theorem matched_of_good {J : Book} {g : List TransactionPostings} (hb : Good J g) (hg : InOrder g)
    (hk : ∀ p ∈ allPosts g, ∃ (i : Nat) (r : Rec), J.recs[i]? = some r ∧ SharesFp r.post p) : Matched J g := by
  have hone : ∀ p ∈ allPosts g, ∀ (i j : Nat) (r s : Rec), J.recs[i]? = some r → J.recs[j]? = some s → SharesFp r.post p → SharesFp s.post p → i = j := by
    intro p hp i j r s hr hs h1 h2
    by_contra hne
    obtain ⟨t, ht, hpt⟩ := mem_allPosts.1 hp
    exact hb.noConflict ⟨t, ht, List.mem_map.2 ⟨p, hpt, verdict_two hr hs h1 h2 hne _⟩⟩
  have hv : ∀ p ∈ allPosts g, ∀ (i : Nat) (r : Rec), J.recs[i]? = some r → SharesFp r.post p → ∀ d, J.verdict d p = .into i :=
    fun p hp i r hr hs => verdict_one hr hs fun j s h1 h2 => hone p hp j i s r h1 hr h2 hs
  have hdec : ∀ t ∈ g, ¬ Undecided J t := by
    rintro t ht (he | ⟨v, hv', ha⟩)
    · exact hg.nonempty t ht he
    · obtain ⟨p, hp, rfl⟩ := List.mem_map.1 hv'
      have hpa := mem_allPosts.2 ⟨t, ht, hp⟩
      obtain ⟨i, r, hr, hs⟩ := hk p hpa
      rw [hv p hpa i r hr hs] at ha
      cases ha
  refine ⟨?_, hone, ?_⟩
  · intro t ht
    refine ⟨J.home 0 t, fun p hp => ?_⟩
    have hpa := mem_allPosts.2 ⟨t, ht, hp⟩
    obtain ⟨i, r, hr, hs⟩ := hk p hpa
    refine ⟨i, r, hr, ?_, hs⟩
    have := hb.home_eq ht (hdec t ht) (mem_dests.2 ⟨p, hp, hv p hpa i r hr hs _⟩) 0
    simp only [trnOf, hr, Option.map_some, Option.some.injEq] at this
    exact this
  · intro p hp q hq i r hr h1 h2
    obtain ⟨t, ht, hpt⟩ := mem_allPosts.1 hp
    obtain ⟨t', ht', hqt⟩ := mem_allPosts.1 hq
    exact hb.hits_eq (mem_hits.2 ⟨t, ht, hdec t ht, hpt, hv p hp i r hr h1 _⟩) (mem_hits.2 ⟨t', ht', hdec t' ht', hqt, hv q hq i r hr h2 _⟩)

end Verif
