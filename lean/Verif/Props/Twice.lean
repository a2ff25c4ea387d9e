import Verif.Spec.Twice
import Verif.Props.Order
import Verif.Props.Matching3
import Verif.Examples.Base
import Mathlib.Tactic.Linarith

/-!
# C91: the same payments from two sources
-/

namespace Verif
open Spec Spec.Book

theorem softMatches_rivals {A : List TransactionPostings} (c : Nat) (d : Date) (q : PostingInternal) :
    ((newRecs c A).filter (fun r => r.date = d ∧ SoftMatch r.post q)).map (·.post) = rivals A d q := by
  unfold rivals allPosts
  induction A generalizing c with
  | nil => rfl
  | cons t A ih =>
    rw [newRecs, List.filter_append, List.map_append, ih, List.filter_cons]
    by_cases hd : dateOf t = d
    · rw [if_pos (by simpa using hd), List.flatMap_cons, List.filter_append]
      congr 1
      rw [List.filter_map, List.map_map]
      have : (List.map (Rec.post ∘ fun x => (⟨c, dateOf t, x⟩ : Rec))) = (id : List PostingInternal → _) := by
        funext l
        exact List.map_id l
      rw [this, id]
      apply List.filter_congr
      intro p _
      simp [hd]
    · rw [if_neg (by simpa using hd)]
      have : (t.posts.map (fun x => (⟨c, dateOf t, x⟩ : Rec))).filter (fun r => decide (r.date = d ∧ SoftMatch r.post q)) = [] := by
        rw [List.filter_eq_nil_iff]
        intro r hr
        obtain ⟨p, _, rfl⟩ := List.mem_map.1 hr
        simp [hd]
      rw [this]
      rfl

theorem hits_sub_allPosts (J : Book) (ts : List TransactionPostings) (i : Nat) : (J.hits ts i).Sublist (allPosts ts) := by
  unfold Spec.Book.hits allPosts
  induction ts with
  | nil => exact List.Sublist.refl _
  | cons t ts ih =>
    rw [List.flatMap_cons, List.flatMap_cons]
    refine List.Sublist.append ?_ ih
    unfold Spec.Book.trnHits
    split
    · exact List.nil_sublist _
    · exact List.filter_sublist

namespace TwoSrc
open OneAfter
variable {A B : List TransactionPostings} {M : TransactionPostings → TransactionPostings → Prop}

/-- Everything that is known about the two sources. -/
structure Ctx (A B : List TransactionPostings) (M : TransactionPostings → TransactionPostings → Prop) : Prop where
  two : TwoSources A B M
  goodA : Good Book.empty A
  goodB : Good Book.empty B

theorem Ctx.neA (h : Ctx A B M) : ∀ t ∈ A, t.posts ≠ [] := fun t ht => h.two.nonempty t (List.mem_append_left _ ht)
theorem Ctx.neB (h : Ctx A B M) : ∀ t ∈ B, t.posts ≠ [] := fun t ht => h.two.nonempty t (List.mem_append_right _ ht)

theorem Ctx.alone (h : Ctx A B M) : OneAfter A [] where
  ne := h.neA
  goodA := h.goodA
  good := ⟨fun _ h => (by cases h), List.Pairwise.nil, fun ⟨_, h, _⟩ => (by cases h), fun ⟨_, h, _⟩ => (by cases h), List.nodup_nil⟩
  dec := fun _ h => (by cases h)

theorem Ctx.nofp (h : Ctx A B M) {u : TransactionPostings} (hu : u ∈ B) {q : PostingInternal} (hq : q ∈ u.posts) :
    ∀ r ∈ (Book.empty.after A).recs, ¬ SharesFp r.post q := by
  intro r hr
  obtain ⟨t, ht, hp, _⟩ := mem_recs_empty_after hr
  exact h.two.fresh t ht _ hp u hu q hq

theorem Ctx.same_index (h : Ctx A B M) {i j : Nat} {r s : Rec} (hr : (Book.empty.after A).recs[i]? = some r)
    (hs : (Book.empty.after A).recs[j]? = some s) (e : r.post = s.post) : i = j := by
  refine h.alone.wf.unique i j r s hr hs ?_
  rw [e]
  exact sharesFp_self (h.alone.wf.hasFp s (List.mem_of_getElem? hs))

theorem Ctx.nodupB (h : Ctx A B M) {u : TransactionPostings} (hu : u ∈ B) : u.posts.Nodup := by
  have := h.goodB.nodup
  unfold allPosts at this
  rw [List.nodup_flatMap] at this
  exact this.1 u hu

theorem Ctx.nodupA (h : Ctx A B M) {u : TransactionPostings} (hu : u ∈ A) : u.posts.Nodup := by
  have := h.goodA.nodup
  unfold allPosts at this
  rw [List.nodup_flatMap] at this
  exact this.1 u hu

/-- The partner of a posting. -/
theorem Ctx.partner (h : Ctx A B M) {t u : TransactionPostings} (ht : t ∈ A) (hu : u ∈ B) (hm : M t u) {i : Nat} {q : PostingInternal}
    (hq : u.posts[i]? = some q) : ∃ p, t.posts[i]? = some p ∧ SoftMatch p q := by
  have hf := (h.two.reports t ht u hu hm).posts
  have hl := hf.length_eq
  have hi : i < t.posts.length := by
    rw [hl]
    exact (List.getElem?_eq_some_iff.1 hq).1
  refine ⟨t.posts[i], List.getElem?_eq_getElem hi, ?_⟩
  have := (List.forall₂_iff_get.1 hf).2 i hi (by omega)
  obtain ⟨_, e⟩ := List.getElem?_eq_some_iff.1 hq
  simpa [e] using this

/-- A transaction that cannot be mistaken goes where it belongs. -/
theorem Ctx.clear (h : Ctx A B M) {k : Nat} {t u : TransactionPostings} (hk : A[k]? = some t) (hu : u ∈ B) (hm : M t u) (hc : Unmistaken A t u)
    {i : Nat} {q : PostingInternal} (hq : u.posts[i]? = some q) :
    ∃ (j : Nat) (r : Rec), (Book.empty.after A).verdict (dateOf u) q = .into j ∧ (Book.empty.after A).recs[j]? = some r ∧ r.trn = k ∧
      t.posts[i]? = some r.post := by
  have ht := List.mem_of_getElem? hk
  obtain ⟨p, hp, hs⟩ := h.partner ht hu hm hq
  have hr := h.alone.ofRec hk (List.mem_of_getElem? hp)
  obtain ⟨j, hj⟩ := List.mem_iff_getElem?.1 hr
  refine ⟨j, _, ?_, hj, rfl, hp⟩
  refine verdict_of_soft (h.nofp hu (List.mem_of_getElem? hq)) ?_ ?_
  · exact mem_softHits.2 ⟨_, hj, (h.two.reports t ht u hu hm).date, hs⟩
  · intro j' hj'
    obtain ⟨r', hr', hd, hs'⟩ := mem_softHits.1 hj'
    obtain ⟨t', ht', hp', hd'⟩ := mem_recs_empty_after (List.mem_of_getElem? hr')
    refine h.same_index hr' hj ?_
    have := hc t' ht' (by rw [← hd', hd]) _ hp' i q hq hs'
    rw [hp] at this
    exact (Option.some.inj this).symm

/-- A transaction that can be mistaken is left to the human. -/
theorem Ctx.unclear (h : Ctx A B M) {t u : TransactionPostings} (ht : t ∈ A) (hu : u ∈ B) (hm : M t u) (hc : ¬ Unmistaken A t u) :
    Undecided (Book.empty.after A) u := by
  unfold Unmistaken at hc
  push Not at hc
  obtain ⟨t', ht', hd, r, hr, i, q, hq, hs, hne⟩ := hc
  obtain ⟨p, hp, hs'⟩ := h.partner ht hu hm hq
  obtain ⟨k, hk⟩ := List.mem_iff_getElem?.1 ht
  obtain ⟨k', hk'⟩ := List.mem_iff_getElem?.1 ht'
  obtain ⟨j, hj⟩ := List.mem_iff_getElem?.1 (h.alone.ofRec hk (List.mem_of_getElem? hp))
  obtain ⟨j', hj'⟩ := List.mem_iff_getElem?.1 (h.alone.ofRec hk' hr)
  have hne' : j ≠ j' := by
    rintro rfl
    rw [hj] at hj'
    have := congrArg Rec.post (Option.some.inj hj')
    simp only at this
    rw [this] at hp
    exact hne hp
  rw [undecided_iff]
  right
  refine ⟨q, List.mem_of_getElem? hq, fpHits_nil_iff.2 (h.nofp hu (List.mem_of_getElem? hq)), ?_⟩
  have m1 : j ∈ (Book.empty.after A).softHits (dateOf u) q := mem_softHits.2 ⟨_, hj, (h.two.reports t ht u hu hm).date, hs'⟩
  have m2 : j' ∈ (Book.empty.after A).softHits (dateOf u) q := mem_softHits.2 ⟨_, hj', hd, hs⟩
  match hl : (Book.empty.after A).softHits (dateOf u) q with
  | [] => rw [hl] at m1; cases m1
  | [a] =>
    rw [hl, List.mem_singleton] at m1 m2
    exact absurd (m1.trans m2.symm) hne'
  | _ :: _ :: _ => simp

/-- A transaction that only the second source reports is new. -/
theorem Ctx.other (h : Ctx A B M) {u : TransactionPostings} (hu : u ∈ B) (hn : ∀ t ∈ A, ¬ M t u) {q : PostingInternal} (hq : q ∈ u.posts) :
    (Book.empty.after A).verdict (dateOf u) q = .new := by
  rw [verdict_new_iff]
  intro r hr
  refine ⟨h.nofp hu hq r hr, ?_⟩
  rintro ⟨hd, hs⟩
  obtain ⟨t, ht, hp, hd'⟩ := mem_recs_empty_after hr
  exact h.two.others u hu hn t ht (by rw [← hd', hd]) _ hp q hq hs

theorem Ctx.undecided_iff (h : Ctx A B M) {u : TransactionPostings} (hu : u ∈ B) :
    Undecided (Book.empty.after A) u ↔ ∃ t ∈ A, M t u ∧ ¬ Unmistaken A t u := by
  constructor
  · intro hud
    by_cases hp : ∃ t ∈ A, M t u
    · obtain ⟨t, ht, hm⟩ := hp
      refine ⟨t, ht, hm, fun hc => ?_⟩
      rcases hud with hud | ⟨v, hv, ha⟩
      · exact h.neB u hu hud
      · obtain ⟨q, hq, rfl⟩ := List.mem_map.1 hv
        obtain ⟨i, hi⟩ := List.mem_iff_getElem?.1 hq
        obtain ⟨k, hk⟩ := List.mem_iff_getElem?.1 ht
        obtain ⟨j, _, hj, _⟩ := h.clear hk hu hm hc hi
        rw [hj] at ha
        cases ha
    · rcases hud with hud | ⟨v, hv, ha⟩
      · exact absurd hud (h.neB u hu)
      · obtain ⟨q, hq, rfl⟩ := List.mem_map.1 hv
        rw [h.other hu (fun t ht hm => hp ⟨t, ht, hm⟩) hq] at ha
        cases ha
  · rintro ⟨t, ht, hm, hc⟩
    exact h.unclear ht hu hm hc

/-- Where a posting of a decided transaction goes. -/
theorem Ctx.into (h : Ctx A B M) {u : TransactionPostings} (hu : u ∈ B) (hd : ¬ Undecided (Book.empty.after A) u) {i : Nat} {q : PostingInternal}
    (hq : u.posts[i]? = some q) {j : Nat} (hv : (Book.empty.after A).verdict (dateOf u) q = .into j) :
    ∃ k t, A[k]? = some t ∧ M t u ∧ Unmistaken A t u ∧ ∃ r, (Book.empty.after A).recs[j]? = some r ∧ r.trn = k ∧ t.posts[i]? = some r.post := by
  by_cases hp : ∃ t ∈ A, M t u
  · obtain ⟨t, ht, hm⟩ := hp
    have hc : Unmistaken A t u := by
      by_contra hc
      exact hd (h.unclear ht hu hm hc)
    obtain ⟨k, hk⟩ := List.mem_iff_getElem?.1 ht
    obtain ⟨j', r, h1, h2, h3, h4⟩ := h.clear hk hu hm hc hq
    rw [h1] at hv
    cases hv
    exact ⟨k, t, hk, hm, hc, r, h2, h3, h4⟩
  · rw [h.other hu (fun t ht hm => hp ⟨t, ht, hm⟩) (List.mem_of_getElem? hq)] at hv
    cases hv

theorem mem_dests {J : Book} {t : TransactionPostings} {i : Nat} (h : i ∈ J.dests t) : ∃ q ∈ t.posts, J.verdict (dateOf t) q = .into i := by
  unfold Spec.Book.dests at h
  obtain ⟨v, hv, e⟩ := List.mem_filterMap.1 h
  obtain ⟨q, hq, rfl⟩ := List.mem_map.1 hv
  refine ⟨q, hq, ?_⟩
  cases hx : J.verdict (dateOf t) q with
  | into j => rw [hx] at e; simp only [Verdict.dest?, Option.some.injEq] at e; rw [e]
  | _ => rw [hx] at e; cases e

theorem Ctx.good (h : Ctx A B M) : Good (Book.empty.after A) B where
  ok := h.goodB.ok
  disjoint := h.goodB.disjoint
  noConflict := by
    rintro ⟨u, hu, hv⟩
    obtain ⟨q, hq, hv⟩ := List.mem_map.1 hv
    unfold verdict at hv
    rw [fpHits_nil_iff.2 (h.nofp hu hq)] at hv
    simp only at hv
    split at hv <;> cases hv
  noSplit := by
    rintro ⟨u, hu, hd, i, hi, j, hj, hne⟩
    obtain ⟨q, hq, hv⟩ := mem_dests hi
    obtain ⟨q', hq', hv'⟩ := mem_dests hj
    obtain ⟨n, hn⟩ := List.mem_iff_getElem?.1 hq
    obtain ⟨n', hn'⟩ := List.mem_iff_getElem?.1 hq'
    obtain ⟨k, t, hk, hm, hc, _⟩ := h.into hu hd hn hv
    obtain ⟨j1, r, e1, hr, h3, _⟩ := h.clear hk hu hm hc hn
    obtain ⟨j2, s, e2, hs, h4, _⟩ := h.clear hk hu hm hc hn'
    rw [e1] at hv
    rw [e2] at hv'
    cases hv
    cases hv'
    apply hne
    unfold trnOf
    rw [hr, hs]
    simp [h3, h4]
  noSame := by
    rw [List.nodup_iff_count_le_one]
    intro j
    rw [count_allDests]
    have hnd := (hits_sub_allPosts (Book.empty.after A) B j).nodup h.goodB.nodup
    match hl : (Book.empty.after A).hits B j with
    | [] => simp
    | [_] => simp
    | q :: q' :: l =>
      exfalso
      have m1 : q ∈ (Book.empty.after A).hits B j := by rw [hl]; simp
      have m2 : q' ∈ (Book.empty.after A).hits B j := by rw [hl]; simp
      rw [hl] at hnd
      have hne : q ≠ q' := by
        rintro rfl
        simp at hnd
      obtain ⟨u, hu, hd, hq, hv⟩ := mem_hits.1 m1
      obtain ⟨u', hu', hd', hq', hv'⟩ := mem_hits.1 m2
      obtain ⟨n, hn⟩ := List.mem_iff_getElem?.1 hq
      obtain ⟨n', hn'⟩ := List.mem_iff_getElem?.1 hq'
      obtain ⟨k, t, hk, hm, hc, r, hr, e, hp⟩ := h.into hu hd hn hv
      obtain ⟨k', t', hk', hm', hc', r', hr', e', hp'⟩ := h.into hu' hd' hn' hv'
      rw [hr] at hr'
      cases hr'
      have : k = k' := by rw [← e, ← e']
      subst this
      rw [hk] at hk'
      cases hk'
      have := h.two.right t (List.mem_of_getElem? hk) u hu u' hu' hm hm'
      subst this
      have hi : n = n' := by
        have hnd := h.nodupA (List.mem_of_getElem? hk)
        obtain ⟨l1, e1⟩ := List.getElem?_eq_some_iff.1 hp
        obtain ⟨l2, e2⟩ := List.getElem?_eq_some_iff.1 hp'
        exact (List.Nodup.getElem_inj_iff hnd).1 (e1.trans e2.symm)
      subst hi
      rw [hn] at hn'
      exact hne (Option.some.inj hn')

open Classical in
/-- The transactions that are not handed back. -/
noncomputable def kept (A B : List TransactionPostings) : List TransactionPostings := B.filter fun t => ¬ Undecided (Book.empty.after A) t

theorem mem_kept {u : TransactionPostings} : u ∈ kept A B ↔ u ∈ B ∧ ¬ Undecided (Book.empty.after A) u := by
  unfold kept
  rw [List.mem_filter, decide_eq_true_iff]

theorem Ctx.one (h : Ctx A B M) : OneAfter A (kept A B) where
  ne := h.neA
  goodA := h.goodA
  good := good_sublist List.filter_sublist h.good
  dec := fun _ hu => (mem_kept.1 hu).2

/-- A posting is taken for its partner and for nothing else. -/
theorem Ctx.pairs_iff (h : Ctx A B M) {t : TransactionPostings} (ht : t ∈ A) {i : Nat} {p : PostingInternal} (hp : t.posts[i]? = some p)
    {q : PostingInternal} : Pairs A (kept A B) p q ↔ ∃ u ∈ B, M t u ∧ Unmistaken A t u ∧ u.posts[i]? = some q := by
  obtain ⟨k, hk⟩ := List.mem_iff_getElem?.1 ht
  obtain ⟨j, hj⟩ := List.mem_iff_getElem?.1 (h.alone.ofRec hk (List.mem_of_getElem? hp))
  constructor
  · intro hx
    have hx' := hx
    obtain ⟨_, _, _, u, hu, hq, _⟩ := hx
    obtain ⟨n, hn⟩ := List.mem_iff_getElem?.1 hq
    have hv := (h.one.into_pairs hj hu hq).2 hx'
    obtain ⟨k', t', hk', hm, hc, r, hr, e, hp'⟩ := h.into (mem_kept.1 hu).1 (mem_kept.1 hu).2 hn hv
    rw [hj] at hr
    cases hr
    simp only at e hp'
    subst e
    rw [hk] at hk'
    cases hk'
    refine ⟨u, (mem_kept.1 hu).1, hm, hc, ?_⟩
    have hi : i = n := by
      have hnd := h.nodupA ht
      obtain ⟨l1, e1⟩ := List.getElem?_eq_some_iff.1 hp
      obtain ⟨l2, e2⟩ := List.getElem?_eq_some_iff.1 hp'
      exact (List.Nodup.getElem_inj_iff hnd).1 (e1.trans e2.symm)
    rw [hi]
    exact hn
  · rintro ⟨u, hu, hm, hc, hq⟩
    have hd : ¬ Undecided (Book.empty.after A) u := by
      rw [h.undecided_iff hu]
      rintro ⟨t', ht', hm', hc'⟩
      have := h.two.left t ht t' ht' u hu hm hm'
      subst this
      exact hc' hc
    obtain ⟨j', r, h1, h2, h3, h4⟩ := h.clear hk hu hm hc hq
    rw [hp] at h4
    have := h.same_index h2 hj (Option.some.inj h4).symm
    subst this
    exact (h.one.into_pairs hj (mem_kept.2 ⟨hu, hd⟩) (List.mem_of_getElem? hq)).1 h1

theorem Ctx.joined (h : Ctx A B M) {t u : TransactionPostings} (ht : t ∈ A) (hu : u ∈ B) (hm : M t u) (hc : Unmistaken A t u) :
    grown A (kept A B) t = ⟨t.trn, List.zipWith absorb t.posts u.posts⟩ := by
  classical
  have hlen := (h.two.reports t ht u hu hm).posts.length_eq
  have e1 : t.posts.map (merged A (kept A B)) = List.zipWith absorb t.posts u.posts := by
    apply List.ext_getElem
    · simp [hlen]
    · intro i h1 h2
      rw [List.getElem_map, List.getElem_zipWith]
      simp only [List.length_map] at h1
      refine h.one.merged_of ((h.pairs_iff ht (List.getElem?_eq_getElem h1)).2 ⟨u, hu, hm, hc, List.getElem?_eq_getElem (by omega)⟩)
  have e2 : ((kept A B).filter fun u => PairsTrn A (kept A B) t u).flatMap
      (fun u => u.posts.filter fun q => ¬ ∃ p ∈ t.posts, Pairs A (kept A B) p q) = [] := by
    rw [List.flatMap_eq_nil_iff]
    intro u' hu'
    rw [List.mem_filter, decide_eq_true_iff] at hu'
    obtain ⟨hu1, p, hp, q, hq, hx⟩ := hu'
    rw [List.filter_eq_nil_iff]
    intro q' hq'
    rw [decide_eq_true_iff, not_not]
    obtain ⟨i, hi⟩ := List.mem_iff_getElem?.1 hp
    obtain ⟨u2, hu2, hm2, hc2, hi2⟩ := (h.pairs_iff ht hi).1 hx
    have := h.two.right t ht u hu u2 hu2 hm hm2
    subst this
    have := h.goodB.trn_eq (mem_kept.1 hu1).1 hu hq (List.mem_of_getElem? hi2)
    subst this
    obtain ⟨n, hn⟩ := List.mem_iff_getElem?.1 hq'
    obtain ⟨p', hp', _⟩ := h.partner ht hu hm hn
    exact ⟨p', List.mem_of_getElem? hp', (h.pairs_iff ht hp').2 ⟨_, hu, hm, hc, hn⟩⟩
  unfold grown
  rw [e1, e2, List.append_nil]

theorem Ctx.unjoined (h : Ctx A B M) {t : TransactionPostings} (ht : t ∈ A) (hn : ∀ u ∈ B, M t u → ¬ Unmistaken A t u) :
    grown A (kept A B) t = t := by
  refine OneAfter.grown_alone ?_
  rintro u _ ⟨p, hp, q, hq, hx⟩
  obtain ⟨i, hi⟩ := List.mem_iff_getElem?.1 hp
  obtain ⟨u2, hu2, hm2, hc2, _⟩ := (h.pairs_iff ht hi).1 hx
  exact hn u2 hu2 hm2 hc2

open Classical in
theorem Ctx.entries (h : Ctx A B M) : ∃ old, List.Forall₂ (JoinedBy A B M) A old ∧
    ((Book.empty.after A).after B).entries = old ++ B.filter fun u => ∀ t ∈ A, ¬ M t u := by
  refine ⟨A.map (grown A (kept A B)), ?_, ?_⟩
  · rw [List.forall₂_map_right_iff, List.forall₂_same]
    intro t ht
    by_cases hc : ∃ u ∈ B, M t u ∧ Unmistaken A t u
    · obtain ⟨u, hu, hm, hc⟩ := hc
      exact .inl ⟨u, hu, hm, hc, h.joined ht hu hm hc⟩
    · have hn : ∀ u ∈ B, M t u → ¬ Unmistaken A t u := fun u hu hm hx => hc ⟨u, hu, hm, hx⟩
      exact .inr ⟨hn, h.unjoined ht hn⟩
  · have e : (Book.empty.after A).after B = (Book.empty.after A).after (kept A B) := by
      unfold kept
      rw [← after_filter]
    rw [e, h.one.entries]
    congr 1
    unfold kept
    rw [List.filter_filter]
    apply List.filter_congr
    intro u hu
    rw [Bool.and_eq_decide, decide_eq_decide, decide_eq_true_iff, decide_eq_true_iff]
    constructor
    · rintro ⟨h1, h2⟩ t ht hm
      by_cases hc : Unmistaken A t u
      · obtain ⟨q, hq⟩ := List.exists_mem_of_ne_nil _ (h.neB u hu)
        obtain ⟨i, hi⟩ := List.mem_iff_getElem?.1 hq
        obtain ⟨p, hp, _⟩ := h.partner ht hu hm hi
        exact h1 ⟨t, ht, p, List.mem_of_getElem? hp, q, hq, (h.pairs_iff ht hp).2 ⟨u, hu, hm, hc, hi⟩⟩
      · exact h2 (h.unclear ht hu hm hc)
    · intro hn
      constructor
      · rintro ⟨t, ht, p, hp, q, hq, hx⟩
        obtain ⟨i, hi⟩ := List.mem_iff_getElem?.1 hp
        obtain ⟨u2, hu2, hm2, _, hi2⟩ := (h.pairs_iff ht hi).1 hx
        have := h.goodB.trn_eq hu hu2 hq (List.mem_of_getElem? hi2)
        subst this
        exact hn t ht hm2
      · rw [h.undecided_iff hu]
        rintro ⟨t, ht, hm, _⟩
        exact hn t ht hm

end TwoSrc

open TwoSrc

open Classical in
/-- C91: two sources `A` and `B` that are each accepted on their own, such as the CSV and the PDF file of one statement, report some payments both. Then
`B` can be merged into the journal of `A`. The reports of a payment become one transaction if on that day no posting of `A` other than the
right ones matches; they are merged posting by posting. Otherwise the report of `B` is handed back, with the names of all postings that it may be, and that
of `A` stays. What only one of them reports is in the journal as it is. -/
theorem C91_twice (h h' h₂ h₃ : HashOrder) (A B us us' : List TransactionPostings) (m mB : Merger) (M : TransactionPostings → TransactionPostings → Prop)
    (hA : Merger.new.merge h A = (.ok us, m)) (hB : Merger.new.merge h' B = (.ok us', mB)) (ht : TwoSources A B M) :
    ∃ ws m' old, m.merge h₂ B = (.ok ws, m') ∧
      List.Forall₂ (AsksWhich A) (B.filter fun u => ∃ t ∈ A, M t u ∧ ¬ Unmistaken A t u) ws ∧
      List.Forall₂ (JoinedBy A B M) A old ∧
      m'.build h₃ = .ok (byDate (old ++ B.filter fun u => ∀ t ∈ A, ¬ M t u)) := by
  obtain ⟨hnA, rfl, hR⟩ := merge_ok R_new hA
  obtain ⟨hnB, -, -⟩ := merge_ok R_new hB
  have hc : Ctx A B M := ⟨ht, good_iff.2 hnA, good_iff.2 hnB⟩
  rcases merge_spec hR h₂ B with ⟨hb, _⟩ | ⟨_, m', hm, hR'⟩
  · exact absurd hb (good_iff.1 hc.good)
  obtain ⟨old, ho, he⟩ := hc.entries
  refine ⟨_, m', old, hm, ?_, ho, ?_⟩
  · unfold handedBack
    have e : (B.filter fun u => ∃ t ∈ A, M t u ∧ ¬ Unmistaken A t u) = B.filter fun t => Undecided (Book.empty.after A) t := by
      apply List.filter_congr
      intro u hu
      rw [decide_eq_decide, hc.undecided_iff hu]
    rw [e, List.forall₂_map_right_iff, List.forall₂_same]
    intro u hu
    have hu := (List.mem_filter.1 hu).1
    refine ⟨rfl, ?_⟩
    unfold handBack
    rw [List.forall₂_map_right_iff, List.forall₂_same]
    intro q hq
    have hs : (Book.empty.after A).softMatches (dateOf u) q = rivals A (dateOf u) q := by
      unfold softMatches
      rw [hc.alone.recs_eq, softMatches_rivals]
    have hun : (Book.empty.after A).Unclear (dateOf u) q ↔ 2 ≤ (rivals A (dateOf u) q).length := by
      unfold Spec.Book.Unclear
      rw [hs]
      exact ⟨fun h => h.2, fun h => ⟨hc.nofp hu hq, h⟩⟩
    have ha := handBackPost_annotated (pickFp_ok (h := h₂) hR.wf) (dateOf u) q
    rw [candidates_eq, hs] at ha
    constructor
    · intro h2
      rwa [if_pos (hun.2 h2)] at ha
    · intro h2
      unfold handBackPost
      split
      · rename_i is hv
        obtain ⟨h1, h2', h3⟩ := ambiguous_softHits hv
        exact absurd (hun.1 (unclear_iff.2 ⟨h1, h2' ▸ h3⟩)) (by omega)
      · rfl
  · rw [hR'.build h₃, journal_eq, he]

/-! ### Payments -/

theorem Spec.SameAmount.value {a b : Amount} (h : SameAmount a b) : Spec.value a.quantity = Spec.value b.quantity := h.1

theorem samePlain {a b : Amount} : OptRel SamePostingAmount (some ⟨a, none, none⟩) (some ⟨b, none, none⟩) ↔ SameAmount a b :=
  ⟨fun h => h.1, fun h => ⟨h, trivial, trivial⟩⟩

theorem balancesAgree_none (b : Option Balance) : BalancesAgree b none := by cases b <;> trivial

theorem Spec.SamePayment.reports {t u : TransactionPostings} (h : SamePayment t u) : Reports t u := by
  obtain ⟨hd, hun, o, p, a, o', p', a', h1, h2, hsa, hba⟩ := h
  obtain ⟨b, hb, hbc, hbv⟩ := h1.amount'
  obtain ⟨b', hb', hbc', hbv'⟩ := h2.amount'
  refine ⟨hd, ?_⟩
  rw [h1.posts, h2.posts]
  refine .cons ⟨.inr (.inl (hun _ (by rw [h2.posts]; simp))), ?_, hba⟩ (.cons ⟨.inr (.inl (hun _ (by rw [h2.posts]; simp))), ?_, ?_⟩ .nil)
  · rw [h1.amount, h2.amount, samePlain]
    exact hsa
  · rw [hb, hb', samePlain]
    exact ⟨by rw [hbv, hbv', hsa.1], by rw [hbc, hbc', hsa.2]⟩
  · rw [h2.balance]
    exact balancesAgree_none _

/-- C91: when a payment can be mistaken. The report `u` of a payment of `A` has unknown accounts, as every import has. Then it cannot be mistaken exactly if
the sum is not zero and no other payment of `A` on that day is of the same sum, paid or received. The balances do not help. -/
theorem C91_payment (h : HashOrder) (A us : List TransactionPostings) (m : Merger) (hA : Merger.new.merge h A = (.ok us, m))
    (hp : ∀ t ∈ A, ∃ o p a, Pays t o p a) (t u : TransactionPostings) (ht : t ∈ A) (hs : SamePayment t u) : Unmistaken A t u ↔ Alone A t := by
  obtain ⟨hnA, -, -⟩ := merge_ok R_new hA
  have hg := good_iff.2 hnA
  obtain ⟨hd, hun, o, p, a, o', p', a', h1, h2, hsa, hba⟩ := hs
  obtain ⟨b, hb, hbc, hbv⟩ := h1.amount'
  obtain ⟨b', hb', hbc', hbv'⟩ := h2.amount'
  have hne : o ≠ p := by
    have hn := hg.nodup
    unfold allPosts at hn
    rw [List.nodup_flatMap] at hn
    have := hn.1 t ht
    rw [h1.posts] at this
    simpa using this
  have uo : UnknownAccount o' := hun o' (by rw [h2.posts]; simp)
  have up : UnknownAccount p' := hun p' (by rw [h2.posts]; simp)
  -- what matches the second posting
  have peer : ∀ r x, r.raw.amount = some ⟨x, none, none⟩ → (SoftMatch r p' ↔ x.commodity = a.commodity ∧ value x.quantity = - value a.quantity) := by
    intro r x hr
    unfold SoftMatch
    rw [hr, hb', samePlain, h2.balance]
    unfold SameAmount
    rw [hbv', hbc', ← hsa.1, ← hsa.2]
    exact ⟨fun h => ⟨h.2.1.2, h.2.1.1⟩, fun h => ⟨.inr (.inl up), ⟨h.2, h.1⟩, balancesAgree_none _⟩⟩
  -- what matches the first
  have own : ∀ r x, r.raw.amount = some ⟨x, none, none⟩ → SoftMatch r o' → x.commodity = a.commodity ∧ value x.quantity = value a.quantity := by
    intro r x hr hm
    have := hm.2.1
    rw [hr, h2.amount, samePlain] at this
    exact ⟨this.2.trans hsa.2.symm, this.1.trans hsa.1.symm⟩
  constructor
  · intro hu o1 p1 a1 h1'
    have e := h1.posts.symm.trans h1'.posts
    simp only [List.cons.injEq, and_true] at e
    obtain ⟨rfl, rfl⟩ := e
    have e := h1.amount.symm.trans h1'.amount
    simp only [Option.some.injEq, PostingAmount.mk.injEq, and_true] at e
    subst e
    have key : ∀ t' ∈ A, dateOf t' = dateOf t → ∀ r ∈ t'.posts, SoftMatch r p' → r = p := by
      intro t' ht' hd' r hr hm
      have := hu t' ht' (hd'.trans hd) r hr 1 p' (by rw [h2.posts]; rfl) hm
      rw [h1.posts] at this
      exact (Option.some.inj this).symm
    constructor
    · intro h0
      refine hne (key t ht rfl o (by rw [h1.posts]; simp) ((peer o a h1.amount).2 ⟨rfl, ?_⟩))
      rw [h0]
      simp
    · intro t' ht' hd' o2 p2 a2 h3 hss
      obtain ⟨b2, hb2, hbc2, hbv2⟩ := h3.amount'
      have : p ∈ t'.posts := by
        rcases hss.2 with he | he
        · have := key t' ht' hd' p2 (by rw [h3.posts]; simp) ((peer p2 b2 hb2).2 ⟨hbc2.trans hss.1, by rw [hbv2, he]⟩)
          rw [← this, h3.posts]
          simp
        · have := key t' ht' hd' o2 (by rw [h3.posts]; simp) ((peer o2 a2 h3.amount).2 ⟨hss.1, he⟩)
          rw [← this, h3.posts]
          simp
      exact hg.trn_eq ht' ht this (by rw [h1.posts]; simp)
  · intro hal t' ht' hd' r hr i q hq hm
    obtain ⟨h0, halone⟩ := hal o p a h1
    obtain ⟨o2, p2, a2, h3⟩ := hp t' ht'
    obtain ⟨b2, hb2, hbc2, hbv2⟩ := h3.amount'
    have hr' : r = o2 ∨ r = p2 := by
      rw [h3.posts] at hr
      simpa using hr
    have nz : value a.quantity ≠ - value a.quantity := by
      intro e
      apply h0
      linarith
    have same : SameSum a2 a → t' = t := halone t' ht' (hd'.trans hd.symm) o2 p2 a2 h3
    have finish : t' = t → o2 = o ∧ p2 = p ∧ a2 = a := by
      rintro rfl
      have e := h1.posts.symm.trans h3.posts
      simp only [List.cons.injEq, and_true] at e
      obtain ⟨rfl, rfl⟩ := e
      have e := h1.amount.symm.trans h3.amount
      simp only [Option.some.injEq, PostingAmount.mk.injEq, and_true] at e
      exact ⟨rfl, rfl, e.symm⟩
    rw [h2.posts] at hq
    match i, hq with
    | 0, hq =>
      simp only [List.getElem?_cons_zero, Option.some.injEq] at hq
      subst hq
      rw [h1.posts]
      show some o = some r
      rcases hr' with rfl | rfl
      · obtain ⟨hc, hv⟩ := own _ _ h3.amount hm
        rw [(finish (same ⟨hc, .inl hv⟩)).1]
      · obtain ⟨hc, hv⟩ := own _ _ hb2 hm
        rw [hbv2] at hv
        obtain ⟨-, -, e⟩ := finish (same ⟨hbc2.symm.trans hc, .inr (by rw [← hv]; simp)⟩)
        rw [e] at hv
        exact absurd hv.symm nz
    | 1, hq =>
      simp only [List.getElem?_cons_succ, List.getElem?_cons_zero, Option.some.injEq] at hq
      subst hq
      rw [h1.posts]
      show some p = some r
      rcases hr' with rfl | rfl
      · obtain ⟨hc, hv⟩ := (peer _ _ h3.amount).1 hm
        obtain ⟨-, -, e⟩ := finish (same ⟨hc, .inr hv⟩)
        rw [e] at hv
        exact absurd hv nz
      · obtain ⟨hc, hv⟩ := (peer _ _ hb2).1 hm
        rw [hbv2] at hv
        rw [(finish (same ⟨hbc2.symm.trans hc, .inl (by linarith)⟩)).2.1]
    | n + 2, hq => simp at hq

open Classical in
/-- C91: two sources report the same payments. Exactly those are handed back whose sum is zero or occurs again on that day; the others are merged. There are as
many transactions in the journal as payments. -/
theorem C91_statement (h h' h₂ h₃ : HashOrder) (A B us us' : List TransactionPostings) (m mB : Merger)
    (hA : Merger.new.merge h A = (.ok us, m)) (hB : Merger.new.merge h' B = (.ok us', mB)) (hAB : List.Forall₂ SamePayment A B)
    (hfp : ∀ t ∈ A, ∀ p ∈ t.posts, ∀ u ∈ B, ∀ q ∈ u.posts, ¬ SharesFp p q) :
    ∃ ws m', m.merge h₂ B = (.ok ws, m') ∧
      List.Forall₂ (AsksWhich A) (((A.zip B).filter fun x => ¬ Alone A x.1).map (·.2)) ws ∧
      m'.build h₃ = .ok (byDate (List.zipWith (fun t u => if Alone A t then ⟨t.trn, List.zipWith absorb t.posts u.posts⟩ else t) A B)) := by
  have hlen := hAB.length_eq
  have pay : ∀ (i : Nat) t u, A[i]? = some t → B[i]? = some u → SamePayment t u := by
    intro i t u h1 h2
    obtain ⟨l1, rfl⟩ := List.getElem?_eq_some_iff.1 h1
    obtain ⟨l2, rfl⟩ := List.getElem?_eq_some_iff.1 h2
    exact (List.forall₂_iff_get.1 hAB).2 i l1 l2
  have other : ∀ u ∈ B, ∃ (i : Nat) (t : TransactionPostings), A[i]? = some t ∧ B[i]? = some u := by
    intro u hu
    obtain ⟨i, hi⟩ := List.mem_iff_getElem?.1 hu
    obtain ⟨l, _⟩ := List.getElem?_eq_some_iff.1 hi
    exact ⟨i, _, List.getElem?_eq_getElem (by omega), hi⟩
  have otherA : ∀ t ∈ A, ∃ (i : Nat) (u : TransactionPostings), A[i]? = some t ∧ B[i]? = some u := by
    intro u hu
    obtain ⟨i, hi⟩ := List.mem_iff_getElem?.1 hu
    obtain ⟨l, _⟩ := List.getElem?_eq_some_iff.1 hi
    exact ⟨i, _, hi, List.getElem?_eq_getElem (by omega)⟩
  obtain ⟨hnA, -, -⟩ := merge_ok R_new hA
  obtain ⟨hnB, -, -⟩ := merge_ok R_new hB
  have neA : ∀ t ∈ A, t.posts ≠ [] := by
    intro t ht
    obtain ⟨i, u, h1, h2⟩ := otherA t ht
    obtain ⟨-, -, o, p, a, _, _, _, hx, -⟩ := pay i t u h1 h2
    rw [hx.posts]
    simp
  have neB : ∀ t ∈ B, t.posts ≠ [] := by
    intro t ht
    obtain ⟨i, u, h1, h2⟩ := other t ht
    obtain ⟨-, -, o, p, a, _, _, _, -, hx, -⟩ := pay i u t h1 h2
    rw [hx.posts]
    simp
  have nA := nodup_of_posts neA (good_iff.2 hnA).nodup
  have nB := nodup_of_posts neB (good_iff.2 hnB).nodup
  have inj : ∀ {l : List TransactionPostings}, l.Nodup → ∀ {i j : Nat} {t}, l[i]? = some t → l[j]? = some t → i = j := by
    intro l hn i j t h1 h2
    obtain ⟨l1, e1⟩ := List.getElem?_eq_some_iff.1 h1
    obtain ⟨l2, e2⟩ := List.getElem?_eq_some_iff.1 h2
    exact (List.Nodup.getElem_inj_iff hn).1 (e1.trans e2.symm)
  set M : TransactionPostings → TransactionPostings → Prop := fun t u => ∃ i : Nat, A[i]? = some t ∧ B[i]? = some u with hM
  have two : TwoSources A B M := by
    refine ⟨?_, hfp, ?_, ?_, ?_, ?_⟩
    · intro t ht
      rcases List.mem_append.1 ht with ht | ht
      · exact neA t ht
      · exact neB t ht
    · rintro t _ u _ ⟨i, h1, h2⟩
      exact (pay i t u h1 h2).reports
    · rintro t _ t' _ u _ ⟨i, h1, h2⟩ ⟨j, h3, h4⟩
      have := inj nB h2 h4
      subst this
      rw [h1] at h3
      exact Option.some.inj h3
    · rintro t _ u _ u' _ ⟨i, h1, h2⟩ ⟨j, h3, h4⟩
      have := inj nA h1 h3
      subst this
      rw [h2] at h4
      exact Option.some.inj h4
    · intro u hu hn
      obtain ⟨i, t, h1, h2⟩ := other u hu
      exact absurd ⟨i, h1, h2⟩ (hn t (List.mem_of_getElem? h1))
  have hp : ∀ t ∈ A, ∃ o p a, Pays t o p a := by
    intro t ht
    obtain ⟨i, u, h1, h2⟩ := otherA t ht
    obtain ⟨-, -, o, p, a, _, _, _, hx, -⟩ := pay i t u h1 h2
    exact ⟨o, p, a, hx⟩
  obtain ⟨ws, m', old, h1, h2, h3, h4⟩ := C91_twice h h' h₂ h₃ A B us us' m mB M hA hB two
  refine ⟨ws, m', h1, ?_, ?_⟩
  · have e : (B.filter fun u => ∃ t ∈ A, M t u ∧ ¬ Unmistaken A t u) = ((A.zip B).filter fun x => ¬ Alone A x.1).map (·.2) := by
      conv_lhs => rw [← List.map_snd_zip (l₁ := A) (l₂ := B) (by omega)]
      rw [List.filter_map]
      congr 1
      apply List.filter_congr
      rintro ⟨t, u⟩ hx
      obtain ⟨i, hi⟩ := List.mem_iff_getElem?.1 hx
      rw [List.getElem?_zip_eq_some] at hi
      have ht := List.mem_of_getElem? hi.1
      show decide _ = decide _
      rw [decide_eq_decide]
      constructor
      · rintro ⟨t', ht', hm, hun⟩
        have := two.left t ht t' ht' u (List.mem_of_getElem? hi.2) ⟨i, hi.1, hi.2⟩ hm
        subst this
        rwa [C91_payment h A us m hA hp t u ht (pay i t u hi.1 hi.2)] at hun
      · intro hal
        refine ⟨t, ht, ⟨i, hi.1, hi.2⟩, ?_⟩
        rwa [C91_payment h A us m hA hp t u ht (pay i t u hi.1 hi.2)]
    rw [← e]
    exact h2
  · rw [h4]
    congr 2
    have e : (B.filter fun u => ∀ t ∈ A, ¬ M t u) = [] := by
      rw [List.filter_eq_nil_iff]
      intro u hu hn
      rw [decide_eq_true_iff] at hn
      obtain ⟨i, t, h1, h2⟩ := other u hu
      exact hn t (List.mem_of_getElem? h1) ⟨i, h1, h2⟩
    rw [e, List.append_nil]
    have hl := h3.length_eq
    apply List.ext_getElem
    · simp [hlen, ← hl]
    · intro i l1 l2
      have lA : i < A.length := by omega
      have lB : i < B.length := by omega
      rw [List.getElem_zipWith]
      have hi1 : A[i]? = some A[i] := List.getElem?_eq_getElem lA
      have hi2 : B[i]? = some B[i] := List.getElem?_eq_getElem lB
      have hj := (List.forall₂_iff_get.1 h3).2 i lA l1
      simp only [List.get_eq_getElem] at hj
      have hal := C91_payment h A us m hA hp A[i] B[i] (List.getElem_mem lA) (pay i _ _ hi1 hi2)
      rcases hj with ⟨u, hu, hm, hun, hj⟩ | ⟨hn, hj⟩
      · have := two.right _ (List.getElem_mem lA) u hu B[i] (List.getElem_mem lB) hm ⟨i, hi1, hi2⟩
        subst this
        rw [if_pos (hal.1 hun), hj]
      · rw [if_neg (fun hx => hn _ (List.getElem_mem lB) ⟨i, hi1, hi2⟩ (hal.2 hx)), hj]

/-! ### Example -/

/-- A source with a bus ride, two meals at the same price and a book. -/
def paper : List TransactionPostings :=
  [Ex.trn 3 "bus" [Ex.post "assets:a" (-150) ["fp-a1"], Ex.post "expenses:bus" 150 ["fp-a2"]],
   Ex.trn 4 "soup" [Ex.post "assets:a" (-500) ["fp-a3"], Ex.post "expenses:food" 500 ["fp-a4"]],
   Ex.trn 4 "cake" [Ex.post "assets:a" (-500) ["fp-a5"], Ex.post "expenses:food" 500 ["fp-a6"]],
   Ex.trn 5 "book" [Ex.post "assets:a" (-900) ["fp-a7"], Ex.post "expenses:books" 900 ["fp-a8"]]]

/-- Another source that knows of the bus ride and one of the meals, and of a gift. -/
def online : List TransactionPostings :=
  [Ex.trn 3 "BUS CO" [Ex.post "x" (-150) ["fp-b1", "unknown-account"], Ex.post "y" 150 ["fp-b2", "unknown-account"]],
   Ex.trn 4 "SOUP CO" [Ex.post "x" (-500) ["fp-b3", "unknown-account"], Ex.post "y" 500 ["fp-b4", "unknown-account"]],
   Ex.trn 5 "GIFT" [Ex.post "x" 2000 ["fp-b5", "unknown-account"], Ex.post "y" (-2000) ["fp-b6", "unknown-account"]]]

/-- The bus ride and the soup are in both. -/
def inBoth (t u : TransactionPostings) : Prop :=
  (t.trn.raw.description = "bus".toList ∧ u.trn.raw.description = "BUS CO".toList) ∨
  (t.trn.raw.description = "soup".toList ∧ u.trn.raw.description = "SOUP CO".toList)
instance (t u) : Decidable (inBoth t u) := by unfold inBoth; infer_instance

set_option maxRecDepth 100000 in
theorem paper_online : TwoSources paper online inBoth where
  nonempty := by decide +kernel
  fresh := by decide +kernel
  reports := by
    have h : ∀ t ∈ paper, ∀ u ∈ online, inBoth t u → dateOf t = dateOf u ∧ t.posts.length = u.posts.length ∧
        ∀ x ∈ t.posts.zip u.posts, SoftMatch x.1 x.2 := by decide +kernel
    intro t ht u hu hm
    obtain ⟨h1, h2, h3⟩ := h t ht u hu hm
    exact ⟨h1, List.forall₂_iff_zip.2 ⟨h2, fun {a b} hab => h3 (a, b) hab⟩⟩
  left := by decide +kernel
  right := by decide +kernel
  others := by decide +kernel

set_option maxRecDepth 100000 in
/-- The bus ride is merged, the soup is handed back, as it may be the cake, and the gift is new. -/
example : ∃ us m us' mB, Merger.new.merge HashOrder.sorted paper = (.ok us, m) ∧ Merger.new.merge HashOrder.sorted online = (.ok us', mB) ∧
    TwoSources paper online inBoth ∧ ∃ ws m', m.merge HashOrder.sorted online = (.ok ws, m') ∧ ws.map (·.trn.raw.description) = ["SOUP CO".toList] ∧
      ∃ js, m'.build HashOrder.sorted = .ok js ∧ js.map (fun t => (t.trn.raw.description, t.posts.map fps)) =
        [("bus".toList, [["fp-a1".toList, "fp-b1".toList], ["fp-a2".toList, "fp-b2".toList]]),
         ("soup".toList, [["fp-a3".toList], ["fp-a4".toList]]), ("cake".toList, [["fp-a5".toList], ["fp-a6".toList]]),
         ("book".toList, [["fp-a7".toList], ["fp-a8".toList]]), ("GIFT".toList, [["fp-b5".toList], ["fp-b6".toList]])] := by
  have h1 : (Merger.new.merge HashOrder.sorted paper).1 = .ok [] := by decide +kernel
  have h2 : (Merger.new.merge HashOrder.sorted online).1 = .ok [] := by decide +kernel
  have e1 : Merger.new.merge HashOrder.sorted paper = (.ok [], (Merger.new.merge HashOrder.sorted paper).2) := Prod.ext h1 rfl
  have e2 : Merger.new.merge HashOrder.sorted online = (.ok [], (Merger.new.merge HashOrder.sorted online).2) := Prod.ext h2 rfl
  obtain ⟨ws, m', old, h3, h4, h5, h6⟩ := C91_twice HashOrder.sorted HashOrder.sorted HashOrder.sorted HashOrder.sorted paper online [] [] _ _ inBoth e1 e2 paper_online
  refine ⟨[], _, [], _, e1, e2, paper_online, ws, m', h3, ?_, _, h6, ?_⟩
  · have : (((Merger.new.merge HashOrder.sorted paper).2.merge HashOrder.sorted online).1.toOption.map fun ws => ws.map (·.trn.raw.description)) =
        some ["SOUP CO".toList] := by decide +kernel
    rw [h3] at this
    exact Option.some.inj this
  · have : ((((Merger.new.merge HashOrder.sorted paper).2.merge HashOrder.sorted online).2.build HashOrder.sorted).toOption.map fun js =>
        js.map (fun t => (t.trn.raw.description, t.posts.map fps))) = some
        [("bus".toList, [["fp-a1".toList, "fp-b1".toList], ["fp-a2".toList, "fp-b2".toList]]),
         ("soup".toList, [["fp-a3".toList], ["fp-a4".toList]]), ("cake".toList, [["fp-a5".toList], ["fp-a6".toList]]),
         ("book".toList, [["fp-a7".toList], ["fp-a8".toList]]), ("GIFT".toList, [["fp-b5".toList], ["fp-b6".toList]])] := by rw [Ex.build_eval]; decide +kernel
    rw [h3] at this
    rw [h6] at this
    exact Option.some.inj this

end Verif
