import Verif.Proofs.Absorb
import Mathlib.Data.List.Pairwise

/-!
# Merged inputs stay merged
-/

namespace Verif
open Spec Spec.Book

/-- `J'` is `J` after some merging. -/
structure Ext (J J' : Book) : Prop where
  hdrs : J.hdrs <+: J'.hdrs
  recs : ∀ (i : Nat) (r : Rec), J.recs[i]? = some r →
    ∃ r', J'.recs[i]? = some r' ∧ r'.trn = r.trn ∧ r'.date = r.date ∧ Grown r.post r'.post

theorem ext_refl (J : Book) : Ext J J := ⟨List.prefix_refl _, fun _ r h => ⟨r, h, rfl, rfl, grown_refl _⟩⟩

theorem Ext.trans {J K L : Book} (h1 : Ext J K) (h2 : Ext K L) : Ext J L where
  hdrs := h1.hdrs.trans h2.hdrs
  recs := fun i r hr => by
    obtain ⟨r', hr', a, b, c⟩ := h1.recs i r hr
    obtain ⟨r'', hr'', a', b', c'⟩ := h2.recs i r' hr'
    exact ⟨r'', hr'', a'.trans a, b'.trans b, c.trans c'⟩

theorem ext_after (J : Book) (ts : List TransactionPostings) : Ext J (J.after ts) where
  hdrs := by rw [after_hdrs]; exact List.prefix_append _ _
  recs := fun i r hr => by
    have hi : i < J.recs.length := by
      by_contra hc; rw [List.getElem?_eq_none (by omega)] at hr; cases hr
    refine ⟨_, after_old J ts hi, ?_⟩
    rw [List.getElem?_eq_getElem hi] at hr
    cases hr
    exact ⟨rfl, rfl, grown_foldl _ _⟩

theorem ext_step (J : Book) (ts : List TransactionPostings) : Ext J (J.step ts) := by
  unfold Book.step
  split
  · exact ext_refl J
  · exact ext_after J ts

theorem ext_steps (J : Book) (hist : List (List TransactionPostings)) : Ext J (hist.foldl Book.step J) := by
  induction hist generalizing J with
  | nil => exact ext_refl J
  | cons ts hist ih => exact (ext_step J ts).trans (ih _)

/-! ### Good input -/

/-- The opposite of `Bad`, as usable facts. -/
structure Good (J : Book) (ts : List TransactionPostings) : Prop where
  ok : ∀ p ∈ allPosts ts, PostOK p
  disjoint : (allPosts ts).Pairwise (fun p q => ¬ SharesFp p q)
  noConflict : ¬ J.Conflicting ts
  noSplit : ¬ J.Split ts
  noSame : (J.allDests ts).Nodup

theorem good_iff {J : Book} {ts : List TransactionPostings} : Good J ts ↔ ¬ J.Bad ts := by
  constructor
  · rintro hg (h | h | h | h | h | h)
    · obtain ⟨p, hp, t, ht, hc⟩ := h; exact (hg.ok p hp).1 t ht hc
    · obtain ⟨p, hp, hf⟩ := h; exact (hg.ok p hp).2 hf
    · exact h hg.disjoint
    · exact hg.noConflict h
    · exact hg.noSplit h
    · exact h hg.noSame
  · intro h
    unfold Bad at h
    simp only [not_or] at h
    obtain ⟨h1, h2, h3, h4, h5, h6⟩ := h
    refine ⟨?_, ?_, h4, h5, ?_⟩
    · intro p hp
      exact ⟨fun t ht hc => h1 ⟨p, hp, t, ht, hc⟩, fun hf => h2 ⟨p, hp, hf⟩⟩
    · exact not_not.1 h3
    · exact not_not.1 h6

theorem sharesFp_self {p : PostingInternal} (h : fps p ≠ []) : SharesFp p p := by
  obtain ⟨f, hf⟩ := List.exists_mem_of_ne_nil _ h
  exact ⟨f, hf, hf⟩

theorem Good.eq_of_shares {J : Book} {ts : List TransactionPostings} (hg : Good J ts) {p q : PostingInternal}
    (hp : p ∈ allPosts ts) (hq : q ∈ allPosts ts) (h : SharesFp p q) : p = q := by
  by_contra hne
  have : Std.Symm (fun p q => ¬ SharesFp p q) := ⟨fun a b hab hba => hab (sharesFp_comm.1 hba)⟩
  exact hg.disjoint.forall hp hq hne h

theorem Good.nodup {J : Book} {ts : List TransactionPostings} (hg : Good J ts) : (allPosts ts).Nodup := by
  refine hg.disjoint.imp_of_mem ?_
  rintro p q hp hq hpq rfl
  exact hpq (sharesFp_self (hg.ok p hp).2)

theorem mem_allPosts {ts : List TransactionPostings} {p : PostingInternal} :
    p ∈ allPosts ts ↔ ∃ t ∈ ts, p ∈ t.posts := by unfold allPosts; exact List.mem_flatMap

theorem count_dests (J : Book) (t : TransactionPostings) (i : Nat) :
    (J.dests t).count i = (t.posts.filter (fun p => J.verdict (dateOf t) p = .into i)).length := by
  unfold dests verdicts
  induction t.posts with
  | nil => rfl
  | cons p ps ih =>
    rw [List.map_cons, List.filterMap_cons, List.filter_cons]
    cases hv : J.verdict (dateOf t) p with
    | into j =>
      simp only [Verdict.dest?, List.count_cons, ih, Verdict.into.injEq, decide_eq_true_eq, beq_iff_eq]
      split <;> simp
    | new => simpa [Verdict.dest?] using ih
    | ambiguous is => simpa [Verdict.dest?] using ih
    | conflict => simpa [Verdict.dest?] using ih

theorem count_allDests (J : Book) (ts : List TransactionPostings) (i : Nat) :
    (J.allDests ts).count i = (J.hits ts i).length := by
  induction ts with
  | nil => rfl
  | cons t ts ih =>
    have h1 : J.hits (t :: ts) i = J.trnHits t i ++ J.hits ts i := by simp [hits]
    rw [h1, List.length_append, ← ih]
    unfold allDests
    rw [List.filter_cons]
    by_cases hu : Undecided J t
    · simp [hu, trnHits]
    · simp [hu, trnHits, count_dests]

theorem Good.hits_le_one {J : Book} {ts : List TransactionPostings} (hg : Good J ts) (i : Nat) :
    (J.hits ts i).length ≤ 1 := by
  rw [← count_allDests]
  exact List.nodup_iff_count_le_one.1 hg.noSame i

theorem Good.hits_eq {J : Book} {ts : List TransactionPostings} (hg : Good J ts) {i : Nat} {p q : PostingInternal}
    (hp : p ∈ J.hits ts i) (hq : q ∈ J.hits ts i) : p = q := by
  have := hg.hits_le_one i
  match hl : J.hits ts i, this with
  | [], _ => rw [hl] at hp; cases hp
  | [a], _ => rw [hl] at hp hq; simp at hp hq; rw [hp, hq]
  | _ :: _ :: _, h => simp at h

/-- The record after the call contains a decided input posting iff the posting was put there. -/
theorem Good.shares_after {J : Book} {ts : List TransactionPostings} (hg : Good J ts) {t : TransactionPostings}
    (ht : t ∈ ts) (hu : ¬ Undecided J t) {p : PostingInternal} (hp : p ∈ t.posts) {i : Nat} {r : Rec}
    (hr : (J.after ts).recs[i]? = some r) (hs : SharesFp r.post p) :
    (i < J.recs.length ∧ p ∈ J.hits ts i) ∨ (J.recs.length ≤ i ∧ r.post = p) := by
  have hpa : p ∈ allPosts ts := mem_allPosts.2 ⟨t, ht, hp⟩
  by_cases hi : i < J.recs.length
  · left
    refine ⟨hi, ?_⟩
    rw [after_old J ts hi] at hr
    cases hr
    obtain ⟨f, hf, hfp⟩ := hs
    rcases mem_fps_foldl.1 hf with hf | ⟨q, hq, hfq⟩
    · have hm : i ∈ J.fpHits p := mem_fpHits.2 ⟨J.recs[i], List.getElem?_eq_getElem hi, f, hf, hfp⟩
      refine mem_hits.2 ⟨t, ht, hu, hp, ?_⟩
      have hnc : J.verdict (dateOf t) p ≠ .conflict := by
        intro hv
        exact hg.noConflict ⟨t, ht, by unfold verdicts; exact List.mem_map.2 ⟨p, hp, hv⟩⟩
      unfold verdict at hnc ⊢
      split
      · rename_i j hj; rw [hj] at hm; simp at hm; rw [hm]
      · rename_i h; rw [h] at hnc; simp at hnc
      · rename_i h; rw [h] at hm; cases hm
    · have hqa : q ∈ allPosts ts := by
        obtain ⟨t', ht', _, hq', _⟩ := mem_hits.1 hq
        exact mem_allPosts.2 ⟨t', ht', hq'⟩
      rw [← hg.eq_of_shares hqa hpa ⟨f, hfq, hfp⟩]; exact hq
  · right
    refine ⟨by omega, ?_⟩
    rw [after_recs, List.getElem?_append_right (by simp; omega)] at hr
    obtain ⟨t', ht', _, hp', _⟩ := mem_news (List.mem_of_getElem? hr)
    exact hg.eq_of_shares (mem_allPosts.2 ⟨t', ht', hp'⟩) hpa hs

/-- An input that the book has absorbed: every posting is part of a record, all postings of a
transaction are in one transaction of the book, and different postings are in different records. -/
structure Settled (J : Book) (ts : List TransactionPostings) : Prop where
  ok : ∀ p ∈ allPosts ts, PostOK p
  disjoint : (allPosts ts).Pairwise (fun p q => ¬ SharesFp p q)
  nonempty : ∀ t ∈ ts, t.posts ≠ []
  home : ∀ t ∈ ts, ∃ k, ∀ p ∈ t.posts, ∃ (i : Nat) (r : Rec), J.recs[i]? = some r ∧ r.trn = k ∧ ∀ f ∈ fps p, f ∈ fps r.post
  apart : ∀ p ∈ allPosts ts, ∀ q ∈ allPosts ts, ∀ (i : Nat) (r : Rec), J.recs[i]? = some r →
    SharesFp r.post p → SharesFp r.post q → p = q

theorem not_conflict {J : Book} {ts : List TransactionPostings} (hg : Good J ts) {t : TransactionPostings} (ht : t ∈ ts)
    {p : PostingInternal} (hp : p ∈ t.posts) : J.verdict (dateOf t) p ≠ .conflict := by
  intro hv
  exact hg.noConflict ⟨t, ht, by unfold verdicts; exact List.mem_map.2 ⟨p, hp, hv⟩⟩

theorem mem_dests {J : Book} {t : TransactionPostings} {i : Nat} :
    i ∈ J.dests t ↔ ∃ p ∈ t.posts, J.verdict (dateOf t) p = .into i := by
  unfold dests verdicts
  rw [List.mem_filterMap]
  simp only [List.mem_map]
  constructor
  · rintro ⟨v, ⟨p, hp, rfl⟩, hv⟩
    refine ⟨p, hp, ?_⟩
    cases h : J.verdict (dateOf t) p <;> rw [h] at hv <;> simp [Verdict.dest?] at hv
    rw [hv]
  · rintro ⟨p, hp, hv⟩
    exact ⟨_, ⟨p, hp, rfl⟩, by rw [hv]; rfl⟩

/-- All records that a decided transaction goes into belong to its home. -/
theorem Good.home_eq {J : Book} {ts : List TransactionPostings} (hg : Good J ts) {t : TransactionPostings} (ht : t ∈ ts)
    (hu : ¬ Undecided J t) {i : Nat} (hi : i ∈ J.dests t) (c : Nat) : J.trnOf i = some (J.home c t) := by
  have hlt := dests_lt hi
  have hs : J.trnOf i = some J.recs[i].trn := by simp [trnOf, List.getElem?_eq_getElem hlt]
  cases hl : J.dests t with
  | nil => rw [hl] at hi; cases hi
  | cons j l =>
    have hj : j ∈ J.dests t := by rw [hl]; simp
    have heq : J.trnOf i = J.trnOf j := by
      by_contra hne
      exact hg.noSplit ⟨t, ht, hu, i, hi, j, hj, hne⟩
    unfold Spec.Book.home
    rw [hl]
    simp only [List.head?_cons, Option.bind_some]
    rw [← heq, hs]; rfl

/-- Where a decided posting ends up. -/
theorem Good.lands {J : Book} {ts : List TransactionPostings} (hg : Good J ts) {t : TransactionPostings} (ht : t ∈ ts)
    (hu : ¬ Undecided J t) : ∃ k, ∀ p ∈ t.posts, ∃ (i : Nat) (r : Rec), (J.after ts).recs[i]? = some r ∧ r.trn = k ∧
      ∀ f ∈ fps p, f ∈ fps r.post := by
  obtain ⟨c, hc⟩ := news_of_mem (J := J) J.hdrs.length ht hu
  refine ⟨J.home c t, ?_⟩
  intro p hp
  cases hv : J.verdict (dateOf t) p with
  | into i =>
    have hi := verdict_into_lt hv
    refine ⟨i, _, after_old J ts hi, ?_, ?_⟩
    · have := hg.home_eq ht hu (mem_dests.2 ⟨p, hp, hv⟩) c
      simp only [trnOf, List.getElem?_eq_getElem hi, Option.map_some, Option.some.injEq] at this
      exact this
    · intro f hf
      exact mem_fps_foldl.2 (Or.inr ⟨p, mem_hits.2 ⟨t, ht, hu, hp, hv⟩, hf⟩)
  | conflict => exact absurd hv (not_conflict hg ht hp)
  | ambiguous is =>
    exact absurd (Or.inr ⟨_, by unfold verdicts; exact List.mem_map.2 ⟨p, hp, rfl⟩, by rw [hv]; rfl⟩) hu
  | new =>
    have := hc p hp (by rw [hv]; rfl)
    have hm : (⟨J.home c t, dateOf t, p⟩ : Rec) ∈ (J.after ts).recs := by
      rw [after_recs]; exact List.mem_append_right _ this
    obtain ⟨i, hi⟩ := List.mem_iff_getElem?.1 hm
    exact ⟨i, _, hi, rfl, fun f hf => hf⟩

theorem settled_after {J : Book} {ts : List TransactionPostings} (hg : Good J ts)
    (hd : ∀ t ∈ ts, ¬ Undecided J t) : Settled (J.after ts) ts where
  ok := hg.ok
  disjoint := hg.disjoint
  nonempty := fun t ht he => hd t ht (Or.inl he)
  home := fun t ht => hg.lands ht (hd t ht)
  apart := by
    intro p hp q hq i r hr hsp hsq
    obtain ⟨t, ht, hpt⟩ := mem_allPosts.1 hp
    obtain ⟨t', ht', hqt⟩ := mem_allPosts.1 hq
    rcases hg.shares_after ht (hd t ht) hpt hr hsp with ⟨h1, h2⟩ | ⟨h1, h2⟩ <;>
      rcases hg.shares_after ht' (hd t' ht') hqt hr hsq with ⟨g1, g2⟩ | ⟨g1, g2⟩
    · exact hg.hits_eq h2 g2
    · omega
    · omega
    · rw [← h2, ← g2]

theorem Settled.mono {J J' : Book} {ts : List TransactionPostings} (hs : Settled J ts) (he : Ext J J') (hw : J'.WF) :
    Settled J' ts where
  ok := hs.ok
  disjoint := hs.disjoint
  nonempty := hs.nonempty
  home := by
    intro t ht
    obtain ⟨k, hk⟩ := hs.home t ht
    refine ⟨k, ?_⟩
    intro p hp
    obtain ⟨i, r, hr, ht', hf⟩ := hk p hp
    obtain ⟨r', hr', h1, _, h3⟩ := he.recs i r hr
    exact ⟨i, r', hr', h1.trans ht', fun f hf' => h3.fingerprints f (hf f hf')⟩
  apart := by
    have key : ∀ p ∈ allPosts ts, ∀ (j : Nat) (r' : Rec), J'.recs[j]? = some r' → SharesFp r'.post p →
        ∃ r, J.recs[j]? = some r ∧ SharesFp r.post p := by
      intro p hp j r' hr' hsh
      obtain ⟨t, ht, hpt⟩ := mem_allPosts.1 hp
      obtain ⟨k, hk⟩ := hs.home t ht
      obtain ⟨i, r, hr, _, hf⟩ := hk p hpt
      obtain ⟨r'', hr'', _, _, hgr⟩ := he.recs i r hr
      obtain ⟨f, hf1, hf2⟩ := hsh
      have : j = i := hw.unique j i r' r'' hr' hr'' ⟨f, hf1, hgr.fingerprints f (hf f hf2)⟩
      subst this
      exact ⟨r, hr, f, hf f hf2, hf2⟩
    intro p hp q hq i r hr h1 h2
    obtain ⟨r1, hr1, g1⟩ := key p hp i r hr h1
    obtain ⟨r2, hr2, g2⟩ := key q hq i r hr h2
    rw [hr1] at hr2; cases hr2
    exact hs.apart p hp q hq i r1 hr1 g1 g2

/-- The verdict on a settled posting. -/
theorem Settled.verdict {J : Book} {ts : List TransactionPostings} (hs : Settled J ts) (hw : J.WF) (d : Date)
    {p : PostingInternal} (hp : p ∈ allPosts ts) : ∃ (i : Nat) (r : Rec), J.recs[i]? = some r ∧ (∀ f ∈ fps p, f ∈ fps r.post) ∧
      J.verdict d p = .into i := by
  obtain ⟨t, ht, hpt⟩ := mem_allPosts.1 hp
  obtain ⟨k, hk⟩ := hs.home t ht
  obtain ⟨i, r, hr, _, hf⟩ := hk p hpt
  refine ⟨i, r, hr, hf, ?_⟩
  obtain ⟨f, hfp⟩ := List.exists_mem_of_ne_nil _ (hs.ok p hp).2
  have hall : ∀ j, j ∈ J.fpHits p ↔ j = i := by
    intro j
    rw [mem_fpHits]
    constructor
    · rintro ⟨r', hr', g, hg1, hg2⟩
      exact hw.unique j i r' r hr' hr ⟨g, hg1, hf g hg2⟩
    · rintro rfl; exact ⟨r, hr, f, hf f hfp, hfp⟩
  have hn : (J.fpHits p).Nodup := where_nodup _ _
  have : J.fpHits p = [i] := by
    match hl : J.fpHits p, hn with
    | [], _ => have := (hall i).2 rfl; rw [hl] at this; cases this
    | [a], _ => have := (hall a).1 (by rw [hl]; simp); rw [this]
    | a :: b :: l, hn =>
      have ha := (hall a).1 (by rw [hl]; simp)
      have hb := (hall b).1 (by rw [hl]; simp)
      subst ha; subst hb; simp at hn
  unfold Spec.Book.verdict
  rw [this]

theorem Settled.decided {J : Book} {ts : List TransactionPostings} (hs : Settled J ts) (hw : J.WF)
    {t : TransactionPostings} (ht : t ∈ ts) : ¬ Undecided J t := by
  rintro (he | ⟨v, hv, ha⟩)
  · exact hs.nonempty t ht he
  · unfold verdicts at hv
    obtain ⟨p, hp, rfl⟩ := List.mem_map.1 hv
    obtain ⟨i, _, _, _, hvi⟩ := hs.verdict hw (dateOf t) (mem_allPosts.2 ⟨t, ht, hp⟩)
    rw [hvi] at ha
    cases ha

theorem Settled.good {J : Book} {ts : List TransactionPostings} (hs : Settled J ts) (hw : J.WF) : Good J ts where
  ok := hs.ok
  disjoint := hs.disjoint
  noConflict := by
    rintro ⟨t, ht, hv⟩
    unfold verdicts at hv
    obtain ⟨p, hp, he⟩ := List.mem_map.1 hv
    obtain ⟨i, _, _, _, hvi⟩ := hs.verdict hw (dateOf t) (mem_allPosts.2 ⟨t, ht, hp⟩)
    rw [he] at hvi; cases hvi
  noSplit := by
    rintro ⟨t, ht, _, i, hi, j, hj, hne⟩
    obtain ⟨k, hk⟩ := hs.home t ht
    have key : ∀ i ∈ J.dests t, J.trnOf i = some k := by
      intro i hi
      obtain ⟨p, hp, hv⟩ := mem_dests.1 hi
      obtain ⟨i', r, hr, hf, hvi⟩ := hs.verdict hw (dateOf t) (mem_allPosts.2 ⟨t, ht, hp⟩)
      rw [hv] at hvi; cases hvi
      obtain ⟨i', r', hr', hk', hf'⟩ := hk p hp
      obtain ⟨f, hfp⟩ := List.exists_mem_of_ne_nil _ (hs.ok p (mem_allPosts.2 ⟨t, ht, hp⟩)).2
      have : i = i' := hw.unique i i' r r' hr hr' ⟨f, hf f hfp, hf' f hfp⟩
      subst this
      simp [trnOf, hr', hk']
    exact hne ((key i hi).trans (key j hj).symm)
  noSame := by
    rw [List.nodup_iff_count_le_one]
    intro i
    rw [count_allDests]
    by_contra hgt
    have hn : (J.hits ts i).Sublist (allPosts ts) := by
      unfold hits allPosts
      clear hgt
      induction ts with
      | nil => simp
      | cons t ts ih =>
        rw [List.flatMap_cons, List.flatMap_cons]
        apply List.Sublist.append
        · unfold trnHits; split
          · exact List.nil_sublist _
          · exact List.filter_sublist
        · exact ih ⟨fun p hp => hs.ok p (by rw [allPosts_cons]; simp [hp]),
            by have := hs.disjoint; rw [allPosts_cons, List.pairwise_append] at this; exact this.2.1,
            fun t ht => hs.nonempty t (by simp [ht]), fun t ht => hs.home t (by simp [ht]),
            fun p hp q hq => hs.apart p (by rw [allPosts_cons]; simp [hp]) q (by rw [allPosts_cons]; simp [hq])⟩
    have hdis := hs.disjoint.sublist hn
    match hl : J.hits ts i, hgt with
    | [], h => simp at h
    | [_], h => simp at h
    | a :: b :: l, _ =>
      rw [hl] at hdis hn
      have ha : a ∈ J.hits ts i := by rw [hl]; simp
      have hb : b ∈ J.hits ts i := by rw [hl]; simp
      have key : ∀ x ∈ J.hits ts i, x ∈ allPosts ts ∧ ∃ r, J.recs[i]? = some r ∧ SharesFp r.post x := by
        intro x hx
        obtain ⟨t, ht, _, hxt, hv⟩ := mem_hits.1 hx
        have hxa := mem_allPosts.2 ⟨t, ht, hxt⟩
        obtain ⟨i', r, hr, hf, hvi⟩ := hs.verdict hw (dateOf t) hxa
        rw [hv] at hvi; cases hvi
        obtain ⟨f, hfp⟩ := List.exists_mem_of_ne_nil _ (hs.ok x hxa).2
        exact ⟨hxa, r, hr, f, hf f hfp, hfp⟩
      obtain ⟨ha1, r, hr, ha2⟩ := key a ha
      obtain ⟨hb1, r', hr', hb2⟩ := key b hb
      rw [hr] at hr'; cases hr'
      have hab := hs.apart a ha1 b hb1 i r hr ha2 hb2
      subst hab
      have := (List.pairwise_cons.1 hdis).1 a (by simp)
      exact this (sharesFp_self (hs.ok a ha1).2)

/-- Nothing new comes from a settled input. -/
theorem Settled.after_eq {J : Book} {ts : List TransactionPostings} (hs : Settled J ts) (hw : J.WF) :
    (J.after ts).hdrs = J.hdrs ∧
    (J.after ts).recs = J.recs.mapIdx (fun i r => { r with post := (J.hits ts i).foldl absorb r.post }) := by
  constructor
  · rw [after_hdrs]
    have : ts.filter (J.Fresh ·) = [] := by
      rw [List.filter_eq_nil_iff]
      intro t ht hf
      rw [decide_eq_true_iff] at hf
      obtain ⟨p, hp⟩ := List.exists_mem_of_ne_nil _ (hs.nonempty t ht)
      obtain ⟨i, _, _, _, hv⟩ := hs.verdict hw (dateOf t) (mem_allPosts.2 ⟨t, ht, hp⟩)
      have : i ∈ J.dests t := mem_dests.2 ⟨p, hp, hv⟩
      rw [hf.2] at this; cases this
    rw [this]; simp
  · rw [after_recs]
    have : J.news J.hdrs.length ts = [] := by
      apply List.eq_nil_iff_forall_not_mem.2
      intro r hr
      obtain ⟨t, ht, _, hp, hv, _⟩ := mem_news hr
      obtain ⟨i, _, _, _, hvi⟩ := hs.verdict hw (dateOf t) (mem_allPosts.2 ⟨t, ht, hp⟩)
      rw [hvi] at hv; cases hv
    rw [this]; simp

theorem handedBack_nil_iff {J : Book} {pick : Nat → Str} {ts : List TransactionPostings} :
    J.handedBack pick ts = [] ↔ ∀ t ∈ ts, ¬ Undecided J t := by
  unfold handedBack
  rw [List.map_eq_nil_iff, List.filter_eq_nil_iff]
  simp

/-- Merging the same input again right away does not change the book. -/
theorem after_after {J : Book} {ts : List TransactionPostings} (hg : Good J ts) (hw : (J.after ts).WF)
    (hd : ∀ t ∈ ts, ¬ Undecided J t) : (J.after ts).after ts = J.after ts := by
  have hs := settled_after hg hd
  obtain ⟨h1, h2⟩ := hs.after_eq hw
  have : ((J.after ts).after ts).recs = (J.after ts).recs := by
    rw [h2]
    apply List.ext_getElem?
    intro i
    rw [List.getElem?_mapIdx]
    cases hr : (J.after ts).recs[i]? with
    | none => rfl
    | some r =>
      simp only [Option.map_some, Option.some.injEq]
      have habs : ∀ p ∈ (J.after ts).hits ts i, absorb r.post p = r.post := by
        intro p hp
        obtain ⟨t, ht, _, hpt, hv⟩ := mem_hits.1 hp
        have hpa := mem_allPosts.2 ⟨t, ht, hpt⟩
        obtain ⟨i', r', hr', hf, hvi⟩ := hs.verdict hw (dateOf t) hpa
        rw [hv] at hvi; cases hvi
        rw [hr] at hr'; cases hr'
        obtain ⟨f, hfp⟩ := List.exists_mem_of_ne_nil _ (hg.ok p hpa).2
        rcases hg.shares_after ht (hd t ht) hpt hr ⟨f, hf f hfp, hfp⟩ with ⟨g1, g2⟩ | ⟨g1, g2⟩
        · rw [after_old J ts g1] at hr
          cases hr
          have hle := hg.hits_le_one i
          match hl : J.hits ts i, hle with
          | [], _ => rw [hl] at g2; cases g2
          | [a], _ =>
            rw [hl] at g2; simp at g2; subst g2
            simp only [List.foldl_cons, List.foldl_nil]
            exact absorb_absorb _ _
          | _ :: _ :: _, h => simp at h
        · rw [g2]; exact absorb_self p
      have hfold : ∀ l : List PostingInternal, (∀ p ∈ l, absorb r.post p = r.post) → l.foldl absorb r.post = r.post := by
        intro l
        induction l with
        | nil => intro _; rfl
        | cons p l ih =>
          intro h
          rw [List.foldl_cons, h p (by simp)]
          exact ih (fun q hq => h q (by simp [hq]))
      rw [hfold _ habs]
  rcases hA : (J.after ts).after ts with ⟨a, b⟩
  rcases hB : J.after ts with ⟨c, d⟩
  rw [hA] at h1 this
  rw [hB] at h1 this
  simp only at h1 this
  rw [h1, this]

end Verif
