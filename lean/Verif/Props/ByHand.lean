import Verif.Spec.ByHand
import Verif.Props.Matching4
import Verif.Props.Commands

/-!
# C88: resolving a whole unmerged transaction by hand
-/

namespace Verif
open Spec Spec.Book Ex

theorem pairwise_of_forall₂ {α β : Type} {Rel : α → β → Prop} {A : α → α → Prop} {B C : β → β → Prop} {l : List α}
    {l' : List β} (h : List.Forall₂ Rel l l') (hA : l.Pairwise A) (hB : l'.Pairwise B)
    (himp : ∀ a a' b b', Rel a a' → Rel b b' → A a b → B a' b' → C a' b') : l'.Pairwise C := by
  induction h with
  | nil => exact List.Pairwise.nil
  | cons h1 h2 ih =>
    rw [List.pairwise_cons] at hA hB ⊢
    refine ⟨fun b' hb' => ?_, ih hA.2 hB.2⟩
    obtain ⟨b, hb, hr⟩ := forall₂_mem_right h2 hb'
    exact himp _ _ _ _ h1 hr (hA.1 _ hb) (hB.1 _ hb')

/-- Postings with the same raw part and the same tags are treated alike. -/
theorem verdict_congr {J : Book} {p q : PostingInternal} (hr : q.raw = p.raw) (ht : ∀ x, x ∈ tagsOf q ↔ x ∈ tagsOf p)
    (d : Date) : J.fpHits q = J.fpHits p ∧ J.softHits d q = J.softHits d p := by
  have h1 : ∀ r, SharesFp r q ↔ SharesFp r p := by
    intro r
    constructor
    · rintro ⟨f, h1, h2⟩; exact ⟨f, h1, mem_fps.2 ⟨(ht f).1 (mem_fps.1 h2).1, (mem_fps.1 h2).2⟩⟩
    · rintro ⟨f, h1, h2⟩; exact ⟨f, h1, mem_fps.2 ⟨(ht f).2 (mem_fps.1 h2).1, (mem_fps.1 h2).2⟩⟩
  have h2 : ∀ r, SoftMatch r q ↔ SoftMatch r p := by
    intro r
    unfold SoftMatch UnknownAccount
    rw [hr, ht]
  refine ⟨?_, ?_⟩
  · unfold fpHits; congr 1; funext r; rw [decide_eq_decide]; exact h1 _
  · unfold softHits; congr 1; funext r; rw [decide_eq_decide, h2]

/-- The records that share a fingerprint with a posting of an undecided transaction are the same after the call. -/
theorem Good.fpHits_after {J : Book} {ts : List TransactionPostings} (hg : Good J ts) {t : TransactionPostings}
    (ht : t ∈ ts) {p : PostingInternal} (hp : p ∈ t.posts) (hu : Undecided J t) (i : Nat) :
    i ∈ (J.after ts).fpHits p → i ∈ J.fpHits p := by
  have hpa : p ∈ allPosts ts := mem_allPosts.2 ⟨t, ht, hp⟩
  have key : ∀ t' ∈ ts, ¬ Undecided J t' → ∀ q ∈ t'.posts, ¬ SharesFp q p := by
    intro t' ht' hu' q hq hs
    have := hg.eq_of_shares (mem_allPosts.2 ⟨t', ht', hq⟩) hpa hs
    subst this
    rw [hg.trn_eq ht ht' hp hq] at hu
    exact hu' hu
  intro hi
  obtain ⟨s, hs, f, hf1, hf2⟩ := mem_fpHits.1 hi
  by_cases hlt : i < J.recs.length
  · rw [after_old J ts hlt] at hs
    have := Option.some.inj hs; subst this
    rcases mem_fps_foldl.1 hf1 with h | ⟨q, hq, hfq⟩
    · exact mem_fpHits.2 ⟨_, List.getElem?_eq_getElem hlt, f, h, hf2⟩
    · obtain ⟨t', ht', hu', hq', _⟩ := mem_hits.1 hq
      exact absurd ⟨f, hfq, hf2⟩ (key t' ht' hu' q hq')
  · rw [after_recs, List.getElem?_append_right (by rw [List.length_mapIdx]; omega)] at hs
    obtain ⟨t', ht', hu', hp', _⟩ := mem_news (List.mem_of_getElem? hs)
    exact absurd ⟨f, hf1, hf2⟩ (key t' ht' hu' _ hp')

/-- What is known about an edited posting `q'`; `p` is the input posting that it comes from. -/
structure Facts (K : Book) (p q' : PostingInternal) : Prop where
  ok : PostOK q'
  noConflict : ∀ d, K.verdict d q' ≠ .conflict
  /-- a fingerprint of it that is not on the input posting is on a record -/
  fresh : ∀ f ∈ fps q', f ∈ fps p ∨ ∃ i r, K.recs[i]? = some r ∧ f ∈ fps r.post ∧ ∀ d, K.verdict d q' = .into i

theorem mem_handBackPost {J : Book} {pick : Nat → Str} {d : Date} {p : PostingInternal} (hp : PostOK p) {x : Str} :
    (x ∈ tagsOf (J.handBackPost pick d p) ∧ ¬ IsCand x) ↔ x ∈ tagsOf p := by
  have hc := hp.1 x
  unfold handBackPost
  split
  · rw [mem_annotate]
    constructor
    · rintro ⟨h | ⟨i, _, rfl⟩, h2⟩
      · exact h
      · exact absurd (List.prefix_append _ _) h2
    · intro h; exact ⟨Or.inl h, hc h⟩
  · exact ⟨fun h => h.1, fun h => ⟨h, hc h⟩⟩

theorem handBackPost_raw {J : Book} {pick : Nat → Str} {d : Date} {p : PostingInternal} :
    (J.handBackPost pick d p).raw = p.raw := by
  unfold handBackPost annotate; split <;> rfl

/-- A posting with a candidate tag was ambiguous. -/
theorem ambiguous_of_cand {J : Book} {pick : Nat → Str} {d : Date} {p : PostingInternal} (hp : PostOK p) {x : Str}
    (hx : x ∈ tagsOf (J.handBackPost pick d p)) (hc : IsCand x) :
    ∃ is, J.verdict d p = .ambiguous is ∧ ∃ i ∈ is, x = candPrefix ++ pick i := by
  unfold handBackPost at hx
  split at hx
  · rename_i is hv
    rcases mem_annotate.1 hx with h | h
    · exact absurd hc (hp.1 x h)
    · exact ⟨is, hv, h⟩
  · exact absurd hc (hp.1 x hx)

theorem chosen_facts {m' : Merger} {J : Book} (hw : J.WF) {h : HashOrder} {ts : List TransactionPostings} (hg : Good J ts)
    (hR' : R m' (J.after ts)) {t : TransactionPostings} (ht : t ∈ ts) (hu : Undecided J t) {p : PostingInternal}
    (hp : p ∈ t.posts) {f : Str} {q' : PostingInternal} (hc : Chosen f (J.handBackPost (pickFp h J) (dateOf t) p) q') :
    Facts (J.after ts) p q' ∧ f ∈ fps q' ∧
      (∃ i r, (J.after ts).recs[i]? = some r ∧ f ∈ fps r.post ∧ (J.after ts).fpHits q' = [i] ∧
        ∀ d, (J.after ts).verdict d q' = .into i) ∧ (∀ r ∈ (J.after ts).recs, ¬ SharesFp r.post p) := by
  have hpok := hg.ok p (mem_allPosts.2 ⟨t, ht, hp⟩)
  obtain ⟨hf, hq'⟩ := hc
  obtain ⟨is, hvd, i, hi, hfi⟩ := ambiguous_of_cand hpok hf (List.prefix_append _ _)
  obtain ⟨e1, e2, e3⟩ := ambiguous_softHits hvd
  have hfi : f = pickFp h J i := List.append_cancel_left hfi
  rw [e2] at hi
  have hlt : i < J.recs.length := where_lt hi
  have hri := List.getElem?_eq_getElem hlt
  have hfr : f ∈ fps J.recs[i].post := hfi ▸ pickFp_ok hw i _ hri
  have hnc : ¬ IsCand f := hw.noCand _ (List.getElem_mem hlt) f (mem_fps.1 hfr).1
  have htags : ∀ x, x ∈ tagsOf q' ↔ x = f ∨ x ∈ tagsOf p := by
    intro x; rw [hq', mem_handBackPost hpok]
  have hfq : f ∈ fps q' := mem_fps.2 ⟨(htags f).2 (Or.inl rfl), (mem_fps.1 hfr).2⟩
  have hok' : PostOK q' := by
    constructor
    · intro x hx
      rcases (htags x).1 hx with rfl | hx
      · exact hnc
      · exact hpok.1 x hx
    · intro he
      rw [he] at hfq; cases hfq
  have habs : ∀ r ∈ (J.after ts).recs, ¬ SharesFp r.post p := fun r hr => hg.ambiguous_absent ht hp e1 hu hr
  have hold := after_old J ts hlt
  set r' : Rec := { J.recs[i] with post := (J.hits ts i).foldl absorb J.recs[i].post } with hr'
  have hfr' : f ∈ fps r'.post := mem_fps_foldl.2 (Or.inl hfr)
  have hhits : ∀ j, j ∈ (J.after ts).fpHits q' ↔ j = i := by
    intro j
    rw [mem_fpHits]
    constructor
    · rintro ⟨s, hs, g, hg1, hg2⟩
      rcases (htags g).1 (mem_fps.1 hg2).1 with rfl | hgp
      · exact hR'.wf.unique j i _ _ hs hold ⟨g, hg1, hfr'⟩
      · exact absurd ⟨g, hg1, mem_fps.2 ⟨hgp, (mem_fps.1 hg1).2⟩⟩ (habs s (List.mem_of_getElem? hs))
    · rintro rfl
      exact ⟨r', hold, f, hfr', hfq⟩
  have hnd : ((J.after ts).fpHits q').Nodup := List.nodup_range.filter _
  have hone : (J.after ts).fpHits q' = [i] := by
    match hx : (J.after ts).fpHits q' with
    | [] => have := (hhits i).2 rfl; rw [hx] at this; cases this
    | [a] => have := (hhits a).1 (by rw [hx]; simp); rw [this]
    | a :: b :: l =>
      have h1 := (hhits a).1 (by rw [hx]; simp)
      have h2 := (hhits b).1 (by rw [hx]; simp)
      rw [hx, h1, h2] at hnd
      simp at hnd
  have hvi : ∀ d, (J.after ts).verdict d q' = .into i := by intro d; unfold verdict; rw [hone]
  refine ⟨⟨hok', fun d => by rw [hvi]; simp, ?_⟩, hfq, ⟨i, r', hold, hfr', hone, hvi⟩, habs⟩
  intro g hgq
  rcases (htags g).1 (mem_fps.1 hgq).1 with rfl | hgp
  · exact Or.inr ⟨i, r', hold, hfr', hvi⟩
  · exact Or.inl (mem_fps.2 ⟨hgp, (mem_fps.1 hgq).2⟩)

theorem stripped_tags {J : Book} {pick : Nat → Str} {d : Date} {p q' : PostingInternal} (hp : PostOK p)
    (hs : Stripped (J.handBackPost pick d p) q') : q'.raw = p.raw ∧ ∀ x, x ∈ tagsOf q' ↔ x ∈ tagsOf p :=
  ⟨hs.1.trans handBackPost_raw, fun x => (hs.2 x).trans (mem_handBackPost hp)⟩

theorem stripped_facts {J : Book} {h : HashOrder} {ts : List TransactionPostings} (hg : Good J ts)
    {t : TransactionPostings} (ht : t ∈ ts) (hu : Undecided J t) {p : PostingInternal}
    (hp : p ∈ t.posts) {q' : PostingInternal} (hs : Stripped (J.handBackPost (pickFp h J) (dateOf t) p) q') :
    Facts (J.after ts) p q' := by
  have hpok := hg.ok p (mem_allPosts.2 ⟨t, ht, hp⟩)
  obtain ⟨hr, htags⟩ := stripped_tags hpok hs
  have hfp : ∀ f, f ∈ fps q' ↔ f ∈ fps p := by intro f; rw [mem_fps, mem_fps, htags]
  refine ⟨⟨fun x hx => hpok.1 x ((htags x).1 hx), ?_⟩, ?_, fun f hf => Or.inl ((hfp f).1 hf)⟩
  · intro he
    obtain ⟨f, hf⟩ := List.exists_mem_of_ne_nil _ hpok.2
    have := (hfp f).2 hf
    rw [he] at this; cases this
  · intro d hv
    unfold verdict at hv
    rw [(verdict_congr hr htags d).1] at hv
    have hnd : ((J.after ts).fpHits p).Nodup := List.nodup_range.filter _
    match hx : (J.after ts).fpHits p with
    | [] => rw [hx] at hv; simp only at hv; split at hv <;> cases hv
    | [a] => rw [hx] at hv; cases hv
    | a :: b :: l =>
      have h1 := hg.fpHits_after ht hp hu a (by rw [hx]; simp)
      have h2 := hg.fpHits_after ht hp hu b (by rw [hx]; simp)
      have hne : a ≠ b := by rw [hx] at hnd; simp at hnd; exact fun h => hnd.1.1 h
      apply hg.noConflict
      refine ⟨t, ht, List.mem_map.2 ⟨p, hp, ?_⟩⟩
      unfold verdict
      match hy : J.fpHits p with
      | [] => rw [hy] at h1; cases h1
      | [c] => rw [hy] at h1 h2; simp at h1 h2; exact absurd (h1.trans h2.symm) hne
      | _ :: _ :: _ => rfl

theorem edited_facts {m' : Merger} {J : Book} (hw : J.WF) {h : HashOrder} {ts : List TransactionPostings} (hg : Good J ts)
    (hR' : R m' (J.after ts)) {t : TransactionPostings} (ht : t ∈ ts) (hu : Undecided J t) {p : PostingInternal}
    (hp : p ∈ t.posts) {q' : PostingInternal} (he : Edited (J.handBackPost (pickFp h J) (dateOf t) p) q') :
    Facts (J.after ts) p q' := by
  rcases he with ⟨f, hf⟩ | hs
  · exact (chosen_facts hw hg hR' ht hu hp hf).1
  · exact stripped_facts hg ht hu hp hs

/-- The book after one more call that was accepted. -/
theorem ofHistory_snoc {calls : History} {h : HashOrder} {ts : List TransactionPostings}
    (hb : ¬ (ofHistory (inputs calls)).Bad ts) : ofHistory (inputs (calls ++ [(h, ts)])) = (ofHistory (inputs calls)).after ts := by
  unfold ofHistory inputs
  rw [List.map_append, List.foldl_append]
  show step (ofHistory (inputs calls)) ts = (ofHistory (inputs calls)).after ts
  unfold step
  exact if_neg hb

/-- A call with a single transaction whose postings are acceptable by themselves. -/
theorem single_outcome {m : Merger} {J : Book} (hR : R m J) (h : HashOrder) {t : TransactionPostings} (hne : t.posts ≠ [])
    (hok : ∀ p ∈ t.posts, PostOK p) (hnc : ∀ p ∈ t.posts, J.verdict (dateOf t) p ≠ .conflict) :
    ((∃ w m', m.merge h [t] = (.ok [w], m')) ↔ NoShare t.posts ∧ ∃ p ∈ t.posts, J.Unclear (dateOf t) p) ∧
    ((∃ m', m.merge h [t] = (.ok [], m')) ↔ NoShare t.posts ∧ (∀ p ∈ t.posts, ¬ J.Unclear (dateOf t) p) ∧
      (J.dests t).Nodup ∧ ∀ i ∈ J.dests t, ∀ j ∈ J.dests t, J.trnOf i = J.trnOf j) := by
  have hun : Undecided J t ↔ ∃ p ∈ t.posts, J.Unclear (dateOf t) p := by
    rw [undecided_iff_unclear]; simp [hne]
  have hal : allPosts [t] = t.posts := by simp [allPosts]
  have hnoc : ¬ J.Conflicting [t] := by
    rintro ⟨t', ht', hv⟩
    rw [List.mem_singleton] at ht'; subst ht'
    obtain ⟨p, hp, hv⟩ := List.mem_map.1 hv
    exact hnc p hp hv
  have hgood : Good J [t] ↔ NoShare t.posts ∧ (Undecided J t ∨ ((J.dests t).Nodup ∧ ∀ i ∈ J.dests t, ∀ j ∈ J.dests t, J.trnOf i = J.trnOf j)) := by
    constructor
    · intro hg
      refine ⟨?_, ?_⟩
      · have := hg.disjoint; rw [hal] at this; exact this
      · by_cases hu : Undecided J t
        · exact Or.inl hu
        · refine Or.inr ⟨?_, ?_⟩
          · have := hg.noSame
            unfold allDests at this
            simpa [hu] using this
          · intro i hi j hj
            by_contra hne'
            exact hg.noSplit ⟨t, by simp, hu, i, hi, j, hj, hne'⟩
    · rintro ⟨hn, hor⟩
      refine ⟨by rw [hal]; exact hok, by rw [hal]; exact hn, hnoc, ?_, ?_⟩
      · rintro ⟨t', ht', hu', i, hi, j, hj, hij⟩
        rw [List.mem_singleton] at ht'; subst ht'
        rcases hor with hu | ⟨_, hs⟩
        · exact hu' hu
        · exact hij (hs i hi j hj)
      · unfold allDests
        by_cases hu : Undecided J t
        · simp [hu]
        · rcases hor with hu' | ⟨hnd, _⟩
          · exact absurd hu' hu
          · simpa [hu] using hnd
  have hback : ∀ pick, J.handedBack pick [t] = if Undecided J t then [J.handBack pick t] else [] := by
    intro pick
    unfold handedBack
    by_cases hu : Undecided J t <;> simp [hu]
  constructor
  · constructor
    · rintro ⟨w, m', hm⟩
      obtain ⟨hb, hw, _⟩ := merge_ok hR hm
      rw [hback] at hw
      have hu : Undecided J t := by
        by_contra hu; rw [if_neg hu] at hw; cases hw
      exact ⟨(hgood.1 (good_iff.2 hb)).1, hun.1 hu⟩
    · rintro ⟨hn, hx⟩
      have hu := hun.2 hx
      obtain ⟨m', hm, _⟩ := merge_of_not_bad hR h (good_iff.1 (hgood.2 ⟨hn, Or.inl hu⟩))
      rw [hback, if_pos hu] at hm
      exact ⟨_, _, hm⟩
  · constructor
    · rintro ⟨m', hm⟩
      obtain ⟨hb, hw, _⟩ := merge_ok hR hm
      rw [hback] at hw
      have hu : ¬ Undecided J t := by
        intro hu; rw [if_pos hu] at hw; cases hw
      obtain ⟨h1, h2⟩ := hgood.1 (good_iff.2 hb)
      exact ⟨h1, fun p hp hx => hu (hun.2 ⟨p, hp, hx⟩), h2.resolve_left hu⟩
    · rintro ⟨h1, h2, h3⟩
      have hu : ¬ Undecided J t := fun hu => by obtain ⟨p, hp, hx⟩ := hun.1 hu; exact h2 p hp hx
      obtain ⟨m', hm, _⟩ := merge_of_not_bad hR h (good_iff.1 (hgood.2 ⟨h1, Or.inr h3⟩))
      rw [hback, if_neg hu] at hm
      exact ⟨_, hm⟩

/-- C88, for any way of editing: `v` was handed back, and the user has removed the candidate tags of each posting, after
choosing one for some of them. `K` is the book after the call. Then the edited transaction is
* handed back again exactly if some posting (for which nothing was chosen) is unclear in `K`;
* merged exactly if none is, and the records it goes into are different and belong to one transaction;
* refused otherwise. No two postings may have a fingerprint in common. -/
theorem C88_outcome (calls : History) (h h₂ : HashOrder) (ts u : List TransactionPostings) (m' : Merger)
    (hm : (run calls).merge h ts = (.ok u, m')) (v : TransactionPostings) (hv : v ∈ u) (hne : v.posts ≠ [])
    (v' : TransactionPostings) (he : List.Forall₂ Edited v.posts v'.posts) :
    let K := ofHistory (inputs (calls ++ [(h, ts)]))
    ((∃ w m'', m'.merge h₂ [v'] = (.ok [w], m'')) ↔ NoShare v'.posts ∧ ∃ q ∈ v'.posts, K.Unclear (dateOf v') q) ∧
    ((∃ m'', m'.merge h₂ [v'] = (.ok [], m'')) ↔ NoShare v'.posts ∧ (∀ q ∈ v'.posts, ¬ K.Unclear (dateOf v') q) ∧
      (K.dests v').Nodup ∧ ∀ i ∈ K.dests v', ∀ j ∈ K.dests v', K.trnOf i = K.trnOf j) := by
  intro K
  have hR := run_refines calls
  obtain ⟨hnb, rfl, hR'⟩ := merge_ok hR hm
  have hK : K = (ofHistory (inputs calls)).after ts := ofHistory_snoc hnb
  rw [hK]
  clear_value K
  set J := ofHistory (inputs calls)
  have hg := good_iff.2 hnb
  unfold handedBack at hv
  obtain ⟨t, ht, rfl⟩ := List.mem_map.1 hv
  obtain ⟨ht, hu⟩ := List.mem_filter.1 ht
  have hu : Undecided J t := by simpa using hu
  have hfacts : ∀ q' ∈ v'.posts, ∃ p ∈ t.posts, Facts (J.after ts) p q' := by
    intro q' hq'
    obtain ⟨q, hq, hed⟩ := forall₂_mem_right he hq'
    unfold handBack at hq
    obtain ⟨p, hp, rfl⟩ := List.mem_map.1 hq
    exact ⟨p, hp, edited_facts hR.wf hg hR' ht hu hp hed⟩
  refine single_outcome hR' h₂ ?_ ?_ ?_
  · intro h0; rw [h0] at he; cases hx : (J.handBack (pickFp h J) t).posts with
    | nil => exact hne hx
    | cons _ _ => rw [hx] at he; cases he
  · intro q hq; obtain ⟨p, _, hf⟩ := hfacts q hq; exact hf.ok
  · intro q hq; obtain ⟨p, _, hf⟩ := hfacts q hq; exact hf.noConflict _

/-- C88: a posting for which `f` was chosen goes into the one record that bears `f`, whatever the date and whatever else
was edited. -/
theorem C88_chosen (calls : History) (h : HashOrder) (ts u : List TransactionPostings) (m' : Merger)
    (hm : (run calls).merge h ts = (.ok u, m')) (v : TransactionPostings) (hv : v ∈ u) (q : PostingInternal) (hq : q ∈ v.posts)
    (f : Str) (q' : PostingInternal) (hc : Chosen f q q') :
    let K := ofHistory (inputs (calls ++ [(h, ts)]))
    ∃ i r, K.recs[i]? = some r ∧ f ∈ fps r.post ∧ ∀ d, K.verdict d q' = .into i ∧ ¬ K.Unclear d q' := by
  intro K
  have hR := run_refines calls
  obtain ⟨hnb, rfl, hR'⟩ := merge_ok hR hm
  have hK : K = (ofHistory (inputs calls)).after ts := ofHistory_snoc hnb
  rw [hK]
  clear_value K
  set J := ofHistory (inputs calls)
  have hg := good_iff.2 hnb
  unfold handedBack at hv
  obtain ⟨t, ht, rfl⟩ := List.mem_map.1 hv
  obtain ⟨ht, hu⟩ := List.mem_filter.1 ht
  have hu : Undecided J t := by simpa using hu
  unfold handBack at hq
  obtain ⟨p, hp, rfl⟩ := List.mem_map.1 hq
  obtain ⟨_, hfq, ⟨i, r, hr, hfr, _, hvi⟩, _⟩ := chosen_facts hR.wf hg hR' ht hu hp hc
  refine ⟨i, r, hr, hfr, fun d => ⟨hvi d, fun hx => hx.1 r (List.mem_of_getElem? hr) ⟨f, hfr, hfq⟩⟩⟩


/-- C88: the recipe of the README, taken literally, chooses on "one of the unmerged postings". Suppose that the call merged
nothing (so that the journal is still the one in which the candidates were looked up) and that the user keeps the date.
Then the edited transaction is handed back again exactly if some posting that had candidate tags has none chosen: each such
posting needs its own choice. -/
theorem C88_every_posting_needs_a_choice (calls : History) (h h₂ : HashOrder) (ts u : List TransactionPostings) (m' : Merger)
    (hm : (run calls).merge h ts = (.ok u, m')) (hall : u.length = ts.length)
    (v : TransactionPostings) (hv : v ∈ u) (hne : v.posts ≠ [])
    (v' : TransactionPostings) (hd : dateOf v' = dateOf v) (he : List.Forall₂ Edited v.posts v'.posts) (hn : NoShare v'.posts) :
    (∃ w m'', m'.merge h₂ [v'] = (.ok [w], m'')) ↔
      ∃ x ∈ v.posts.zip v'.posts, (∃ c ∈ tagsOf x.1, IsCand c) ∧ ¬ ∃ f, Chosen f x.1 x.2 := by
  rw [(C88_outcome calls h h₂ ts u m' hm v hv hne v' he).1]
  have hR := run_refines calls
  obtain ⟨hnb, rfl, hR'⟩ := merge_ok hR hm
  rw [ofHistory_snoc hnb]
  set J := ofHistory (inputs calls)
  have hfil : ts.filter (fun t => Undecided J t) = ts := by
    unfold handedBack at hall
    rw [List.length_map] at hall
    exact List.filter_sublist.eq_of_length hall
  have hJ : J.after ts = J := by
    rw [← after_filter]
    have : ts.filter (fun t => ¬ Undecided J t) = [] := by
      rw [List.filter_eq_nil_iff]
      intro t ht
      rw [← hfil] at ht
      simpa using (List.mem_filter.1 ht).2
    rw [this]; rfl
  have hg := good_iff.2 hnb
  unfold handedBack at hv
  obtain ⟨t, ht, rfl⟩ := List.mem_map.1 hv
  obtain ⟨ht, hu⟩ := List.mem_filter.1 ht
  have hu : Undecided J t := by simpa using hu
  have hd : dateOf v' = dateOf t := hd
  have hpok : ∀ p ∈ t.posts, PostOK p := fun p hp => hg.ok p (mem_allPosts.2 ⟨t, ht, hp⟩)
  have key : ∀ p ∈ t.posts, ∀ q', Edited (J.handBackPost (pickFp h J) (dateOf t) p) q' →
      (J.Unclear (dateOf t) q' ↔ (∃ c ∈ tagsOf (J.handBackPost (pickFp h J) (dateOf t) p), IsCand c) ∧
        ¬ ∃ f, Chosen f (J.handBackPost (pickFp h J) (dateOf t) p) q') := by
    intro p hp q' hed
    constructor
    · intro hx
      have hnc : ¬ ∃ f, Chosen f (J.handBackPost (pickFp h J) (dateOf t) p) q' := by
        rintro ⟨f, hf⟩
        obtain ⟨_, hfq, ⟨i, r, hr, hfr, _⟩, _⟩ := chosen_facts hR.wf hg hR' ht hu hp hf
        rw [hJ] at hr
        exact hx.1 r (List.mem_of_getElem? hr) ⟨f, hfr, hfq⟩
      refine ⟨?_, hnc⟩
      obtain ⟨hr, htags⟩ := stripped_tags (hpok p hp) (hed.resolve_left hnc)
      obtain ⟨c1, c2⟩ := verdict_congr (J := J) hr htags (dateOf t)
      have hx' : Undecided J ⟨t.trn, [q']⟩ := undecided_iff_unclear.2 (Or.inr ⟨q', by simp, hx⟩)
      rcases undecided_iff.1 hx' with h0 | ⟨q'', hq'', h1, h2⟩
      · simp at h0
      · rw [List.mem_singleton] at hq''; subst hq''
        have h2 : 2 ≤ (J.softHits (dateOf t) q'').length := h2
        rw [c1] at h1
        rw [c2] at h2
        have hva : J.verdict (dateOf t) p = .ambiguous (J.softHits (dateOf t) p) := by
          unfold verdict
          rw [h1]
          match hl : J.softHits (dateOf t) p, h2 with
          | _ :: _ :: _, _ => rfl
        obtain ⟨i, hi⟩ : ∃ i, i ∈ J.softHits (dateOf t) p := by
          match hl : J.softHits (dateOf t) p, h2 with
          | a :: _ :: _, _ => exact ⟨a, by simp⟩
        refine ⟨candPrefix ++ pickFp h J i, ?_, List.prefix_append _ _⟩
        unfold handBackPost
        rw [hva]
        exact mem_annotate.2 (Or.inr ⟨i, hi, rfl⟩)
    · rintro ⟨⟨c, hc1, hc2⟩, hnc⟩
      obtain ⟨hr, htags⟩ := stripped_tags (hpok p hp) (hed.resolve_left hnc)
      obtain ⟨c1, c2⟩ := verdict_congr (J := J) hr htags (dateOf t)
      obtain ⟨is, hva, _⟩ := ambiguous_of_cand (hpok p hp) hc1 hc2
      obtain ⟨e1, e2, e3⟩ := ambiguous_softHits hva
      have hx' : Undecided J ⟨t.trn, [q']⟩ := by
        refine undecided_iff.2 (Or.inr ⟨q', by simp, ?_, ?_⟩)
        · rw [c1]; exact e1
        · show 2 ≤ (J.softHits (dateOf t) q').length
          rw [c2, ← e2]; exact e3
      rcases undecided_iff_unclear.1 hx' with h0 | ⟨q'', hq'', h1⟩
      · simp at h0
      · rw [List.mem_singleton] at hq''; subst hq''; exact h1
  rw [hJ, hd]
  have hz : ∀ (ps : List PostingInternal) (qs : List PostingInternal), (∀ p ∈ ps, p ∈ t.posts) →
      List.Forall₂ Edited (ps.map (J.handBackPost (pickFp h J) (dateOf t))) qs →
      ((∃ q ∈ qs, J.Unclear (dateOf t) q) ↔ ∃ x ∈ (ps.map (J.handBackPost (pickFp h J) (dateOf t))).zip qs,
        (∃ c ∈ tagsOf x.1, IsCand c) ∧ ¬ ∃ f, Chosen f x.1 x.2) := by
    intro ps
    induction ps with
    | nil => intro qs _ hf; cases hf; simp
    | cons p ps ih =>
      intro qs hps hf
      rw [List.map_cons] at hf
      cases hf with
      | cons h1 h2 =>
        rename_i q qs
        have e1 := ih qs (fun p hp => hps p (by simp [hp])) h2
        have e2 := key p (hps p (by simp)) q h1
        rw [List.map_cons, List.zip_cons_cons]
        simp only [List.mem_cons, exists_eq_or_imp]
        rw [e1, e2]
  exact (and_iff_right hn).trans (hz t.posts v'.posts (fun _ h => h) he)

theorem journal_map_posts {K K' : Book} (g : PostingInternal → PostingInternal) (hh : K'.hdrs = K.hdrs)
    (hr : K'.recs = K.recs.map (fun r => { r with post := g r.post })) :
    K'.journal = K.journal.map (fun T => { T with posts := T.posts.map g }) := by
  have hent : K'.entries = K.entries.map (fun T => { T with posts := T.posts.map g }) := by
    unfold Spec.Book.entries
    rw [hh, hr]
    apply List.ext_getElem?
    intro k
    rw [List.getElem?_mapIdx, List.getElem?_map, List.getElem?_mapIdx, Option.map_map]
    congr 1
    funext hdr
    rw [List.filter_map, List.map_map, Function.comp_apply, List.map_map]
    rfl
  rw [journal_eq, journal_eq, hent]
  unfold byDate
  rw [List.map_mergeSort]
  intro a _ b _; rfl

theorem foldl_absorb_filter {P : Str × PostingInternal → Bool} {picks : List (Str × PostingInternal)} (c : PostingInternal)
    (h1 : (picks.filter P).length ≤ 1) :
    ((picks.filter P).map (·.2)).foldl absorb c = match picks.find? P with
      | some x => absorb c x.2
      | none => c := by
  rw [← List.head?_filter]
  match picks.filter P, h1 with
  | [], _ => rfl
  | [x], _ => rfl
  | _ :: _ :: _, h => simp at h

/-- The positions of the chosen records. -/
theorem pick_indices {K : Book} {picks : List (Str × PostingInternal)}
    (h : ∀ x ∈ picks, ∃ i r, K.recs[i]? = some r ∧ x.1 ∈ fps r.post ∧ ∀ d, K.verdict d x.2 = .into i) :
    ∃ idx : Str × PostingInternal → Nat, ∀ x ∈ picks, ∃ r, K.recs[idx x]? = some r ∧ x.1 ∈ fps r.post ∧
      ∀ d, K.verdict d x.2 = .into (idx x) := by
  classical
  refine ⟨fun x => if hx : x ∈ picks then (h x hx).choose else 0, fun x hx => ?_⟩
  simp only [hx, dite_true]
  exact (h x hx).choose_spec

/-- C88: the user has chosen a fingerprint for each posting of `v`; `picks` are the chosen fingerprints with the edited
postings. If the fingerprints are on different postings of one transaction of the journal, the edited transaction is merged,
and the journal is the same as before except that each chosen posting has taken in its own. Otherwise the edited transaction
is refused. It is never handed back again. -/
theorem C88_all_chosen (calls : History) (h h₁ h₂ h₃ : HashOrder) (ts u js' : List TransactionPostings) (m' : Merger)
    (hm : (run calls).merge h ts = (.ok u, m')) (hb' : m'.build h₁ = .ok js')
    (v : TransactionPostings) (hv : v ∈ u) (hne : v.posts ≠ []) (picks : List (Str × PostingInternal))
    (hp : List.Forall₂ (fun q x => Chosen x.1 q x.2) v.posts picks) (hdr : TransactionInternal) :
    if FitTogether js' (picks.map (·.1)) then
      ∃ m'', m'.merge h₂ [⟨hdr, picks.map (·.2)⟩] = (.ok [], m'') ∧
        m''.build h₃ = .ok (js'.map fun T => { T with posts := T.posts.map (taken picks) })
    else ∃ e, m'.merge h₂ [⟨hdr, picks.map (·.2)⟩] = (.error e, m') := by
  have hR := run_refines calls
  obtain ⟨hnb, rfl, hR'⟩ := merge_ok hR hm
  rw [hR'.build h₁] at hb'
  have := Except.ok.inj hb'; subst this
  have hed : List.Forall₂ Edited v.posts (picks.map (·.2)) := by
    rw [List.forall₂_map_right_iff]; exact hp.imp fun q x hx => Or.inl ⟨_, hx⟩
  have hout := (C88_outcome calls h h₂ ts _ m' hm v hv hne ⟨hdr, picks.map (·.2)⟩ hed)
  have hK : ofHistory (inputs (calls ++ [(h, ts)])) = (ofHistory (inputs calls)).after ts := ofHistory_snoc hnb
  rw [hK] at hout
  set J := ofHistory (inputs calls)
  have hg := good_iff.2 hnb
  unfold handedBack at hv
  obtain ⟨t, ht, rfl⟩ := List.mem_map.1 hv
  obtain ⟨ht, hu⟩ := List.mem_filter.1 ht
  have hu : Undecided J t := by simpa using hu
  set K := J.after ts with hKd
  have hw := hR'.wf
  -- each choice
  have hp' : List.Forall₂ (fun p x => p ∈ t.posts ∧ Chosen x.1 (J.handBackPost (pickFp h J) (dateOf t) p) x.2) t.posts picks := by
    have hp2 : List.Forall₂ (fun p x => Chosen x.1 (J.handBackPost (pickFp h J) (dateOf t) p) x.2) t.posts picks := by
      unfold handBack at hp; rw [List.forall₂_map_left_iff] at hp; exact hp
    exact forall₂_imp_mem hp2 (fun a b ha _ hab => ⟨ha, hab⟩)
  have hfact : ∀ (p : PostingInternal) (x : Str × PostingInternal), (p ∈ t.posts ∧ Chosen x.1 (J.handBackPost (pickFp h J) (dateOf t) p) x.2) → _ :=
    fun (p : PostingInternal) (x : Str × PostingInternal) hx => chosen_facts hR.wf hg hR' ht hu hx.1 hx.2
  obtain ⟨idx, hidx⟩ := pick_indices (K := K) (picks := picks) (by
    intro x hx
    obtain ⟨p, hpm, hxx⟩ := forall₂_mem_right hp' hx
    obtain ⟨_, _, ⟨i, r, h1, h2, _, h3⟩, _⟩ := hfact p x hxx
    exact ⟨i, r, h1, h2, h3⟩)
  set v' : TransactionPostings := ⟨hdr, picks.map (·.2)⟩ with hv'
  have hdests : K.dests v' = picks.map idx := by
    unfold dests verdicts
    rw [hv']
    simp only [List.map_map]
    rw [List.filterMap_map]
    have : ∀ l : List (Str × PostingInternal), (∀ x ∈ l, x ∈ picks) →
        l.filterMap (Verdict.dest? ∘ (K.verdict hdr.raw.date ∘ fun x => x.2)) = l.map idx := by
      intro l
      induction l with
      | nil => intro _; rfl
      | cons x l ih =>
        intro hl
        obtain ⟨r, _, _, hvx⟩ := hidx x (hl x (by simp))
        rw [List.filterMap_cons]
        simp only [Function.comp_apply, hvx, Verdict.dest?, List.map_cons]
        rw [← ih (fun y hy => hl y (by simp [hy]))]
    exact this picks (fun _ h => h)
  have hnu : ∀ q ∈ v'.posts, ¬ K.Unclear (dateOf v') q := by
    intro q hq hx
    obtain ⟨x, hxm, rfl⟩ := List.mem_map.1 hq
    obtain ⟨p, hpm, hxx⟩ := forall₂_mem_right hp' hxm
    obtain ⟨_, hfq, ⟨i, r, h1, h2, _, h3⟩, _⟩ := hfact p x hxx
    exact hx.1 r (List.mem_of_getElem? h1) ⟨_, h2, hfq⟩
  have hpne : picks ≠ [] := by
    rintro rfl
    cases hx : (J.handBack (pickFp h J) t).posts with
    | nil => exact hne hx
    | cons _ _ => rw [hx] at hp; cases hp
  -- which record bears a fingerprint
  have hbear : ∀ x ∈ picks, ∀ i r, K.recs[i]? = some r → (x.1 ∈ fps r.post ↔ idx x = i) := by
    intro x hx i r hr
    obtain ⟨s, hs, hxs, _⟩ := hidx x hx
    constructor
    · intro hxr; exact hw.unique _ _ _ _ hs hr ⟨_, hxs, hxr⟩
    · rintro rfl; rw [hs] at hr; rw [← Option.some.inj hr]; exact hxs
  have hdec : FitTogether K.journal (picks.map (·.1)) ↔
      (NoShare v'.posts ∧ (K.dests v').Nodup ∧ ∀ i ∈ K.dests v', ∀ j ∈ K.dests v', K.trnOf i = K.trnOf j) := by
    constructor
    · rintro ⟨T, hT, hon, hpw⟩
      rw [(journal_perm K).mem_iff] at hT
      unfold Spec.Book.entries at hT
      rw [List.mem_mapIdx] at hT
      obtain ⟨k, hk, rfl⟩ := hT
      simp only at hon hpw
      have hin : ∀ x ∈ picks, ∃ r, K.recs[idx x]? = some r ∧ x.1 ∈ fps r.post ∧ r.trn = k ∧
          r.post ∈ (K.recs.filter (·.trn = k)).map (·.post) := by
        intro x hx
        obtain ⟨c, hc, hxc⟩ := hon x.1 (List.mem_map.2 ⟨x, hx, rfl⟩)
        obtain ⟨r, hr, rfl⟩ := List.mem_map.1 hc
        have hr2 := List.mem_filter.1 hr
        obtain ⟨i, hi⟩ := List.mem_iff_getElem?.1 hr2.1
        have := (hbear x hx i r hi).1 hxc
        subst this
        exact ⟨r, hi, hxc, by simpa using hr2.2, hc⟩
      have hidxpw : picks.Pairwise (fun x y => idx x ≠ idx y) := by
        rw [List.pairwise_map] at hpw
        refine hpw.imp_of_mem ?_
        intro x y hx hy hxy hij
        obtain ⟨r, hr, hxr, _, hrm⟩ := hin x hx
        exact hxy r.post hrm ⟨hxr, (hbear y hy _ r hr).2 hij.symm⟩
      refine ⟨?_, ?_, ?_⟩
      · unfold NoShare
        rw [hv', List.pairwise_map]
        have hdj : t.posts.Pairwise (fun p q => ¬ SharesFp p q) := by
          refine hg.disjoint.sublist ?_
          unfold allPosts
          have : ([t].flatMap (fun x : TransactionPostings => x.posts)).Sublist (ts.flatMap (fun x => x.posts)) :=
            sublist_flatMap _ (List.singleton_sublist.2 ht)
          simpa using this
        refine pairwise_of_forall₂ (C := fun x y : Str × PostingInternal => ¬ SharesFp x.2 y.2)
          (forall₂_imp_mem hp' (fun a b _ hb hab => (⟨hb, hab⟩ : b ∈ picks ∧ _))) hdj hidxpw ?_
        rintro p x p' y ⟨hx, hxx⟩ ⟨hy, hyy⟩ hdis hij ⟨g, hg1, hg2⟩
        obtain ⟨F1, _, _, A1⟩ := hfact p x hxx
        obtain ⟨F2, _, _, A2⟩ := hfact p' y hyy
        obtain ⟨rx, hrx, hxr, hvx⟩ := hidx x hx
        obtain ⟨ry, hry, hyr, hvy⟩ := hidx y hy
        rcases F1.fresh g hg1 with f1 | ⟨i, r, hr, hgr, hvi⟩
        · rcases F2.fresh g hg2 with f2 | ⟨j, s, hs, hgs, _⟩
          · exact hdis ⟨g, f1, f2⟩
          · exact A1 s (List.mem_of_getElem? hs) ⟨g, hgs, f1⟩
        · rcases F2.fresh g hg2 with f2 | ⟨j, s, hs, hgs, hvj⟩
          · exact A2 r (List.mem_of_getElem? hr) ⟨g, hgr, f2⟩
          · have e1 : idx x = i := by have := (hvx default).symm.trans (hvi default); simpa using this
            have e2 : idx y = j := by have := (hvy default).symm.trans (hvj default); simpa using this
            exact hij (e1.trans ((hw.unique i j r s hr hs ⟨g, hgr, hgs⟩).trans e2.symm))
      · rw [hdests]
        unfold List.Nodup
        rw [List.pairwise_map]
        exact hidxpw
      · rw [hdests]
        intro i hi j hj
        obtain ⟨x, hx, rfl⟩ := List.mem_map.1 hi
        obtain ⟨y, hy, rfl⟩ := List.mem_map.1 hj
        obtain ⟨r, hr, _, e1, _⟩ := hin x hx
        obtain ⟨s, hs, _, e2, _⟩ := hin y hy
        unfold trnOf
        rw [hr, hs]; simp [e1, e2]
    · rintro ⟨_, hnd, hsame⟩
      rw [hdests] at hnd hsame
      obtain ⟨x₀, hx₀⟩ := List.exists_mem_of_ne_nil _ hpne
      obtain ⟨r₀, hr₀, _, _⟩ := hidx x₀ hx₀
      have hk := hw.owner r₀ (List.mem_of_getElem? hr₀)
      refine ⟨⟨K.hdrs[r₀.trn], (K.recs.filter (·.trn = r₀.trn)).map (·.post)⟩, ?_, ?_, ?_⟩
      · rw [(journal_perm K).mem_iff]
        unfold Spec.Book.entries
        rw [List.mem_mapIdx]
        exact ⟨r₀.trn, hk, rfl⟩
      · intro f hf
        obtain ⟨x, hx, rfl⟩ := List.mem_map.1 hf
        obtain ⟨r, hr, hxr, _⟩ := hidx x hx
        have := hsame (idx x) (List.mem_map.2 ⟨x, hx, rfl⟩) (idx x₀) (List.mem_map.2 ⟨x₀, hx₀, rfl⟩)
        unfold trnOf at this
        rw [hr, hr₀] at this
        refine ⟨r.post, List.mem_map.2 ⟨r, List.mem_filter.2 ⟨List.mem_of_getElem? hr, ?_⟩, rfl⟩, hxr⟩
        simpa using this
      · rw [List.pairwise_map]
        unfold List.Nodup at hnd
        rw [List.pairwise_map] at hnd
        refine hnd.imp_of_mem ?_
        rintro x y hx hy hij c hc ⟨h1, h2⟩
        obtain ⟨r, hr, rfl⟩ := List.mem_map.1 hc
        obtain ⟨i, hi⟩ := List.mem_iff_getElem?.1 (List.mem_filter.1 hr).1
        exact hij (((hbear x hx i r hi).1 h1).trans ((hbear y hy i r hi).1 h2).symm)
  split
  · rename_i hfit
    obtain ⟨f1, f2, f3⟩ := hdec.1 hfit
    obtain ⟨m'', hmm⟩ := hout.2.2 ⟨f1, hnu, f2, f3⟩
    refine ⟨m'', hmm, ?_⟩
    obtain ⟨hnb2, _, hR''⟩ := merge_ok hR' hmm
    rw [hR''.build h₃]
    congr 1
    have hu2 : ¬ Undecided K v' := by
      rw [undecided_iff_unclear]
      rintro (h0 | ⟨q, hq, hx⟩)
      · exact hpne (by simpa [hv'] using h0)
      · exact hnu q hq hx
    apply journal_map_posts (taken picks)
    · rw [after_hdrs]
      have : ¬ K.Fresh v' := by
        rintro ⟨_, h0⟩
        rw [hdests] at h0
        exact hpne (by simpa using h0)
      simp [this]
    · rw [after_recs]
      have hnews : K.news K.hdrs.length [v'] = [] := by
        rw [List.eq_nil_iff_forall_not_mem]
        intro r hr
        obtain ⟨t', ht', _, hpm, hnone, _⟩ := mem_news hr
        rw [List.mem_singleton] at ht'; subst ht'
        obtain ⟨x, hx, hxe⟩ := List.mem_map.1 hpm
        obtain ⟨_, _, _, hvx⟩ := hidx x hx
        rw [← hxe, hvx] at hnone
        cases hnone
      rw [hnews, List.append_nil]
      apply List.ext_getElem?
      intro i
      rw [List.getElem?_mapIdx, List.getElem?_map]
      cases hri : K.recs[i]? with
      | none => rfl
      | some r =>
        simp only [Option.map_some]
        congr 2
        have hh : K.hits [v'] i = ((picks.filter (fun x => decide (x.1 ∈ fps r.post))).map (·.2)) := by
          have h1 : K.hits [v'] i = v'.posts.filter (fun p => K.verdict (dateOf v') p = .into i) := by
            simp [hits, trnHits, hu2]
          rw [h1]
          show (picks.map (·.2)).filter _ = _
          rw [List.filter_map]
          congr 1
          apply List.filter_congr
          intro x hx
          obtain ⟨_, _, _, hvx⟩ := hidx x hx
          rw [Function.comp_apply, hvx, decide_eq_decide, hbear x hx i r hri, Verdict.into.injEq]
        rw [hh]
        unfold taken
        apply foldl_absorb_filter
        have := (good_iff.2 hnb2).hits_le_one i
        rw [hh, List.length_map] at this
        exact this
  · rename_i hfit
    cases hx : m'.merge h₂ [v'] with
    | mk res m'' =>
      rcases merge_spec hR' h₂ [v'] with ⟨hb, e, he, _⟩ | ⟨hb, m3, he, hR3⟩
      · rw [he] at hx
        exact ⟨e, by rw [← hx]⟩
      · exfalso
        have hu2 : ¬ Undecided K v' := by
          rw [undecided_iff_unclear]
          rintro (h0 | ⟨q, hq, hx⟩)
          · exact hpne (by simpa [hv'] using h0)
          · exact hnu q hq hx
        rw [handedBack_nil_iff.2 (by simpa using hu2)] at he
        have := hout.2.1 ⟨m3, he⟩
        exact hfit (hdec.2 ⟨this.1, this.2.2.1, this.2.2.2⟩)

/-- C88, the usual case, in which only some postings of `v` had candidates: if the edited transaction is merged and something
was chosen, there is one transaction of the journal that it has become part of. The transaction keeps its header. Each posting
for which `f` was chosen has been taken in by the posting that bears `f`. Each other posting has been taken in by a posting of
that transaction or has been added to it. -/
theorem C88_merged (calls : History) (h h₁ h₂ h₃ : HashOrder) (ts u js' js'' : List TransactionPostings) (m' m'' : Merger)
    (hm : (run calls).merge h ts = (.ok u, m')) (hb' : m'.build h₁ = .ok js')
    (v : TransactionPostings) (hv : v ∈ u) (v' : TransactionPostings)
    (hmm : m'.merge h₂ [v'] = (.ok [], m'')) (hb'' : m''.build h₃ = .ok js'')
    (f₀ : Str) (q₀ q₀' : PostingInternal) (hq₀ : q₀ ∈ v.posts) (hq₀' : q₀' ∈ v'.posts) (hc₀ : Chosen f₀ q₀ q₀') :
    ∃ T ∈ js', ∃ T' ∈ js'', T'.trn = T.trn ∧
      (∀ q' ∈ v'.posts, (∃ c ∈ T.posts, absorb c q' ∈ T'.posts) ∨ q' ∈ T'.posts) ∧
      ∀ f, ∀ q ∈ v.posts, ∀ q' ∈ v'.posts, Chosen f q q' → ∃ c ∈ T.posts, f ∈ fps c ∧ absorb c q' ∈ T'.posts := by
  have hR := run_refines calls
  obtain ⟨hnb, rfl, hR'⟩ := merge_ok hR hm
  rw [hR'.build h₁] at hb'
  have := Except.ok.inj hb'; subst this
  obtain ⟨hnb2, hnil, hR''⟩ := merge_ok hR' hmm
  rw [hR''.build h₃] at hb''
  have := Except.ok.inj hb''; subst this
  set J := ofHistory (inputs calls)
  have hg := good_iff.2 hnb
  have hg2 := good_iff.2 hnb2
  unfold handedBack at hv
  obtain ⟨t, ht, rfl⟩ := List.mem_map.1 hv
  obtain ⟨ht, hu⟩ := List.mem_filter.1 ht
  have hu : Undecided J t := by simpa using hu
  set K := J.after ts with hKd
  have hw := hR'.wf
  have hu2 : ¬ Undecided K v' := by
    have := handedBack_nil_iff.1 hnil.symm
    exact this v' (by simp)
  have hch : ∀ f, ∀ q ∈ (J.handBack (pickFp h J) t).posts, ∀ q', Chosen f q q' →
      ∃ i r, K.recs[i]? = some r ∧ f ∈ fps r.post ∧ ∀ d, K.verdict d q' = .into i := by
    intro f q hq q' hc
    unfold handBack at hq
    obtain ⟨p, hp, rfl⟩ := List.mem_map.1 hq
    obtain ⟨_, _, ⟨i, r, h1, h2, _, h3⟩, _⟩ := chosen_facts hR.wf hg hR' ht hu hp hc
    exact ⟨i, r, h1, h2, h3⟩
  have hmemd : ∀ q' ∈ v'.posts, ∀ i, K.verdict (dateOf v') q' = .into i → i ∈ K.dests v' := by
    intro q' hq' i hi
    unfold dests verdicts
    rw [List.mem_filterMap]
    exact ⟨.into i, List.mem_map.2 ⟨q', hq', hi⟩, rfl⟩
  obtain ⟨i₀, r₀, hr₀, hf₀, hv₀⟩ := hch f₀ q₀ hq₀ q₀' hc₀
  have hi₀ := hmemd q₀' hq₀' i₀ (hv₀ _)
  have hk : r₀.trn < K.hdrs.length := hw.owner r₀ (List.mem_of_getElem? hr₀)
  have hsame : ∀ i ∈ K.dests v', ∀ r, K.recs[i]? = some r → r.trn = r₀.trn := by
    intro i hi r hr
    by_contra hne
    refine hg2.noSplit ⟨v', by simp, hu2, i, hi, i₀, hi₀, ?_⟩
    unfold trnOf
    rw [hr, hr₀]
    simpa using hne
  have hnf : ¬ K.Fresh v' := fun hx => by rw [hx.2] at hi₀; cases hi₀
  have hhd : (K.after [v']).hdrs = K.hdrs := by rw [after_hdrs]; simp [hnf]
  have hhome : ∀ c, K.home c v' = r₀.trn := by
    intro c
    unfold home
    cases hl : K.dests v' with
    | nil => rw [hl] at hi₀; cases hi₀
    | cons i l =>
      have hi : i ∈ K.dests v' := by rw [hl]; simp
      have hlt := dests_lt hi
      have := hsame i hi _ (List.getElem?_eq_getElem hlt)
      simp [trnOf, List.getElem?_eq_getElem hlt, this]
  have hinto : ∀ q' ∈ v'.posts, ∀ i r, K.recs[i]? = some r → K.verdict (dateOf v') q' = .into i →
      r.trn = r₀.trn ∧ ({ r with post := absorb r.post q' } : Rec) ∈ (K.after [v']).recs := by
    intro q' hq' i r hr hvi
    refine ⟨hsame i (hmemd q' hq' i hvi) r hr, ?_⟩
    have hlt : i < K.recs.length := verdict_into_lt hvi
    have hre : K.recs[i] = r := by rw [List.getElem?_eq_getElem hlt] at hr; exact Option.some.inj hr
    have hold := after_old K [v'] hlt
    have hone : K.hits [v'] i = [q'] := by
      have hin : q' ∈ K.hits [v'] i := mem_hits.2 ⟨v', by simp, hu2, hq', hvi⟩
      have := hg2.hits_le_one i
      match hl : K.hits [v'] i, this with
      | [], _ => rw [hl] at hin; cases hin
      | [a], _ => rw [hl] at hin; rw [List.mem_singleton.1 hin]
      | _ :: _ :: _, h => simp at h
    rw [hre, hone] at hold
    exact List.mem_of_getElem? hold
  refine ⟨⟨K.hdrs[r₀.trn], (K.recs.filter (·.trn = r₀.trn)).map (·.post)⟩, ?_,
    ⟨K.hdrs[r₀.trn], ((K.after [v']).recs.filter (·.trn = r₀.trn)).map (·.post)⟩, ?_, rfl, ?_, ?_⟩
  · rw [(journal_perm K).mem_iff]
    unfold Spec.Book.entries
    rw [List.mem_mapIdx]
    exact ⟨r₀.trn, hk, rfl⟩
  · rw [(journal_perm _).mem_iff]
    unfold Spec.Book.entries
    rw [List.mem_mapIdx]
    refine ⟨r₀.trn, by rw [hhd]; exact hk, ?_⟩
    simp only [hhd]
  · intro q' hq'
    cases hd : (K.verdict (dateOf v') q').dest? with
    | some i =>
      have hvi : K.verdict (dateOf v') q' = .into i := by
        cases hx : K.verdict (dateOf v') q' <;> rw [hx] at hd <;> simp [Verdict.dest?] at hd
        rw [hd]
      have hlt : i < K.recs.length := verdict_into_lt hvi
      obtain ⟨e1, e2⟩ := hinto q' hq' i _ (List.getElem?_eq_getElem hlt) hvi
      refine Or.inl ⟨K.recs[i].post, List.mem_map.2 ⟨_, List.mem_filter.2 ⟨List.getElem_mem hlt, by simpa using e1⟩, rfl⟩, ?_⟩
      exact List.mem_map.2 ⟨_, List.mem_filter.2 ⟨e2, by simpa using e1⟩, rfl⟩
    | none =>
      right
      obtain ⟨c', hc'⟩ := news_of_mem (J := K) K.hdrs.length (ts := [v']) (t := v') (by simp) hu2
      have := hc' q' hq' hd
      rw [hhome] at this
      exact List.mem_map.2 ⟨_, List.mem_filter.2 ⟨mem_after.2 (Or.inr this), by simp⟩, rfl⟩
  · intro f q hq q' hq' hc
    obtain ⟨i, r, hr, hfr, hvi⟩ := hch f q hq q' hc
    obtain ⟨e1, e2⟩ := hinto q' hq' i r hr (hvi _)
    refine ⟨r.post, List.mem_map.2 ⟨r, List.mem_filter.2 ⟨List.mem_of_getElem? hr, by simpa using e1⟩, rfl⟩, hfr, ?_⟩
    exact List.mem_map.2 ⟨_, List.mem_filter.2 ⟨e2, by simpa using e1⟩, rfl⟩

/-! ### An example -/

/-- Two equal bus rides, each with both of its postings. -/
def rides : History :=
  [(HashOrder.sorted, [trn 3 "bus" [post "expenses:bus" 150 ["fp-t1"], post "assets:a" (-150) ["fp-s1"]],
    trn 3 "bus back" [post "expenses:bus" 150 ["fp-t2"], post "assets:a" (-150) ["fp-s2"]]])]

/-- A ticket that could be either of them; both of its postings are unclear. -/
def ticket : List TransactionPostings := [trn 3 "ticket" [post "expenses:bus" 150 ["fp-c1"], post "assets:a" (-150) ["fp-c2"]]]

/-- The ticket as it is handed back. -/
def ticketBack : TransactionPostings := trn 3 "ticket"
  [post "expenses:bus" 150 ["fp-c1", "candidate-fp-t1", "candidate-fp-t2"],
   post "assets:a" (-150) ["fp-c2", "candidate-fp-s1", "candidate-fp-s2"]]

set_option maxRecDepth 100000 in
theorem ticket_back : ((run rides).merge HashOrder.rev ticket).1 = .ok [ticketBack] := by decide +kernel

/-- The state after the ticket was handed back. -/
def afterTicket : Merger := ((run rides).merge HashOrder.rev ticket).2

set_option maxRecDepth 100000 in
/-- What the user can do with it: the two choices fit together, choose postings of different rides, or are only one choice, as
the README says. The first is merged, the second refused, the third handed back with the same candidates as before for the
other posting. -/
example : (afterTicket.merge HashOrder.sorted
      [trn 3 "ticket" [post "expenses:bus" 150 ["fp-c1", "fp-t2"], post "assets:a" (-150) ["fp-c2", "fp-s2"]]]).1 = .ok [] ∧
    (afterTicket.merge HashOrder.sorted
      [trn 3 "ticket" [post "expenses:bus" 150 ["fp-c1", "fp-t2"], post "assets:a" (-150) ["fp-c2", "fp-s1"]]]).1 =
        .error .splitTransaction ∧
    (afterTicket.merge HashOrder.sorted
      [trn 3 "ticket" [post "expenses:bus" 150 ["fp-c1", "fp-t2"], post "assets:a" (-150) ["fp-c2"]]]).1 =
        .ok [trn 3 "ticket" [post "expenses:bus" 150 ["fp-c1", "fp-t2"],
          post "assets:a" (-150) ["fp-c2", "candidate-fp-s1", "candidate-fp-s2"]]] := by
  decide +kernel

theorem ticket_run : (run rides).merge HashOrder.rev ticket = (.ok [ticketBack], afterTicket) := by
  rw [← ticket_back]; rfl

theorem mem_post_tags {a : String} {n : Int} {l : List String} {x : Str} :
    x ∈ tagsOf (post a n l) ↔ ∃ s ∈ l, s.toList = x := by
  have : ∀ c : Comment, x ∈ (l.foldl (fun c f => c.withTag f.toList) c).tags ↔ x ∈ c.tags ∨ ∃ s ∈ l, s.toList = x := by
    induction l with
    | nil => intro c; simp
    | cons f l ih =>
      intro c
      rw [List.foldl_cons, ih]
      unfold Comment.withTag
      rw [Std.ExtTreeSet.mem_insert, Std.LawfulEqCmp.compare_eq_iff_eq]
      simp only [List.mem_cons, exists_eq_or_imp]
      tauto
  exact (this _).trans (by simp [Comment.empty])

/-- The candidate tags are replaced by the fingerprint `f`. -/
theorem chosen_post {a a' : String} {n n' : Int} {f cf cg o : String} (ho : ¬ IsCand o.toList)
    (hf : candPrefix ++ f.toList = cg.toList) (hg : IsCand cf.toList) :
    Chosen f.toList (post a n [o, cf, cg]) (post a' n' [o, f]) := by
  have hcg : IsCand cg.toList := hf ▸ List.prefix_append _ _
  refine ⟨mem_post_tags.2 ⟨_, .tail _ (.tail _ (.head _)), hf.symm⟩, fun x => ?_⟩
  rw [mem_post_tags, mem_post_tags]
  simp only [List.mem_cons, List.not_mem_nil, or_false, exists_eq_or_imp, exists_eq_left]
  constructor
  · rintro (rfl | rfl)
    · exact Or.inr ⟨Or.inl rfl, ho⟩
    · exact Or.inl rfl
  · rintro (rfl | ⟨rfl | rfl | rfl, h2⟩)
    · exact Or.inr rfl
    · exact Or.inl rfl
    · exact absurd hg h2
    · exact absurd hcg h2

/-- The choices of the user: the second ride. -/
def ticketPicks : List (Str × PostingInternal) :=
  [("fp-t2".toList, post "expenses:bus" 150 ["fp-c1", "fp-t2"]), ("fp-s2".toList, post "assets:a" (-150) ["fp-c2", "fp-s2"])]

theorem ticketPicks_chosen : List.Forall₂ (fun q x => Chosen x.1 q x.2) ticketBack.posts ticketPicks :=
  .cons (chosen_post (by decide) (by decide) (by decide)) (.cons (chosen_post (by decide) (by decide) (by decide)) .nil)

set_option maxRecDepth 100000 in
theorem ticket_build : afterTicket.build HashOrder.sorted = .ok
    [trn 3 "bus" [post "expenses:bus" 150 ["fp-t1"], post "assets:a" (-150) ["fp-s1"]],
     trn 3 "bus back" [post "expenses:bus" 150 ["fp-t2"], post "assets:a" (-150) ["fp-s2"]]] := by
  rw [build_eval]; decide +kernel

set_option maxRecDepth 100000 in
/-- `C88_all_chosen` applied to them: the second ride has taken in both postings of the ticket. -/
example : ∃ m'', afterTicket.merge HashOrder.rev [trn 5 "whatever" (ticketPicks.map (·.2))] = (.ok [], m'') ∧
    m''.build HashOrder.sorted = .ok
      [trn 3 "bus" [post "expenses:bus" 150 ["fp-t1"], post "assets:a" (-150) ["fp-s1"]],
       trn 3 "bus back" [post "expenses:bus" 150 ["fp-c1", "fp-t2"], post "assets:a" (-150) ["fp-c2", "fp-s2"]]] := by
  have hx := C88_all_chosen rides HashOrder.rev HashOrder.sorted HashOrder.rev HashOrder.sorted ticket [ticketBack] _ afterTicket
    ticket_run ticket_build ticketBack (by simp) (by decide) ticketPicks ticketPicks_chosen (trn 5 "whatever" []).trn
  rw [if_pos (by decide +kernel)] at hx
  obtain ⟨m'', h1, h2⟩ := hx
  refine ⟨m'', h1, h2.trans ?_⟩
  decide +kernel

/-- The hypotheses of `C88_outcome`, `C88_every_posting_needs_a_choice` and `C88_merged` hold for the ticket with one choice (first
posting) and with both. -/
example : [ticketBack].length = ticket.length ∧ ticketBack ∈ [ticketBack] ∧
    List.Forall₂ Edited ticketBack.posts [post "expenses:bus" 150 ["fp-c1", "fp-t2"], post "assets:a" (-150) ["fp-c2"]] ∧
    List.Forall₂ Edited ticketBack.posts (ticketPicks.map (·.2)) := by
  refine ⟨rfl, by simp, .cons (Or.inl ⟨_, chosen_post (by decide) (by decide) (by decide)⟩) (.cons (Or.inr ⟨rfl, fun x => ?_⟩) .nil), ?_⟩
  · rw [mem_post_tags, mem_post_tags]
    simp only [List.mem_cons, List.not_mem_nil, or_false, exists_eq_or_imp, exists_eq_left]
    constructor
    · rintro rfl; exact ⟨Or.inl rfl, by decide⟩
    · rintro ⟨rfl | rfl | rfl, h⟩
      · rfl
      · exact absurd (by decide) h
      · exact absurd (by decide) h
  · rw [List.forall₂_map_right_iff]
    exact ticketPicks_chosen.imp fun q x hx => Or.inl ⟨_, hx⟩

end Verif
