import Verif.Props.Convergence

/-!
# Replaying inputs on a journal that already contains them
-/

namespace Verif
open Spec Spec.Book

/-- The journal already contains the input `ts`: each transaction of it has a home in which all its postings are. -/
structure Contains (js ts : List TransactionPostings) : Prop where
  ok : ∀ p ∈ allPosts ts, PostOK p
  disjoint : (allPosts ts).Pairwise (fun p q => ¬ SharesFp p q)
  nonempty : ∀ t ∈ ts, t.posts ≠ []
  home : ∀ t ∈ ts, ∃ T ∈ js, ∀ p ∈ t.posts, ∃ q ∈ T.posts, ∀ f ∈ fps p, f ∈ fps q
  apart : ∀ p ∈ allPosts ts, ∀ q ∈ allPosts ts, ∀ x ∈ postingsOf js, SharesFp x p → SharesFp x q → p = q

theorem Settled.contains {J : Book} {ts : List TransactionPostings} (hs : Settled J ts) (hw : J.WF) : Contains J.journal ts where
  ok := hs.ok
  disjoint := hs.disjoint
  nonempty := hs.nonempty
  home := by
    intro t ht
    obtain ⟨k, hk⟩ := hs.home t ht
    obtain ⟨p₀, hp₀⟩ := List.exists_mem_of_ne_nil _ (hs.nonempty t ht)
    obtain ⟨i₀, r₀, hr₀, hk₀, _⟩ := hk p₀ hp₀
    have hlt : k < J.hdrs.length := hk₀ ▸ hw.owner r₀ (List.mem_of_getElem? hr₀)
    refine ⟨⟨J.hdrs[k], (J.recs.filter (·.trn = k)).map (·.post)⟩, ?_, ?_⟩
    · rw [(journal_perm _).mem_iff]
      unfold Spec.Book.entries
      rw [List.mem_mapIdx]
      exact ⟨k, hlt, rfl⟩
    · intro p hp
      obtain ⟨i, r, hr, hrk, hf⟩ := hk p hp
      exact ⟨r.post, List.mem_map.2 ⟨r, List.mem_filter.2 ⟨List.mem_of_getElem? hr, by simpa using hrk⟩, rfl⟩, hf⟩
  apart := by
    intro p hp q hq x hx
    obtain ⟨i, r, hr, rfl⟩ := (mem_journal_posts hw).1 hx
    exact hs.apart p hp q hq i r hr

theorem Contains.settled {J : Book} {ts : List TransactionPostings} (hc : Contains J.journal ts) (hw : J.WF) : Settled J ts where
  ok := hc.ok
  disjoint := hc.disjoint
  nonempty := hc.nonempty
  home := by
    intro t ht
    obtain ⟨T, hT, hp⟩ := hc.home t ht
    have hT := (journal_perm _).mem_iff.1 hT
    unfold Spec.Book.entries at hT
    rw [List.mem_mapIdx] at hT
    obtain ⟨k, hk, rfl⟩ := hT
    refine ⟨k, ?_⟩
    intro p hp'
    obtain ⟨q, hq, hf⟩ := hp p hp'
    obtain ⟨r, hr, rfl⟩ := List.mem_map.1 hq
    obtain ⟨hr, hrk⟩ := List.mem_filter.1 hr
    obtain ⟨i, hi⟩ := List.mem_iff_getElem?.1 hr
    exact ⟨i, r, hi, by simpa using hrk, hf⟩
  apart := by
    intro p hp q hq i r hr
    exact hc.apart p hp q hq r.post ((mem_journal_posts hw).2 ⟨i, r, hr, rfl⟩)

/-- In a settled input, the postings that go into a record are those that share a fingerprint with it. -/
theorem Settled.hits {J : Book} {ts : List TransactionPostings} (hs : Settled J ts) (hw : J.WF) {i : Nat} {r : Rec}
    (hr : J.recs[i]? = some r) : J.hits ts i = (allPosts ts).filter (fun p => SharesFp r.post p) := by
  unfold Spec.Book.hits trnHits allPosts
  rw [List.filter_flatMap]
  apply List.flatMap_congr
  intro t ht
  rw [if_neg (hs.decided hw ht)]
  apply List.filter_congr
  intro p hp
  rw [decide_eq_decide]
  obtain ⟨j, s, hj, hf, hv⟩ := hs.verdict hw (dateOf t) (mem_allPosts.2 ⟨t, ht, hp⟩)
  have hpok := hs.ok p (mem_allPosts.2 ⟨t, ht, hp⟩)
  rw [hv]
  constructor
  · intro he
    cases he
    rw [hj] at hr
    rw [← Option.some.inj hr]
    obtain ⟨f, hfp⟩ := List.exists_mem_of_ne_nil _ hpok.2
    exact ⟨f, hf f hfp, hfp⟩
  · rintro ⟨f, hf1, hf2⟩
    rw [hw.unique j i s r hj hr ⟨f, hf f hf2, hf1⟩]

/-! ### What a record is made of -/

/-- The input postings of a history that share a fingerprint with `x`. -/
def sourcesOf (hist : List (List TransactionPostings)) (x : PostingInternal) : List PostingInternal :=
  hist.flatMap (fun ts => (allPosts ts).filter (fun p => SharesFp x p))

theorem sourcesOf_append (h h' : List (List TransactionPostings)) (x : PostingInternal) :
    sourcesOf (h ++ h') x = sourcesOf h x ++ sourcesOf h' x := by
  unfold sourcesOf; rw [List.flatMap_append]

/-- All inputs are merged, with nothing left: the book is made of them. -/
structure Made (J : Book) (hist : List (List TransactionPostings)) : Prop where
  settled : ∀ ts ∈ hist, Settled J ts
  made : ∀ r ∈ J.recs, ∃ p l, sourcesOf hist r.post = p :: l ∧ r.post = l.foldl absorb p

theorem made_empty : Made Book.empty [] where
  settled := by intro ts hts; cases hts
  made := by intro r hr; cases hr

theorem filter_shares_congr {l : List PostingInternal} {x y : PostingInternal} (h : ∀ p ∈ l, SharesFp x p ↔ SharesFp y p) :
    l.filter (fun p => SharesFp x p) = l.filter (fun p => SharesFp y p) := by
  apply List.filter_congr
  intro p hp
  rw [decide_eq_decide]
  exact h p hp

theorem sourcesOf_congr {hist : List (List TransactionPostings)} {x y : PostingInternal}
    (h : ∀ ts ∈ hist, ∀ p ∈ allPosts ts, SharesFp x p ↔ SharesFp y p) : sourcesOf hist x = sourcesOf hist y := by
  unfold sourcesOf
  apply List.flatMap_congr
  intro ts hts
  exact filter_shares_congr (h ts hts)

/-- The input postings that share a fingerprint with a record right after they were merged are those that went into it. -/
theorem Good.filter_after {J : Book} {ts : List TransactionPostings} (hg : Good J ts) (hd : ∀ t ∈ ts, ¬ Undecided J t)
    {i : Nat} (hi : i < J.recs.length) :
    (allPosts ts).filter (fun p => SharesFp ((J.hits ts i).foldl absorb J.recs[i].post) p) = J.hits ts i := by
  have h1 : J.hits ts i = ts.flatMap (fun t => t.posts.filter (fun p => J.verdict (dateOf t) p = .into i)) := by
    unfold Spec.Book.hits trnHits
    apply List.flatMap_congr
    intro t ht
    rw [if_neg (hd t ht)]
  have h2 : (allPosts ts).filter (fun p => SharesFp ((J.hits ts i).foldl absorb J.recs[i].post) p) =
      ts.flatMap (fun t => t.posts.filter (fun p => SharesFp ((J.hits ts i).foldl absorb J.recs[i].post) p)) := by
    unfold allPosts; rw [List.filter_flatMap]
  rw [h2]
  conv_rhs => rw [h1]
  apply List.flatMap_congr
  intro t ht
  apply List.filter_congr
  intro p hp
  rw [decide_eq_decide]
  have hpa : p ∈ allPosts ts := mem_allPosts.2 ⟨t, ht, hp⟩
  constructor
  · intro hs
    rcases hg.shares_after ht (hd t ht) hp (after_old J ts hi) hs with ⟨_, hh⟩ | ⟨hle, _⟩
    · obtain ⟨t', ht', _, hp', hv⟩ := mem_hits.1 hh
      rw [hg.trn_eq ht ht' hp hp']
      exact hv
    · omega
  · intro hv
    have hh : p ∈ J.hits ts i := mem_hits.2 ⟨t, ht, hd t ht, hp, hv⟩
    obtain ⟨f, hf⟩ := List.exists_mem_of_ne_nil _ (hg.ok p hpa).2
    exact ⟨f, mem_fps_foldl.2 (Or.inr ⟨p, hh, hf⟩), hf⟩

theorem Made.step {J : Book} {hist : List (List TransactionPostings)} (hm : Made J hist) {ts : List TransactionPostings}
    (hg : Good J ts) (hd : ∀ t ∈ ts, ¬ Undecided J t) (hw : J.WF) (hw' : (J.after ts).WF) : Made (J.after ts) (hist ++ [ts]) where
  settled := by
    intro ts' hts'
    rcases List.mem_append.1 hts' with h | h
    · exact (hm.settled ts' h).mono (ext_after J ts) hw'
    · rw [List.mem_singleton.1 h]; exact settled_after hg hd
  made := by
    intro r hr
    -- an earlier input posting is all in one old record
    have hin : ∀ ts' ∈ hist, ∀ p ∈ allPosts ts', ∃ (i : Nat) (hi : i < J.recs.length), ∀ f ∈ fps p, f ∈ fps J.recs[i].post := by
      intro ts' hts' p hp
      obtain ⟨i, s, hs, hf, _⟩ := (hm.settled ts' hts').verdict hw default hp
      have hi : i < J.recs.length := by
        by_contra hc; rw [List.getElem?_eq_none (by omega)] at hs; cases hs
      rw [List.getElem?_eq_getElem hi] at hs
      exact ⟨i, hi, by rw [Option.some.inj hs]; exact hf⟩
    have h1 : ∀ x, sourcesOf [ts] x = (allPosts ts).filter (fun p => SharesFp x p) := by
      intro x; unfold sourcesOf; simp
    rcases mem_after.1 hr with ⟨i, hi, rfl⟩ | hn
    · obtain ⟨p, l, hpl, he⟩ := hm.made _ (List.getElem_mem hi)
      simp only
      refine ⟨p, l ++ J.hits ts i, ?_, ?_⟩
      · rw [sourcesOf_append, h1, hg.filter_after hd hi, ← List.cons_append, ← hpl]
        congr 1
        apply sourcesOf_congr
        intro ts' hts' q hq
        obtain ⟨j, hj, hf⟩ := hin ts' hts' q hq
        constructor
        · rintro ⟨f, hf1, hf2⟩
          have hji : j = i := hw'.unique j i _ _ (after_old J ts hj) (after_old J ts hi)
            ⟨f, mem_fps_foldl.2 (Or.inl (hf f hf2)), hf1⟩
          subst hji
          exact ⟨f, hf f hf2, hf2⟩
        · rintro ⟨f, hf1, hf2⟩
          exact ⟨f, mem_fps_foldl.2 (Or.inl hf1), hf2⟩
      · rw [List.foldl_append, ← he]
    · obtain ⟨k, hk⟩ := List.mem_iff_getElem?.1 hn
      have hkr : (J.after ts).recs[J.recs.length + k]? = some r := by
        rw [after_recs, List.getElem?_append_right (by simp)]
        simp only [List.length_mapIdx, Nat.add_sub_cancel_left]
        exact hk
      obtain ⟨t, ht, hu, hp, hv, _⟩ := mem_news hn
      have hpa : r.post ∈ allPosts ts := mem_allPosts.2 ⟨t, ht, hp⟩
      refine ⟨r.post, [], ?_, rfl⟩
      rw [sourcesOf_append, h1]
      have e1 : sourcesOf hist r.post = [] := by
        unfold sourcesOf
        rw [List.flatMap_eq_nil_iff]
        intro ts' hts'
        rw [List.filter_eq_nil_iff]
        intro q hq hs
        have hs := of_decide_eq_true hs
        obtain ⟨j, hj, hf⟩ := hin ts' hts' q hq
        obtain ⟨f, hf1, hf2⟩ := hs
        have := hw'.unique j (J.recs.length + k) _ _ (after_old J ts hj) hkr
            ⟨f, mem_fps_foldl.2 (Or.inl (hf f hf2)), hf1⟩
        omega
      have e2 : (allPosts ts).filter (fun q => SharesFp r.post q) = [r.post] := by
        have hc : (allPosts ts).filter (fun q => SharesFp r.post q) = (allPosts ts).filter (fun q => q = r.post) := by
          apply List.filter_congr
          intro q hq
          rw [decide_eq_decide]
          constructor
          · intro hs; exact (hg.eq_of_shares hpa hq hs).symm
          · rintro rfl; exact sharesFp_self (hg.ok _ hq).2
        rw [hc, List.filter_eq, List.count_eq_one_of_mem hg.nodup hpa]
        rfl
      rw [e1, e2, List.nil_append]

/-! ### Replaying -/

/-- A record after the inputs `done` were merged into it once more. -/
def replayed (done : List (List TransactionPostings)) (r : Rec) : Rec :=
  { r with post := (sourcesOf done r.post).foldl absorb r.post }

theorem fps_replayed {K : Book} (hw : K.WF) {done : List (List TransactionPostings)} (hs : ∀ ts ∈ done, Settled K ts) {r : Rec}
    (hr : r ∈ K.recs) (f : Str) : f ∈ fps (replayed done r).post ↔ f ∈ fps r.post := by
  unfold replayed
  simp only
  rw [mem_fps_foldl]
  constructor
  · rintro (h | ⟨p, hp, hf⟩)
    · exact h
    · unfold sourcesOf at hp
      obtain ⟨ts, hts, hp⟩ := List.mem_flatMap.1 hp
      obtain ⟨hp, hsh⟩ := List.mem_filter.1 hp
      obtain ⟨g, hg1, hg2⟩ := of_decide_eq_true hsh
      obtain ⟨j, s, hj, hfs, _⟩ := (hs ts hts).verdict hw default hp
      obtain ⟨i, hi⟩ := List.mem_iff_getElem?.1 hr
      have := hw.unique j i s r hj hi ⟨g, hfs g hg2, hg1⟩
      subst this
      rw [hj] at hi
      rw [← Option.some.inj hi]
      exact hfs f hf
  · exact Or.inl

theorem replayed_step {K K' : Book} (hw : K.WF) (hw' : K'.WF) {done : List (List TransactionPostings)} {ts : List TransactionPostings}
    (hs : ∀ ts' ∈ done, Settled K ts') (hsn : Settled K' ts)
    (hh : K'.hdrs = K.hdrs) (hr : K'.recs = K.recs.map (replayed done)) :
    (K'.after ts).hdrs = K.hdrs ∧ (K'.after ts).recs = K.recs.map (replayed (done ++ [ts])) := by
  obtain ⟨h1, h2⟩ := hsn.after_eq hw'
  refine ⟨h1.trans hh, ?_⟩
  rw [h2]
  apply List.ext_getElem?
  intro i
  rw [List.getElem?_mapIdx, List.getElem?_map]
  by_cases hi : i < K.recs.length
  · have hki : K'.recs[i]? = some (replayed done K.recs[i]) := by
      rw [hr, List.getElem?_map, List.getElem?_eq_getElem hi]; rfl
    rw [hki, List.getElem?_eq_getElem hi]
    simp only [Option.map_some]
    rw [hsn.hits hw' hki]
    congr 1
    unfold replayed
    simp only
    congr 1
    rw [sourcesOf_append, List.foldl_append]
    have e : sourcesOf [ts] K.recs[i].post = (allPosts ts).filter (fun p => SharesFp K.recs[i].post p) := by
      unfold sourcesOf; simp
    rw [e]
    congr 1
    apply filter_shares_congr
    intro p _
    have hf := fps_replayed hw hs (List.getElem_mem hi)
    constructor
    · rintro ⟨f, hf1, hf2⟩; exact ⟨f, (hf f).1 hf1, hf2⟩
    · rintro ⟨f, hf1, hf2⟩; exact ⟨f, (hf f).2 hf1, hf2⟩
  · have h3 : K'.recs[i]? = none := by
      rw [hr]; simp; omega
    rw [h3, List.getElem?_eq_none (by omega)]
    rfl

theorem replayed_all {r : Rec} {hist : List (List TransactionPostings)} {p : PostingInternal} {l : List PostingInternal}
    (h1 : sourcesOf hist r.post = p :: l) (h2 : r.post = l.foldl absorb p) : replayed hist r = r := by
  unfold replayed
  rw [h1]
  have h3 : (p :: l).foldl absorb p = r.post := by rw [List.foldl_cons, absorb_self, h2]
  have := absorb_replay p (p :: l)
  rw [h3] at this
  rw [this]

end Verif
