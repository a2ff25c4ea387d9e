import Verif.Props.Matching3

/-!
# Inputs that have a part in common
-/

namespace Verif
open Spec Spec.Book

/-- Nothing in the book is like any posting of the input. -/
def AllNew (J : Book) (ts : List TransactionPostings) : Prop :=
  ∀ t ∈ ts, t.posts ≠ [] ∧ ∀ p ∈ t.posts, J.verdict (dateOf t) p = .new

/-- The records for new transactions, if `c` transactions are there already. -/
def newRecs : Nat → List TransactionPostings → List Rec
  | _, [] => []
  | c, t :: ts => t.posts.map (⟨c, dateOf t, ·⟩) ++ newRecs (c + 1) ts

theorem newRecs_append (c : Nat) (a b : List TransactionPostings) : newRecs c (a ++ b) = newRecs c a ++ newRecs (c + a.length) b := by
  induction a generalizing c with
  | nil => rfl
  | cons t a ih =>
    rw [List.cons_append, newRecs, ih, newRecs, List.append_assoc, List.length_cons]
    congr 3
    omega

theorem mem_newRecs {c : Nat} {ts : List TransactionPostings} {r : Rec} (h : r ∈ newRecs c ts) :
    ∃ t ∈ ts, r.date = dateOf t ∧ r.post ∈ t.posts := by
  induction ts generalizing c with
  | nil => cases h
  | cons t ts ih =>
    rcases List.mem_append.1 h with h | h
    · obtain ⟨p, hp, rfl⟩ := List.mem_map.1 h
      exact ⟨t, by simp, rfl, hp⟩
    · obtain ⟨t', ht', h⟩ := ih h
      exact ⟨t', by simp [ht'], h⟩

theorem newRecs_mem (c : Nat) {ts : List TransactionPostings} {t : TransactionPostings} (ht : t ∈ ts) {p : PostingInternal} (hp : p ∈ t.posts) :
    ∃ r ∈ newRecs c ts, r.date = dateOf t ∧ r.post = p := by
  induction ts generalizing c with
  | nil => cases ht
  | cons u ts ih =>
    rcases List.mem_cons.1 ht with rfl | ht
    · exact ⟨⟨c, dateOf t, p⟩, List.mem_append_left _ (List.mem_map.2 ⟨p, hp, rfl⟩), rfl, rfl⟩
    · obtain ⟨r, hr, h⟩ := ih (c + 1) ht
      exact ⟨r, List.mem_append_right _ hr, h⟩

theorem AllNew.sub {J : Book} {ts ts' : List TransactionPostings} (h : AllNew J ts) (hs : ∀ t ∈ ts', t ∈ ts) : AllNew J ts' :=
  fun t ht => h t (hs t ht)

theorem AllNew.decided {J : Book} {ts : List TransactionPostings} (h : AllNew J ts) : ∀ t ∈ ts, ¬ Undecided J t := by
  rintro t ht (he | ⟨v, hv, ha⟩)
  · exact (h t ht).1 he
  · obtain ⟨p, hp, rfl⟩ := List.mem_map.1 hv
    rw [(h t ht).2 p hp] at ha
    cases ha

theorem AllNew.dests {J : Book} {ts : List TransactionPostings} (h : AllNew J ts) : ∀ t ∈ ts, J.dests t = [] := by
  intro t ht
  rw [dests_nil_iff]
  intro p hp
  rw [(h t ht).2 p hp]
  rfl

theorem AllNew.news {J : Book} {ts : List TransactionPostings} (h : AllNew J ts) (c : Nat) : J.news c ts = newRecs c ts := by
  induction ts generalizing c with
  | nil => rfl
  | cons t ts ih =>
    have hd := h.decided t (by simp)
    have hds := h.dests t (by simp)
    unfold Spec.Book.news newRecs
    rw [if_neg hd, if_pos ⟨hd, hds⟩, home_fresh hds, ih (h.sub (by intro t ht; simp [ht]))]
    congr 2
    rw [List.filter_eq_self]
    intro p hp
    rw [(h t (by simp)).2 p hp]
    rfl

theorem AllNew.hits {J : Book} {ts : List TransactionPostings} (h : AllNew J ts) (i : Nat) : J.hits ts i = [] := by
  rw [List.eq_nil_iff_forall_not_mem]
  intro p hp
  obtain ⟨t, ht, _, hpt, hv⟩ := mem_hits.1 hp
  rw [(h t ht).2 p hpt] at hv
  cases hv

/-- The book after an input that is new. -/
theorem AllNew.after {J : Book} {ts : List TransactionPostings} (h : AllNew J ts) :
    J.after ts = ⟨J.hdrs ++ ts.map (·.trn), J.recs ++ newRecs J.hdrs.length ts⟩ := by
  have h1 := after_hdrs J ts
  have h2 := after_recs J ts
  rw [h.news] at h2
  have h3 : ts.filter (J.Fresh ·) = ts := by
    rw [List.filter_eq_self]
    intro t ht
    rw [decide_eq_true_iff]
    exact ⟨h.decided t ht, h.dests t ht⟩
  rw [h3] at h1
  have h4 : J.recs.mapIdx (fun i r => { r with post := (J.hits ts i).foldl absorb r.post }) = J.recs := by
    apply List.ext_getElem?
    intro i
    rw [List.getElem?_mapIdx, h.hits]
    cases J.recs[i]? <;> rfl
  rw [h4] at h2
  cases hJ : J.after ts
  rw [hJ] at h1 h2
  simp only at h1 h2
  rw [h1, h2]

theorem verdict_new_iff {J : Book} {d : Date} {p : PostingInternal} :
    J.verdict d p = .new ↔ ∀ r ∈ J.recs, ¬ SharesFp r.post p ∧ ¬ (r.date = d ∧ SoftMatch r.post p) := by
  have hs : J.softHits d p = [] ↔ ∀ r ∈ J.recs, ¬ (r.date = d ∧ SoftMatch r.post p) := by
    rw [List.eq_nil_iff_forall_not_mem]
    constructor
    · intro h r hr hm
      obtain ⟨i, hi⟩ := List.mem_iff_getElem?.1 hr
      exact h i (mem_softHits.2 ⟨r, hi, hm.1, hm.2⟩)
    · intro h i hi
      obtain ⟨r, hr, h1, h2⟩ := mem_softHits.1 hi
      exact h r (List.mem_of_getElem? hr) ⟨h1, h2⟩
  rw [show (∀ r ∈ J.recs, ¬ SharesFp r.post p ∧ ¬ (r.date = d ∧ SoftMatch r.post p)) ↔ J.fpHits p = [] ∧ J.softHits d p = [] by
    rw [fpHits_nil_iff, hs]
    exact ⟨fun h => ⟨fun r hr => (h r hr).1, fun r hr => (h r hr).2⟩, fun h r hr => ⟨h.1 r hr, h.2 r hr⟩⟩]
  unfold verdict
  constructor
  · intro h
    split at h
    · cases h
    · cases h
    · rename_i h1
      split at h
      · rename_i h2; exact ⟨h1, h2⟩
      · cases h
      · cases h
  · rintro ⟨h1, h2⟩
    rw [h1, h2]

/-- New transactions without soft matches are still new after an input that was new as well. -/
theorem AllNew.step {J : Book} {x c : List TransactionPostings} (h : AllNew J (x ++ c))
    (hd : (allPosts (x ++ c)).Pairwise (fun p q => ¬ SharesFp p q))
    (hsoft : ∀ t ∈ x, ∀ u ∈ c, dateOf t = dateOf u → ∀ p ∈ t.posts, ∀ q ∈ u.posts, ¬ SoftMatch p q) :
    AllNew (J.after x) c := by
  intro u hu
  have hn := h u (by simp [hu])
  refine ⟨hn.1, fun p hp => ?_⟩
  rw [verdict_new_iff]
  have hn := verdict_new_iff.1 (hn.2 p hp)
  rw [(h.sub (by intro t ht; simp [ht]) : AllNew J x).after]
  intro r hr
  rcases List.mem_append.1 hr with hr | hr
  · exact hn r hr
  · obtain ⟨t, ht, e, hrp⟩ := mem_newRecs hr
    constructor
    · unfold allPosts at hd
      rw [List.flatMap_append, List.pairwise_append] at hd
      exact hd.2.2 _ (List.mem_flatMap.2 ⟨t, ht, hrp⟩) _ (List.mem_flatMap.2 ⟨u, hu, hp⟩)
    · rintro ⟨e', hm⟩
      exact hsoft t ht u hu (e.symm.trans e') _ hrp _ hp hm

theorem AllNew.after_append {J : Book} {x c : List TransactionPostings} (h : AllNew J (x ++ c)) (hc : AllNew (J.after x) c) :
    (J.after x).after c = J.after (x ++ c) := by
  have hx : AllNew J x := h.sub (by intro t ht; simp [ht])
  rw [hc.after, hx.after, h.after, newRecs_append]
  simp

/-- A part of a settled input is settled. -/
theorem Settled.suffix {J : Book} {a b : List TransactionPostings} (h : Settled J (a ++ b)) : Settled J b where
  ok := fun p hp => h.ok p (by rw [allPosts, List.flatMap_append]; exact List.mem_append_right _ hp)
  disjoint := h.disjoint.sublist (by
    unfold allPosts
    rw [List.flatMap_append]
    exact List.sublist_append_right _ _)
  nonempty := fun t ht => h.nonempty t (by simp [ht])
  home := fun t ht => h.home t (by simp [ht])
  apart := fun p hp q hq => h.apart p (by rw [allPosts, List.flatMap_append]; exact List.mem_append_right _ hp) q
    (by rw [allPosts, List.flatMap_append]; exact List.mem_append_right _ hq)

/-- A part of an input that was new does not change anything the second time. -/
theorem AllNew.again {J : Book} {a b : List TransactionPostings} (h : AllNew J (a ++ b)) (hg : Good J (a ++ b))
    (hw : (J.after (a ++ b)).WF) : (J.after (a ++ b)).after b = J.after (a ++ b) := by
  have hs := settled_after hg h.decided
  obtain ⟨h1, h2⟩ := hs.suffix.after_eq hw
  have h3 : ((J.after (a ++ b)).after b).recs = (J.after (a ++ b)).recs := by
    rw [h2]
    apply List.ext_getElem?
    intro i
    rw [List.getElem?_mapIdx]
    cases hr : (J.after (a ++ b)).recs[i]? with
    | none => rfl
    | some r =>
      have habs : ∀ p ∈ (J.after (a ++ b)).hits b i, p = r.post := by
        intro p hp
        obtain ⟨t, ht, _, hpt, hv⟩ := mem_hits.1 hp
        have ht' : t ∈ a ++ b := by simp [ht]
        have hpa := mem_allPosts.2 ⟨t, ht', hpt⟩
        obtain ⟨i', r', hr', hf, hvi⟩ := hs.verdict hw (dateOf t) hpa
        rw [hv] at hvi; cases hvi
        rw [hr] at hr'; cases hr'
        obtain ⟨f, hfp⟩ := List.exists_mem_of_ne_nil _ (hg.ok p hpa).2
        rcases hg.shares_after ht' (h.decided t ht') hpt hr ⟨f, hf f hfp, hfp⟩ with ⟨_, g2⟩ | ⟨_, g2⟩
        · rw [h.hits] at g2; cases g2
        · exact g2.symm
      have : ∀ l : List PostingInternal, (∀ p ∈ l, p = r.post) → l.foldl absorb r.post = r.post := by
        intro l hl
        induction l with
        | nil => rfl
        | cons p l ih =>
          rw [List.foldl_cons, hl p (by simp), absorb_self]
          exact ih fun q hq => hl q (by simp [hq])
      rw [Option.map_some, this _ habs]
  cases h4 : (J.after (a ++ b)).after b
  cases h5 : J.after (a ++ b)
  rw [h4, h5] at h1 h3
  simp only at h1 h3
  rw [h1, h3]

/-- A settled part and a new part together. -/
theorem good_mixed {K : Book} (hw : K.WF) {b c : List TransactionPostings} (hs : Settled K b) (hn : AllNew K c)
    (hok : ∀ p ∈ allPosts (b ++ c), PostOK p) (hd : (allPosts (b ++ c)).Pairwise (fun p q => ¬ SharesFp p q)) :
    Good K (b ++ c) ∧ ∀ t ∈ b ++ c, ¬ Undecided K t := by
  have hg := hs.good hw
  refine ⟨⟨hok, hd, ?_, ?_, ?_⟩, ?_⟩
  · rintro ⟨t, ht, hv⟩
    rcases List.mem_append.1 ht with ht | ht
    · exact hg.noConflict ⟨t, ht, hv⟩
    · obtain ⟨p, hp, he⟩ := List.mem_map.1 hv
      rw [(hn t ht).2 p hp] at he
      cases he
  · rintro ⟨t, ht, hu, i, hi, j, hj, hne⟩
    rcases List.mem_append.1 ht with ht | ht
    · exact hg.noSplit ⟨t, ht, hu, i, hi, j, hj, hne⟩
    · rw [hn.dests t ht] at hi
      cases hi
  · unfold allDests
    rw [List.filter_append, List.flatMap_append]
    have : (c.filter (fun t => ¬ Undecided K t)).flatMap K.dests = [] := by
      rw [List.flatMap_eq_nil_iff]
      intro t ht
      exact hn.dests t (List.mem_filter.1 ht).1
    rw [this, List.append_nil]
    exact hg.noSame
  · intro t ht
    rcases List.mem_append.1 ht with ht | ht
    · exact hs.decided hw ht
    · exact hn.decided t ht

theorem after_append (J : Book) (b c : List TransactionPostings) : J.after (b ++ c) = c.foldl (J.putTrn ·) (J.after b) := by
  unfold Spec.Book.after
  exact List.foldl_append

/-- Two inputs that overlap have the effect of one input with everything, if all of it is new, exactly if no posting of the last part matches
one of the others softly. -/
theorem overlap_iff {m m' : Merger} {J : Book} (hR : R m J) (h₀ h h' : HashOrder) {a b c : List TransactionPostings}
    (hm : m.merge h₀ (a ++ b ++ c) = (.ok [], m'))
    (hnew : ∀ t ∈ a ++ b ++ c, ∀ p ∈ t.posts, ∀ r ∈ J.recs, ¬ SharesFp r.post p ∧ ¬ (r.date = dateOf t ∧ SoftMatch r.post p)) :
    (m.merge h (a ++ b)).1 = .ok [] ∧ ((m.merge h (a ++ b)).2.merge h' (b ++ c) = (.ok [], m') ↔
      ∀ t ∈ a ++ b, ∀ u ∈ c, dateOf t = dateOf u → ∀ p ∈ t.posts, ∀ q ∈ u.posts, ¬ SoftMatch p q) := by
  obtain ⟨hnb, hu, hR'⟩ := merge_ok hR hm
  have hdec := handedBack_nil_iff.1 hu.symm
  have hg := good_iff.2 hnb
  have hall : AllNew J (a ++ b ++ c) := by
    intro t ht
    refine ⟨fun he => hdec t ht (Or.inl he), fun p hp => verdict_new_iff.2 (hnew t ht p hp)⟩
  have hgab : Good J (a ++ b) := good_sublist (List.sublist_append_left _ _) hg
  have hab : AllNew J (a ++ b) := hall.sub fun t ht => List.mem_append_left _ ht
  obtain ⟨m₁, hm₁, hR₁⟩ := merge_of_not_bad hR h (good_iff.1 hgab)
  rw [handedBack_nil_iff.2 hab.decided] at hm₁
  have hsub : (allPosts (b ++ c)).Sublist (allPosts (a ++ b ++ c)) := by
    unfold allPosts
    rw [List.append_assoc, List.flatMap_append (xs := a)]
    exact List.sublist_append_right _ _
  rw [hm₁]
  refine ⟨rfl, fun hm₂ => ?_, fun hsoft => ?_⟩
  · intro t ht u hu' hdate p hp q hq hsm
    obtain ⟨hnb₂, hu₂, hR₂⟩ := merge_ok hR₁ hm₂
    have hdec₂ := handedBack_nil_iff.1 hu₂.symm
    have hub : u ∈ b ++ c := List.mem_append_right _ hu'
    have huc : u ∈ a ++ b ++ c := List.mem_append_right _ hu'
    -- the record for `p` before the second call
    have hrec : (⟨(J.hdrs ++ ((a ++ b).map (·.trn))), J.recs ++ newRecs J.hdrs.length (a ++ b)⟩ : Book) = J.after (a ++ b) := hab.after.symm
    obtain ⟨r, hrn, hrd, hrp⟩ := newRecs_mem J.hdrs.length ht hp
    have hr : r ∈ (J.after (a ++ b)).recs := by rw [← hrec]; exact List.mem_append_right _ hrn
    -- no record of that book shares a fingerprint with `q`
    have hno : ∀ r ∈ (J.after (a ++ b)).recs, ¬ SharesFp r.post q := by
      rw [← hrec]
      intro r hr
      rcases List.mem_append.1 hr with hr | hr
      · exact (hnew u huc q hq r hr).1
      · obtain ⟨t', ht', _, hp'⟩ := mem_newRecs hr
        have hd := hg.disjoint
        unfold allPosts at hd
        rw [List.flatMap_append (xs := a ++ b), List.pairwise_append] at hd
        exact hd.2.2 _ (List.mem_flatMap.2 ⟨t', ht', hp'⟩) _ (List.mem_flatMap.2 ⟨u, hu', hq⟩)
    -- so `q` goes into a record
    cases hv : (J.after (a ++ b)).verdict (dateOf u) q with
    | new =>
      exact (verdict_new_iff.1 hv r hr).2 ⟨hrd.trans hdate, hrp ▸ hsm⟩
    | conflict =>
      exact (good_iff.2 hnb₂).noConflict ⟨u, hub, List.mem_map.2 ⟨q, hq, hv⟩⟩
    | ambiguous l =>
      exact hdec₂ u hub (Or.inr ⟨_, List.mem_map.2 ⟨q, hq, rfl⟩, by rw [hv]; rfl⟩)
    | into i =>
      have hqh : q ∈ (J.after (a ++ b)).hits (b ++ c) i := mem_hits.2 ⟨u, hub, hdec₂ u hub, hq, hv⟩
      have hlt : i < (J.after (a ++ b)).recs.length := dests_lt (mem_dests.2 ⟨q, hq, hv⟩)
      obtain ⟨s, hs⟩ : ∃ s, (J.after (a ++ b)).recs[i]? = some s := ⟨_, List.getElem?_eq_getElem hlt⟩
      -- the record afterwards
      have hs₂ : ((J.after (a ++ b)).after (b ++ c)).recs[i]? =
          some { s with post := ((J.after (a ++ b)).hits (b ++ c) i).foldl absorb s.post } := by
        rw [after_recs, List.getElem?_append_left (by rw [List.length_mapIdx]; exact hlt), List.getElem?_mapIdx, hs]
        rfl
      have harena := congrArg (·[i]?) (hR₂.arena.symm.trans hR'.arena)
      simp only [List.getElem?_map] at harena
      rw [hs₂] at harena
      cases hs' : (J.after (a ++ b ++ c)).recs[i]? with
      | none => rw [hs'] at harena; cases harena
      | some s' =>
        rw [hs'] at harena
        simp only [Option.map_some, Option.some.injEq] at harena
        have hpost : ((J.after (a ++ b)).hits (b ++ c) i).foldl absorb s.post = s'.post := by
          injection harena
        obtain ⟨f, hf⟩ := List.exists_mem_of_ne_nil _ (hg.ok q (mem_allPosts.2 ⟨u, huc, hq⟩)).2
        have hshare : SharesFp s'.post q := ⟨f, by rw [← hpost]; exact mem_fps_foldl.2 (Or.inr ⟨q, hqh, hf⟩), hf⟩
        have hsq : s'.post = q := by
          rcases hg.shares_after huc (hdec u huc) hq hs' hshare with ⟨_, g⟩ | ⟨_, g⟩
          · rw [hall.hits] at g; cases g
          · exact g
        obtain ⟨g, hgf⟩ := List.exists_mem_of_ne_nil _ (hR₁.wf.hasFp s (List.mem_of_getElem? hs))
        exact hno s (List.mem_of_getElem? hs) ⟨g, hgf, by rw [← hsq, ← hpost]; exact mem_fps_foldl.2 (Or.inl hgf)⟩
  · have hc : AllNew (J.after (a ++ b)) c := hall.step hg.disjoint hsoft
    obtain ⟨hgm, hdm⟩ := good_mixed hR₁.wf (settled_after hgab hab.decided).suffix hc
      (fun p hp => hg.ok p (hsub.subset hp)) (hg.disjoint.sublist hsub)
    obtain ⟨m₂, hm₂, hR₂⟩ := merge_of_not_bad hR₁ h' (good_iff.1 hgm)
    rw [handedBack_nil_iff.2 hdm] at hm₂
    rw [hm₂]
    have hfin : (J.after (a ++ b)).after (b ++ c) = J.after (a ++ b ++ c) := by
      rw [after_append, hab.again hgab hR₁.wf, ← hall.after_append hc]
      rfl
    rw [hfin] at hR₂
    rw [hR₂.unique hR']

/-- Two inputs that overlap have the effect of one input with everything, if all of it is new and the last part has dates of its own. -/
theorem overlap {m m' : Merger} {J : Book} (hR : R m J) (h₀ h h' : HashOrder) {a b c : List TransactionPostings}
    (hm : m.merge h₀ (a ++ b ++ c) = (.ok [], m'))
    (hnew : ∀ t ∈ a ++ b ++ c, ∀ p ∈ t.posts, ∀ r ∈ J.recs, ¬ SharesFp r.post p ∧ ¬ (r.date = dateOf t ∧ SoftMatch r.post p))
    (hdate : ∀ t ∈ a ++ b, ∀ u ∈ c, dateOf t ≠ dateOf u) :
    (m.merge h (a ++ b)).1 = .ok [] ∧ (m.merge h (a ++ b)).2.merge h' (b ++ c) = (.ok [], m') := by
  obtain ⟨h1, h2⟩ := overlap_iff hR h₀ h h' hm hnew
  exact ⟨h1, h2.2 fun t ht u hu e => absurd e (hdate t ht u hu)⟩

end Verif
