import Verif.Props.ByHand
import Verif.Props.MergeAgain
import Verif.Proofs.Session
import Verif.Props.SessionGrows

/-!
# C88: resolving unmerged transactions by hand, with files
-/

namespace Verif
open Spec Spec.Book Comment

/-- Everything about a call whose postings all bear the fingerprint of a record. -/
theorem picks_call {K : Book} (hw : K.WF) {rs : List Resolution} (hne : ∀ e ∈ rs, e.picks ≠ [])
    (hx : ∀ x ∈ picksOf rs, PostOK x.2 ∧ x.1 ∈ fps x.2 ∧ ∃ c ∈ postingsOf K.journal, x.1 ∈ fps c) :
    (Good K (rs.map Resolution.trn) ↔ Resolves K.journal rs) ∧ (Resolves K.journal rs →
      (∀ t ∈ rs.map Resolution.trn, ¬ Undecided K t) ∧
      (K.after (rs.map Resolution.trn)).journal =
        K.journal.map fun T => { T with posts := T.posts.map (taken (picksOf rs)) }) := by
  classical
  have hall : allPosts (rs.map Resolution.trn) = (picksOf rs).map (·.2) := by
    unfold allPosts picksOf
    rw [List.flatMap_map, List.map_flatMap]; rfl
  have hrec : ∀ x ∈ picksOf rs, ∃ (i : Nat) (r : Rec), K.recs[i]? = some r ∧ x.1 ∈ fps r.post := by
    intro x hxm
    obtain ⟨_, _, c, hc, hxc⟩ := hx x hxm
    obtain ⟨i, r, hr, rfl⟩ := (mem_journal_posts hw).1 hc
    exact ⟨i, r, hr, hxc⟩
  let idx : Str × PostingInternal → Nat := fun x => if hm : x ∈ picksOf rs then (hrec x hm).choose else 0
  have hidx : ∀ x ∈ picksOf rs, ∃ r : Rec, K.recs[idx x]? = some r ∧ x.1 ∈ fps r.post := by
    intro x hm
    simp only [idx, hm, dite_true]
    exact (hrec x hm).choose_spec
  have hbear : ∀ x ∈ picksOf rs, ∀ (i : Nat) (r : Rec), K.recs[i]? = some r → (x.1 ∈ fps r.post ↔ idx x = i) := by
    intro x hm i r hr
    obtain ⟨s, hs, hxs⟩ := hidx x hm
    constructor
    · intro hxr; exact hw.unique _ _ _ _ hs hr ⟨_, hxs, hxr⟩
    · rintro rfl; rw [hs] at hr; rw [← Option.some.inj hr]; exact hxs
  have hhit : ∀ x ∈ picksOf rs, idx x ∈ K.fpHits x.2 := by
    intro x hm
    obtain ⟨r, hr, hxr⟩ := hidx x hm
    exact mem_fpHits.2 ⟨r, hr, x.1, hxr, (hx x hm).2.1⟩
  -- an input posting is known under its chosen fingerprint only
  have hknown : Good K (rs.map Resolution.trn) → ∀ x ∈ picksOf rs, ∀ c ∈ postingsOf K.journal, SharesFp c x.2 → x.1 ∈ fps c := by
    intro hg x hm c hc hs
    obtain ⟨j, r, hr, rfl⟩ := (mem_journal_posts hw).1 hc
    rw [hbear x hm j r hr]
    by_contra hij
    apply hg.noConflict
    obtain ⟨e, he, hxe⟩ := List.mem_flatMap.1 hm
    refine ⟨e.trn, List.mem_map_of_mem he, List.mem_map.2 ⟨x.2, List.mem_map_of_mem hxe, ?_⟩⟩
    have h1 := hhit x hm
    have h2 : j ∈ K.fpHits x.2 := mem_fpHits.2 ⟨r, hr, hs⟩
    unfold verdict
    match hl : K.fpHits x.2 with
    | [] => rw [hl] at h1; cases h1
    | [a] => rw [hl] at h1 h2; simp at h1 h2; exact absurd (h1.trans h2.symm) hij
    | _ :: _ :: _ => rfl
  -- from here on the postings are known under these fingerprints only
  have main : (∀ x ∈ picksOf rs, ∀ c ∈ postingsOf K.journal, SharesFp c x.2 → x.1 ∈ fps c) →
      (Good K (rs.map Resolution.trn) ↔ Resolves K.journal rs) ∧ (Resolves K.journal rs →
      (∀ t ∈ rs.map Resolution.trn, ¬ Undecided K t) ∧
      (K.after (rs.map Resolution.trn)).journal =
        K.journal.map fun T => { T with posts := T.posts.map (taken (picksOf rs)) }) := by
    intro hk
    have hvi : ∀ x ∈ picksOf rs, ∀ d, K.verdict d x.2 = .into (idx x) := by
      intro x hm d
      have hnd : (K.fpHits x.2).Nodup := List.nodup_range.filter _
      have h1 := hhit x hm
      have h2 : ∀ j ∈ K.fpHits x.2, j = idx x := by
        intro j hj
        obtain ⟨r, hr, hs⟩ := mem_fpHits.1 hj
        exact ((hbear x hm j r hr).1 (hk x hm _ ((mem_journal_posts hw).2 ⟨j, r, hr, rfl⟩) hs)).symm
      unfold verdict
      match hl : K.fpHits x.2 with
      | [] => rw [hl] at h1; cases h1
      | [a] => have := h2 a (by rw [hl]; simp); rw [this]
      | a :: b :: l =>
        have e1 := h2 a (by rw [hl]; simp)
        have e2 := h2 b (by rw [hl]; simp)
        rw [hl, e1, e2] at hnd
        simp at hnd
    have hsub : ∀ e ∈ rs, ∀ x ∈ e.picks, x ∈ picksOf rs := fun e he x hxe => List.mem_flatMap.2 ⟨e, he, hxe⟩
    have hdests : ∀ e ∈ rs, K.dests e.trn = e.picks.map idx := by
      intro e he
      unfold dests verdicts Resolution.trn
      simp only [List.map_map]
      rw [List.filterMap_map]
      have : ∀ l : List (Str × PostingInternal), (∀ x ∈ l, x ∈ picksOf rs) →
          l.filterMap (Verdict.dest? ∘ (K.verdict e.hdr.raw.date ∘ fun x => x.2)) = l.map idx := by
        intro l
        induction l with
        | nil => intro _; rfl
        | cons x l ih =>
          intro hl
          rw [List.filterMap_cons]
          simp only [Function.comp_apply, hvi x (hl x (by simp)), Verdict.dest?, List.map_cons]
          rw [← ih (fun y hy => hl y (by simp [hy]))]
      exact this e.picks (hsub e he)
    have hund : ∀ e ∈ rs, ¬ Undecided K e.trn := by
      rintro e he (h0 | ⟨v, hv, ha⟩)
      · exact hne e he (by simpa [Resolution.trn] using h0)
      · obtain ⟨q, hq, rfl⟩ := List.mem_map.1 hv
        obtain ⟨x, hxe, rfl⟩ := List.mem_map.1 (show q ∈ e.picks.map (·.2) from hq)
        rw [hvi x (hsub e he x hxe)] at ha
        cases ha
    have hund' : ∀ t ∈ rs.map Resolution.trn, ¬ Undecided K t := by
      intro t ht
      obtain ⟨e, he, rfl⟩ := List.mem_map.1 ht
      exact hund e he
    have halld : K.allDests (rs.map Resolution.trn) = (picksOf rs).map idx := by
      unfold allDests picksOf
      rw [List.filter_eq_self.2 (fun t ht => by simpa using hund' t ht), List.flatMap_map, List.map_flatMap]
      exact List.flatMap_congr fun e he => hdests e he
    have hapart : ((picksOf rs).map (·.1)).Pairwise (fun f g => ∀ c ∈ postingsOf K.journal, ¬ (f ∈ fps c ∧ g ∈ fps c)) ↔
        ((picksOf rs).map idx).Nodup := by
      unfold List.Nodup
      rw [List.pairwise_map, List.pairwise_map]
      constructor
      · intro h
        refine h.imp_of_mem ?_
        intro x y hxm hym h hij
        obtain ⟨r, hr, hxr⟩ := hidx x hxm
        exact h r.post ((mem_journal_posts hw).2 ⟨_, r, hr, rfl⟩) ⟨hxr, (hbear y hym _ r hr).2 hij.symm⟩
      · intro h
        refine h.imp_of_mem ?_
        rintro x y hxm hym hij c hc ⟨h1, h2⟩
        obtain ⟨i, r, hr, rfl⟩ := (mem_journal_posts hw).1 hc
        exact hij (((hbear x hxm i r hr).1 h1).trans ((hbear y hym i r hr).1 h2).symm)
    have hfit : ((picksOf rs).map idx).Nodup → ∀ e ∈ rs,
        (Spec.FitTogether K.journal (e.picks.map (·.1)) ↔ ∀ i ∈ e.picks.map idx, ∀ j ∈ e.picks.map idx, K.trnOf i = K.trnOf j) := by
      intro hnd e he
      constructor
      · rintro ⟨T, hT, hon, _⟩
        rw [(journal_perm K).mem_iff] at hT
        unfold Spec.Book.entries at hT
        rw [List.mem_mapIdx] at hT
        obtain ⟨k, hk', rfl⟩ := hT
        have hin : ∀ x ∈ e.picks, K.trnOf (idx x) = some k := by
          intro x hxe
          obtain ⟨c, hc, hxc⟩ := hon x.1 (List.mem_map_of_mem hxe)
          obtain ⟨r, hr, rfl⟩ := List.mem_map.1 hc
          have hr2 := List.mem_filter.1 hr
          obtain ⟨i, hi⟩ := List.mem_iff_getElem?.1 hr2.1
          have := (hbear x (hsub e he x hxe) i r hi).1 hxc
          subst this
          unfold trnOf
          rw [hi]
          simpa using hr2.2
        intro i hi j hj
        obtain ⟨x, hxe, rfl⟩ := List.mem_map.1 hi
        obtain ⟨y, hye, rfl⟩ := List.mem_map.1 hj
        rw [hin x hxe, hin y hye]
      · intro hsame
        obtain ⟨x₀, hx₀⟩ := List.exists_mem_of_ne_nil _ (hne e he)
        obtain ⟨r₀, hr₀, _⟩ := hidx x₀ (hsub e he x₀ hx₀)
        have hk' := hw.owner r₀ (List.mem_of_getElem? hr₀)
        refine ⟨⟨K.hdrs[r₀.trn], (K.recs.filter (·.trn = r₀.trn)).map (·.post)⟩, ?_, ?_, ?_⟩
        · rw [(journal_perm K).mem_iff]
          unfold Spec.Book.entries
          rw [List.mem_mapIdx]
          exact ⟨r₀.trn, hk', rfl⟩
        · intro f hf
          obtain ⟨x, hxe, rfl⟩ := List.mem_map.1 hf
          obtain ⟨r, hr, hxr⟩ := hidx x (hsub e he x hxe)
          have := hsame (idx x) (List.mem_map_of_mem hxe) (idx x₀) (List.mem_map_of_mem hx₀)
          unfold trnOf at this
          rw [hr, hr₀] at this
          exact ⟨r.post, List.mem_map.2 ⟨r, List.mem_filter.2 ⟨List.mem_of_getElem? hr, by simpa using this⟩, rfl⟩, hxr⟩
        · have hsl : e.picks.Sublist (picksOf rs) := by
            have := sublist_flatMap (fun e : Resolution => e.picks) (List.singleton_sublist.2 he)
            simpa [picksOf] using this
          have := (hnd.sublist (hsl.map idx))
          unfold List.Nodup at this
          rw [List.pairwise_map] at this
          rw [List.pairwise_map]
          refine this.imp_of_mem ?_
          rintro x y hxe hye hij c hc ⟨h1, h2⟩
          obtain ⟨r, hr, rfl⟩ := List.mem_map.1 hc
          obtain ⟨i, hi⟩ := List.mem_iff_getElem?.1 (List.mem_filter.1 hr).1
          exact hij (((hbear x (hsub e he x hxe) i r hi).1 h1).trans ((hbear y (hsub e he y hye) i r hi).1 h2).symm)
    have hgood : Good K (rs.map Resolution.trn) ↔ Resolves K.journal rs := by
      constructor
      · intro hg
        have hnd := hg.noSame
        rw [halld] at hnd
        refine ⟨by have := hg.disjoint; rw [hall] at this; exact this, hk, fun e he => ?_, hapart.2 hnd⟩
        rw [hfit hnd e he, ← hdests e he]
        intro i hi j hj
        by_contra hij
        exact hg.noSplit ⟨e.trn, List.mem_map_of_mem he, hund e he, i, hi, j, hj, hij⟩
      · intro hres
        have hnd := hapart.1 hres.apart
        refine ⟨?_, by rw [hall]; exact hres.noShare, ?_, ?_, by rw [halld]; exact hnd⟩
        · rw [hall]
          intro q hq
          obtain ⟨x, hm, rfl⟩ := List.mem_map.1 hq
          exact (hx x hm).1
        · rintro ⟨t, ht, hv⟩
          obtain ⟨e, he, rfl⟩ := List.mem_map.1 ht
          obtain ⟨q, hq, hv⟩ := List.mem_map.1 hv
          obtain ⟨x, hxe, rfl⟩ := List.mem_map.1 (show q ∈ e.picks.map (·.2) from hq)
          rw [hvi x (hsub e he x hxe)] at hv
          cases hv
        · rintro ⟨t, ht, _, i, hi, j, hj, hij⟩
          obtain ⟨e, he, rfl⟩ := List.mem_map.1 ht
          rw [hdests e he] at hi hj
          exact hij ((hfit hnd e he).1 (hres.fit e he) i hi j hj)
    refine ⟨hgood, fun hres => ⟨hund', ?_⟩⟩
    have hg := hgood.2 hres
    apply journal_map_posts (taken (picksOf rs))
    · rw [after_hdrs]
      have : ∀ t ∈ rs.map Resolution.trn, ¬ K.Fresh t := by
        intro t ht
        obtain ⟨e, he, rfl⟩ := List.mem_map.1 ht
        rintro ⟨_, h0⟩
        rw [hdests e he] at h0
        exact hne e he (by simpa using h0)
      rw [List.filter_eq_nil_iff.2 (by simpa using this)]
      simp
    · rw [after_recs]
      have hnews : K.news K.hdrs.length (rs.map Resolution.trn) = [] := by
        rw [List.eq_nil_iff_forall_not_mem]
        intro r hr
        obtain ⟨t', ht', _, hpm, hnone, _⟩ := mem_news hr
        obtain ⟨e, he, rfl⟩ := List.mem_map.1 ht'
        obtain ⟨x, hxe, hxe'⟩ := List.mem_map.1 (show r.post ∈ e.picks.map (·.2) from hpm)
        rw [← hxe', hvi x (hsub e he x hxe)] at hnone
        cases hnone
      rw [hnews, List.append_nil]
      apply List.ext_getElem?
      intro i
      rw [List.getElem?_mapIdx, List.getElem?_map]
      cases hri : K.recs[i]? with
      | none => rfl
      | some r =>
        simp only [Option.map_some]
        congr 2
        have hh : K.hits (rs.map Resolution.trn) i = (((picksOf rs).filter (fun x => decide (x.1 ∈ fps r.post))).map (·.2)) := by
          have h1 : ∀ e ∈ rs, K.trnHits e.trn i = (e.picks.filter (fun x => decide (x.1 ∈ fps r.post))).map (·.2) := by
            intro e he
            have h2 : K.trnHits e.trn i = e.trn.posts.filter (fun p => K.verdict (dateOf e.trn) p = .into i) := by
              simp [trnHits, hund e he]
            rw [h2]
            show (e.picks.map (·.2)).filter _ = _
            rw [List.filter_map]
            congr 1
            apply List.filter_congr
            intro x hxe
            rw [Function.comp_apply, hvi x (hsub e he x hxe), decide_eq_decide, hbear x (hsub e he x hxe) i r hri, Verdict.into.injEq]
          unfold hits picksOf
          rw [List.flatMap_map, List.filter_flatMap, List.map_flatMap]
          exact List.flatMap_congr h1
        rw [hh]
        unfold taken
        apply foldl_absorb_filter
        have := hg.hits_le_one i
        rw [hh, List.length_map] at this
        exact this
  exact ⟨⟨fun hg => (main (hknown hg)).1.1 hg, fun hres => (main hres.known).1.2 hres⟩, fun hres => (main hres.known).2 hres⟩

/-! ### The journal is read by a new merger -/

/-- A new merger that has read the journal has the same journal. -/
theorem read_journal {J : Book} (hr : Reached J) (hp : Populated J) {f : TransactionPostings → TransactionPostings} (hf : Relabel f) :
    ¬ Book.empty.Bad (J.journal.map f) ∧ (∀ t ∈ J.journal.map f, ¬ Undecided Book.empty t) ∧
    Reached (Book.empty.after (J.journal.map f)) ∧ (Book.empty.after (J.journal.map f)).journal = J.journal.map f := by
  have hgood : Good Book.empty (J.journal.map f) := by
    have := journal_good hr.wf
    exact good_empty (by rw [hf.allPosts]; exact this.ok) (by rw [hf.allPosts]; exact this.disjoint)
  have hne : ∀ t ∈ J.journal.map f, t.posts ≠ [] := by
    intro t ht
    obtain ⟨T, hT, rfl⟩ := List.mem_map.1 ht
    rw [(hf T).2]
    exact journal_nonempty hp T hT
  have hnb := good_iff.1 hgood
  refine ⟨hnb, fun t ht hu => hne t ht (empty_undecided.1 hu), reached_empty.after hnb, ?_⟩
  rw [journal_eq, entries_empty_after hne]
  apply byDate_of_sorted
  rw [List.pairwise_map]
  exact (journal_sorted J).imp (fun {a b} h => by rw [(hf a).1, (hf b).1]; exact h)

theorem resolves_relabel {f : TransactionPostings → TransactionPostings} (hf : Relabel f) (js : List TransactionPostings)
    (rs : List Resolution) : Resolves (js.map f) rs ↔ Resolves js rs := by
  have hp : postingsOf (js.map f) = postingsOf js := hf.allPosts js
  have hfit : ∀ fs, Spec.FitTogether (js.map f) fs ↔ Spec.FitTogether js fs := by
    intro fs
    constructor
    · rintro ⟨T, hT, h⟩
      obtain ⟨T', hT', rfl⟩ := List.mem_map.1 hT
      rw [(hf T').2] at h
      exact ⟨T', hT', h⟩
    · rintro ⟨T, hT, h⟩
      exact ⟨f T, List.mem_map_of_mem hT, by rw [(hf T).2]; exact h⟩
  constructor
  · rintro ⟨h1, h2, h3, h4⟩
    rw [hp] at h2 h4
    exact ⟨h1, h2, fun e he => (hfit _).1 (h3 e he), h4⟩
  · rintro ⟨h1, h2, h3, h4⟩
    rw [← hp] at h2 h4
    exact ⟨h1, h2, fun e he => (hfit _).2 (h3 e he), h4⟩

/-- What the user can choose for a posting that was handed back is in the journal at the end. -/
theorem chosen_known {J : Book} (hr : Reached J) {gs : List (List TransactionPostings)} (hb : ¬ Refused J gs)
    {u : List TransactionPostings} (hu : HandedBackAll J gs u) {v : TransactionPostings} (hv : v ∈ u) {q q' : PostingInternal}
    (hq : q ∈ v.posts) {f : Str} (hc : Chosen f q q') :
    PostOK q' ∧ f ∈ fps q' ∧ ∃ c ∈ postingsOf (gs.foldl Book.after J).journal, f ∈ fps c := by
  induction gs generalizing J u with
  | nil => cases hu; cases hv
  | cons g gs ih =>
    have hb1 : ¬ J.Bad g := fun h => hb (.inl h)
    have hb2 : ¬ Refused (J.after g) gs := fun h => hb (.inr h)
    have hr' := hr.after hb1
    obtain ⟨u₁, u₂, rfl, h1, h2⟩ := hu
    rcases List.mem_append.1 hv with hv | hv
    · obtain ⟨t, ht, _, hby⟩ := forall₂_mem_right h1 hv
      obtain ⟨p, hp, ha⟩ := forall₂_mem_right hby hq
      have hpok : PostOK p := (good_iff.2 hb1).ok p (mem_allPosts.2 ⟨t, (List.mem_filter.1 ht).1, hp⟩)
      obtain ⟨names, hn1, hn2⟩ := ha.tags
      obtain ⟨hc1, hc2⟩ := hc
      obtain ⟨f', hf', he⟩ := ((hn2 _).1 hc1).resolve_left (fun h => hpok.1 _ h (List.prefix_append _ _))
      have he : f = f' := List.append_cancel_left he
      subst he
      obtain ⟨c, hcm, hfc⟩ := forall₂_mem_right hn1 hf'
      have hcr : ∃ r ∈ J.recs, r.post = c := by
        split at hcm
        · obtain ⟨r, hrm, rfl⟩ := List.mem_map.1 hcm
          exact ⟨r, (List.mem_filter.1 hrm).1, rfl⟩
        · cases hcm
      obtain ⟨r, hrm, rfl⟩ := hcr
      have hnc : ¬ IsCand f := hr.wf.noCand r hrm f (mem_fps.1 hfc).1
      have hfq : f ∈ fps q' := mem_fps.2 ⟨(hc2 f).2 (.inl rfl), (mem_fps.1 hfc).2⟩
      refine ⟨⟨fun x hx => ?_, fun h0 => by rw [h0] at hfq; cases hfq⟩, hfq, ?_⟩
      · rcases (hc2 x).1 hx with rfl | ⟨_, hx⟩
        · exact hnc
        · exact hx
      · obtain ⟨i, hi⟩ := List.mem_iff_getElem?.1 hrm
        obtain ⟨r', hr1, _, _, hgr⟩ := (ext_calls J (g :: gs)).recs i r hi
        have hK : Reached ((g :: gs).foldl Book.after J) := reached_calls hr hb
        exact ⟨r'.post, (mem_journal_posts hK.wf).2 ⟨i, r', hr1, rfl⟩, hgr.fingerprints f hfc⟩
    · exact ih hr' hb2 h2 hv

/-- Transactions that are all of one source. -/
theorem groups_one_source (h : HashOrder) (d s : Str) (ts : List TransactionPostings) (hs : ∀ t ∈ ts, sourceOf d t = s) :
    Sources.groups h d ts = if ts = [] then [] else [ts.map (sourced d)] := by
  obtain ⟨ks, h1, h2, h3⟩ := C23_groups h d ts
  rw [h3]
  by_cases hts : ts = []
  · rw [if_pos hts]
    subst hts
    cases ks with
    | nil => rfl
    | cons k ks => obtain ⟨t, ht, _⟩ := (h2 k).1 (by simp); simp at ht
  · rw [if_neg hts]
    obtain ⟨t, ht⟩ := List.exists_mem_of_ne_nil _ hts
    have hd : s ∈ ks := (h2 s).2 ⟨t, ht, hs t ht⟩
    have hk : ∀ k ∈ ks, k = s := by
      intro k hk
      obtain ⟨t, ht, rfl⟩ := (h2 k).1 hk
      exact hs t ht
    have hks : ks = [s] := by
      cases ks with
      | nil => cases hd
      | cons k ks =>
        have e := hk k (by simp)
        subst e
        cases ks with
        | nil => rfl
        | cons k' ks =>
          have e := hk k' (by simp)
          subst e
          rw [List.pairwise_cons] at h1
          have := h1.1 k' (by simp)
          have hself : compare k' k' = .eq := Std.ReflCmp.compare_self
          rw [hself] at this
          cases this
    rw [hks]
    simp only [List.map_cons, List.map_nil, ofSource]
    rw [List.filter_eq_self.2]
    intro t ht
    simpa using hs t ht

/-- What the journal that a successful run has written is read as. -/
theorem journal_comes_back {sys : Sys} {again : Bool} {fs : List FileSpec} {gs : List (List TransactionPostings)}
    (hgs : mergeInputs sys again fs = some gs)
    (hplain : ∀ g ∈ gs, ∀ t ∈ g, Plain (unsourced t).trn.comment ∧ ∀ q ∈ t.posts, Plain q.comment) :
    TransactionPostings.fromLedger (TransactionPostings.intoLedger HashOrder.sorted ((bookAfter gs).journal.map unsourced)) =
      some ((bookAfter gs).journal.map unsourced) := by
  apply C62_round_trip
  have hin := mergeInputs_tidy hgs
  obtain ⟨g1, g2⟩ := holds_of_calls (A := fun x => x.raw.comment = none ∧ x.raw.postings = [] ∧ Normal (unsourced ⟨x, []⟩).trn.comment)
    (B := fun q => q.raw.comment = none ∧ Plain q.comment) (J := Book.empty) (gs := gs)
    (fun d s hd hs => ⟨hd.1, plain_absorb hd.2 hs.2⟩)
    (fun g hg t ht => ⟨⟨(hin g hg t ht).1, (hin g hg t ht).2.1, (hplain g hg t ht).1.toNormal⟩,
      fun q hq => ⟨(hin g hg t ht).2.2 q hq, (hplain g hg t ht).2 q hq⟩⟩)
    (by intro x hx; cases hx) (by intro r hr; cases hr)
  intro t ht
  obtain ⟨T, hT, rfl⟩ := List.mem_map.1 ht
  obtain ⟨⟨k1, k2, k3⟩, k4⟩ := holds_of_journal (B := fun q => q.raw.comment = none ∧ Plain q.comment) g1 g2 T hT
  exact ⟨k1, k2, k3, fun q hq => (k4 q hq).1, fun q hq => (k4 q hq).2.toNormal⟩

/-- **C88, with files.** `merge` was run and has left the transactions `u` unmerged; the journal is in the file `p`. The user
puts transactions of `u` into the file `e`, with one candidate tag chosen for each posting. They are of one source (the unmerged
file says of which source they are). Then `merge` is run on the journal and this file, without disturbances.
* If the choices can be carried out, the run is successful, nothing is left unmerged, and the new journal is the old one except
  that the chosen postings have taken in the edited ones.
* If not, the run fails and writes nothing.
The comments of the inputs have to be in normal form (see C27), and the printed journal must be parsed as what was printed. -/
theorem C88_commands (sys : Sys) (ho ho' : Nat → HashOrder) (args : MergeCmd.Args) (p : Str) (w : World)
    (gs : List (List TransactionPostings)) (hf : ∀ n, sys.fault n = none) (hp : args.output = .path p)
    (hrun : MergeCmd.run sys ho args World.start = (.ok (), w)) (hgs : mergeInputs sys false args.inputs = some gs)
    (hplain : ∀ g ∈ gs, ∀ t ∈ g, Plain (unsourced t).trn.comment ∧ ∀ q ∈ t.posts, Plain q.comment)
    (hparse : ∀ L, L = TransactionPostings.intoLedger HashOrder.sorted ((bookAfter gs).journal.map unsourced) →
      sys.parse (sys.render L) = some L) :
    ∃ h u, HandedBackAll Book.empty gs u ∧ w.log = wholeWrites sys (mergePlan sys h args u ((bookAfter gs).journal.map unsourced)) ∧
    ∀ (files : Nat → Option Bytes) (e : Str) (L : Ledger) (s : Str) (rs : List Resolution) (unmerged : Option FileSpec) (out : FileSpec),
      files (sys.file p) = contentsAfter sys.start w.log (sys.file p) →
      ledgerAt sys files false (.path e) = some L → TransactionPostings.fromLedger L = some (rs.map Resolution.trn) →
      (∀ r ∈ rs, sourceOf (sys.showPath e) r.trn = s) →
      (∀ r ∈ rs, ∃ v ∈ u, v.posts ≠ [] ∧ List.Forall₂ (fun q x => Chosen x.1 q x.2) v.posts r.picks) →
      ∃ res w', MergeCmd.run { sys with start := files } ho' ⟨[.path p, .path e], unmerged, out⟩ World.start = (res, w') ∧
        (Resolves (bookAfter gs).journal rs → res = .ok () ∧ w'.log = wholeWrite sys out (sys.render
          (TransactionPostings.intoLedger HashOrder.sorted ((bookAfter gs).journal.map fun T =>
            unsourced { T with posts := T.posts.map (taken (picksOf rs)) })))) ∧
        (¬ Resolves (bookAfter gs).journal rs → (∃ err, res = .error err) ∧ w'.log = []) := by
  have hparse := hparse _ rfl
  obtain ⟨gs', u, h, e1, hb, hu, _, hlog⟩ := (mergeCmd_sat sys ho args).ok hrun
  rw [hgs] at e1; cases e1
  refine ⟨h, u, hu, hlog, ?_⟩
  intro files e Le s rs unmerged out hfile hLe hrs hsrc hchosen
  have hJ : Reached (bookAfter gs) := reached_calls reached_empty hb
  have hpop : Populated (bookAfter gs) :=
    populated_of_calls reached_empty (by intro t ht; simp [Spec.Book.entries, Spec.Book.empty] at ht) hb
  have hback := journal_comes_back hgs hplain
  set js := (bookAfter gs).journal with hjs
  set L := TransactionPostings.intoLedger HashOrder.sorted (js.map unsourced) with hL
  set sys' : Sys := { sys with start := files } with hsys
  -- the journal is read
  have hcont : files (sys.file p) = some (encodeUtf8 (sys.render L)) := by
    rw [hfile, hlog]
    unfold mergePlan
    rw [wholeWrites, List.flatMap_append, contentsAfter_append]
    rw [hp, hL, intoLedger_order HashOrder.sorted h]
    show contentsAfter _ (wholeWrite sys (.path p) _ ++ []) _ = _
    rw [List.append_nil, contentsAfter_whole]
    simp [fileOf]
  have hread : ledgerAt sys' sys'.start false (.path p) = some L := by
    unfold ledgerAt
    show ((files (sys.file p)).bind decodeUtf8).bind sys.parse = some L
    rw [hcont, Option.bind_some, decode_encode, Option.bind_some, hparse]
  have hread' : ledgerAt sys' sys'.start false (.path e) = some Le := hLe
  set d := (FileSpec.path p).display sys' with hd
  set d' := (FileSpec.path e).display sys' with hd'
  have hd'' : d' = sys.showPath e := rfl
  set f : TransactionPostings → TransactionPostings := fun t => sourced d (unsourced t) with hfd
  have hrel : Relabel f := fun t => ⟨rfl, rfl⟩
  -- the edited transactions, with their sources noted
  set rs' : List Resolution := rs.map (fun r => ⟨(sourced d' r.trn).trn, r.picks⟩) with hrs'
  have htrn : (rs.map Resolution.trn).map (sourced d') = rs'.map Resolution.trn := by
    rw [hrs', List.map_map, List.map_map]; rfl
  have hpicks : picksOf rs' = picksOf rs := by
    rw [hrs']; unfold picksOf; rw [List.flatMap_map]
  have hres' : ∀ js : List TransactionPostings, Resolves js rs' ↔ Resolves js rs := by
    intro js
    constructor
    · rintro ⟨h1, h2, h3, h4⟩
      rw [hpicks] at h1 h2 h4
      exact ⟨h1, h2, fun r hr => h3 ⟨(sourced d' r.trn).trn, r.picks⟩ (List.mem_map.2 ⟨r, hr, rfl⟩), h4⟩
    · rintro ⟨h1, h2, h3, h4⟩
      rw [← hpicks] at h1 h2 h4
      refine ⟨h1, h2, fun r hr => ?_, h4⟩
      obtain ⟨r', hr', rfl⟩ := List.mem_map.1 hr
      exact h3 r' hr'
  have hgroups : mergeInputs sys' false [.path p, .path e] = some ((if js = [] then [] else [js.map f]) ++
      (if rs = [] then [] else [rs'.map Resolution.trn])) := by
    rw [mergeInputs, hread, Option.bind_some, hback, Option.bind_some, mergeInputs]
    show Option.map _ ((ledgerAt sys' sys'.start false (.path e)).bind _) = _
    rw [hread', Option.bind_some, hrs, Option.bind_some, groups_unsourced,
      groups_one_source _ _ s _ (by
        intro t ht
        obtain ⟨r, hr, rfl⟩ := List.mem_map.1 ht
        rw [← hd', hd'']; exact hsrc r hr), htrn]
    simp [mergeInputs]
    rfl
  obtain ⟨a1, a2, a3, a4⟩ := read_journal hJ hpop hrel
  rw [← hjs] at a1 a2 a3 a4
  set K := Book.empty.after (js.map f) with hK
  -- what is known of the edited postings
  have hne : ∀ r ∈ rs', r.picks ≠ [] := by
    intro r hr
    obtain ⟨r', hr', rfl⟩ := List.mem_map.1 hr
    obtain ⟨v, _, hv, hfa⟩ := hchosen r' hr'
    intro h0
    simp only at h0
    rw [h0] at hfa
    exact hv (List.forall₂_nil_right_iff.1 hfa)
  have hx : ∀ x ∈ picksOf rs', PostOK x.2 ∧ x.1 ∈ fps x.2 ∧ ∃ c ∈ postingsOf K.journal, x.1 ∈ fps c := by
    intro x hxm
    rw [hpicks] at hxm
    obtain ⟨r, hr, hxr⟩ := List.mem_flatMap.1 hxm
    obtain ⟨v, hv, _, hfa⟩ := hchosen r hr
    obtain ⟨q, hq, hc⟩ := forall₂_mem_right hfa hxr
    rw [a4]
    have : postingsOf (js.map f) = postingsOf js := hrel.allPosts js
    rw [this]
    exact chosen_known reached_empty hb hu hv hq hc
  obtain ⟨c1, c2⟩ := picks_call a3.wf hne hx
  rw [a4, resolves_relabel hrel, hres'] at c1 c2
  -- the calls of the second run, from the new book
  set calls := (if js = [] then [] else [js.map f]) ++ (if rs = [] then [] else [rs'.map Resolution.trn]) with hcallsd
  have hKe : js = [] → K = Book.empty := by
    intro h0; rw [hK, h0]; rfl
  have hrefused : Refused Book.empty calls ↔ ¬ Resolves js rs := by
    rw [← c1, good_iff, not_not]
    have hlast : ∀ J : Book, Refused J (if rs = [] then [] else [rs'.map Resolution.trn]) ↔ J.Bad (rs'.map Resolution.trn) := by
      intro J
      by_cases h0 : rs = []
      · rw [if_pos h0]
        have : rs' = [] := by rw [hrs', h0]; rfl
        rw [this]
        refine ⟨fun h => h.elim, fun h => ?_⟩
        exact absurd h (good_iff.1 ⟨by simp [allPosts], by simp [allPosts], by simp [Conflicting], by simp [Split], by simp [allDests]⟩)
      · rw [if_neg h0]
        exact ⟨fun h => h.elim id False.elim, Or.inl⟩
    rw [hcallsd]
    by_cases h0 : js = []
    · rw [if_pos h0, List.nil_append, hlast, hKe h0]
    · rw [if_neg h0, List.singleton_append]
      show Book.empty.Bad _ ∨ Refused (Book.empty.after (js.map f)) _ ↔ _
      rw [hlast]
      exact ⟨fun h => h.resolve_left a1, Or.inr⟩
  have hleft : Resolves js rs → leftOver Book.empty calls = [] ∧ (bookAfter calls).journal =
      (js.map f).map fun T => { T with posts := T.posts.map (taken (picksOf rs)) } := by
    intro hres
    obtain ⟨d1, d2⟩ := c2 hres
    rw [hpicks] at d2
    have hlast : ∀ J : Book, J = K → leftOver J (if rs = [] then [] else [rs'.map Resolution.trn]) = [] ∧
        ((if rs = [] then [] else [rs'.map Resolution.trn]).foldl Book.after J).journal =
          (js.map f).map fun T => { T with posts := T.posts.map (taken (picksOf rs)) } := by
      rintro J rfl
      by_cases h0 : rs = []
      · rw [if_pos h0]
        refine ⟨rfl, ?_⟩
        have : rs' = [] := by rw [hrs', h0]; rfl
        rw [this] at d2
        exact d2
      · rw [if_neg h0]
        exact ⟨leftOver_cons_nil.2 ⟨d1, rfl⟩, d2⟩
    rw [hcallsd]
    unfold bookAfter
    by_cases h0 : js = []
    · rw [if_pos h0, List.nil_append]
      exact hlast _ (hKe h0).symm
    · rw [if_neg h0]
      obtain ⟨b1, b2⟩ := hlast K rfl
      exact ⟨leftOver_cons_nil.2 ⟨a2, b1⟩, b2⟩
  rcases hr2 : MergeCmd.run sys' ho' ⟨[.path p, .path e], unmerged, out⟩ World.start with ⟨res, w'⟩
  refine ⟨res, w', rfl, fun hres => ?_, fun hres => ?_⟩
  · obtain ⟨l1, l2⟩ := hleft hres
    have hok := C25_succeeds_otherwise sys' ho' ⟨[.path p, .path e], unmerged, out⟩ calls hf hgroups (fun hx => hrefused.1 hx hres) (.inl l1)
    rw [hr2] at hok
    simp only at hok
    subst hok
    refine ⟨rfl, ?_⟩
    obtain ⟨gs'', u', h', g1, _, g3, _, g5⟩ := (mergeCmd_sat sys' ho' _).ok hr2
    have g1 : mergeInputs sys' false [.path p, .path e] = some gs'' := g1
    rw [hgroups] at g1; cases g1
    have hu' : u' = [] := by
      have := handedBackAll_nil g3
      rw [l1] at this
      exact List.forall₂_nil_left_iff.1 this
    have hmap : ((js.map f).map fun T : TransactionPostings => { T with posts := T.posts.map (taken (picksOf rs)) }).map unsourced =
        js.map fun T => unsourced { T with posts := T.posts.map (taken (picksOf rs)) } := by
      rw [List.map_map, List.map_map]
      apply List.map_congr_left
      intro T _
      have := unsourced_sourced d T
      show unsourced { sourced d (unsourced T) with posts := _ } = _
      have e3 : (unsourced (sourced d (unsourced T))).trn = (unsourced T).trn := by rw [this]
      unfold unsourced at e3 ⊢
      simp only at e3 ⊢
      rw [e3]
      rfl
    rw [g5, hu', l2, hmap, intoLedger_order HashOrder.sorted h']
    unfold mergePlan
    cases unmerged <;> simp [wholeWrites] <;> rfl
  · obtain ⟨k1, k2, _⟩ := C25_fails_before_writing sys' ho' _ res w' hr2 (.inr ⟨calls, hgroups, .inl (hrefused.2 hres)⟩)
    exact ⟨k1, k2⟩

/-! ### An example: the ticket of `Props/ByHand`, with files -/

open Ex

/-- The two rides. -/
def rideTrns : List TransactionPostings :=
  [trn 3 "bus" [post "expenses:bus" 150 ["fp-t1"], post "assets:a" (-150) ["fp-s1"]],
   trn 3 "bus back" [post "expenses:bus" 150 ["fp-t2"], post "assets:a" (-150) ["fp-s2"]]]

/-- The rides are in the file `a`, the ticket is in the file `b`. -/
noncomputable def rideSystem : Sys :=
  Ex.exactSystem (TransactionPostings.intoLedger HashOrder.sorted rideTrns) (TransactionPostings.intoLedger HashOrder.sorted ticket)

/-- Everything in the transaction is in normal form and says nothing about sources. -/
def Simple (t : TransactionPostings) : Prop :=
  t.trn.raw.comment = none ∧ t.trn.raw.postings = [] ∧ OnlyTags t.trn.comment ∧ ∀ q ∈ t.posts, q.raw.comment = none ∧ OnlyTags q.comment
instance (t) : Decidable (Simple t) := by unfold Simple; infer_instance

theorem Simple.tidy {t : TransactionPostings} (h : Simple t) : Tidy t :=
  ⟨h.1, h.2.1, h.2.2.1.plain.toNormal, fun q hq => (h.2.2.2 q hq).1, fun q hq => (h.2.2.2 q hq).2.plain.toNormal⟩

theorem Simple.source {t : TransactionPostings} (h : Simple t) (d : Str) : sourceOf d t = d := by
  have hv : t.trn.comment.valueTags = ∅ := Std.ExtTreeMap.toList_eq_nil_iff.1 h.2.2.1.2.1
  unfold sourceOf
  rw [hv]
  simp

theorem unsourced_sourced_simple {t : TransactionPostings} (h : Simple t) (d : Str) : unsourced (sourced d t) = t := by
  have hv : t.trn.comment.valueTags = ∅ := Std.ExtTreeMap.toList_eq_nil_iff.1 h.2.2.1.2.1
  have e : ((∅ : StrMap).insert srcKey d).erase srcKey = ∅ := by
    apply Std.ExtTreeMap.ext_getElem?
    intro k
    simp only [Std.ExtTreeMap.getElem?_erase, Std.ExtTreeMap.getElem?_insert]
    split <;> simp_all
  obtain ⟨⟨raw, tags, lines, vals⟩, posts⟩ := t
  simp only at hv
  subst hv
  show (⟨⟨raw, _⟩, posts⟩ : TransactionPostings) = _
  unfold sourced
  rw [h.source d]
  simp only [e]

set_option maxRecDepth 100000 in
theorem rides_simple : (∀ t ∈ rideTrns, Simple t) ∧ ∀ t ∈ ticket, Simple t := by decide +kernel

/-- The calls of the first run. -/
def rideCalls : List (List TransactionPostings) := [rideTrns.map (sourced "a".toList), ticket.map (sourced "b".toList)]

theorem ride_inputs : mergeInputs rideSystem false [Ex.file "a", Ex.file "b"] = some rideCalls := by
  have h1 := (exact_ledger (TransactionPostings.intoLedger HashOrder.sorted rideTrns) (TransactionPostings.intoLedger HashOrder.sorted ticket))
  simp only [mergeInputs]
  unfold rideSystem
  rw [(h1 _).1, Option.bind_some, C62_round_trip _ _ (fun t ht => (rides_simple.1 t ht).tidy), Option.bind_some,
    (h1 _).2, Option.bind_some, C62_round_trip _ _ (fun t ht => (rides_simple.2 t ht).tidy), Option.bind_some,
    groups_one_source _ _ ((Ex.file "a").display (Ex.exactSystem _ _)) _ (fun t ht => (rides_simple.1 t ht).source _),
    groups_one_source _ _ ((Ex.file "b").display (Ex.exactSystem _ _)) _ (fun t ht => (rides_simple.2 t ht).source _)]
  rfl

set_option maxRecDepth 100000 in
theorem ride_refused : ¬ Refused Book.empty rideCalls :=
  (not_refused_of_count (n := 1) (by unfold rideCalls; decide +kernel)).1

/-- What can be chosen for a posting that could be one of two others. -/
theorem chosen_of_annotated {c c' p q q' : PostingInternal} {f f' : Str} (ha : Annotated [c, c'] p q) (h1 : fps c = [f']) (h2 : fps c' = [f])
    (hp : ∀ x ∈ tagsOf p, ¬ IsCand x) (hq' : ∀ x, x ∈ tagsOf q' ↔ x = f ∨ x ∈ tagsOf p) : Chosen f q q' := by
  obtain ⟨names, hn, ht⟩ := ha.tags
  cases hn with
  | cons e1 hn =>
    cases hn with
    | cons e2 hn =>
      cases hn
      rw [h1, List.mem_singleton] at e1
      rw [h2, List.mem_singleton] at e2
      subst e1; subst e2
      refine ⟨(ht _).2 (.inr ⟨_, by simp, rfl⟩), fun x => ?_⟩
      rw [hq', ht]
      constructor
      · rintro (rfl | h)
        · exact .inl rfl
        · exact .inr ⟨.inl h, hp x h⟩
      · rintro (rfl | ⟨h | ⟨g, _, rfl⟩, hc⟩)
        · exact .inl rfl
        · exact .inr h
        · exact absurd (List.prefix_append _ _) hc

/-- What the user has chosen. -/
def ticketResolution : Resolution := ⟨(trn 3 "ticket" []).trn, ticketPicks⟩

theorem post_tags_cons {a a' : String} {n n' : Int} {f o : String} (x : Str) :
    x ∈ tagsOf (post a n [o, f]) ↔ x = f.toList ∨ x ∈ tagsOf (post a' n' [o]) := by
  rw [mem_post_tags, mem_post_tags]
  simp only [List.mem_cons, List.not_mem_nil, or_false, exists_eq_or_imp, exists_eq_left]
  tauto

set_option maxRecDepth 100000 in
/-- The ticket is among the transactions that are left, and these are choices for it. -/
theorem ticket_left {u : List TransactionPostings} (hu : HandedBackAll Book.empty rideCalls u) :
    ∃ v ∈ u, v.posts ≠ [] ∧ List.Forall₂ (fun q x => Chosen x.1 q x.2) v.posts ticketResolution.picks := by
  obtain ⟨u₁, u₂, rfl, _, u₃, u₄, rfl, h2, _⟩ := hu
  have e1 : (ticket.map (sourced "b".toList)).filter (fun t => decide (Undecided (Book.empty.after (rideTrns.map (sourced "a".toList))) t)) =
      ticket.map (sourced "b".toList) := by decide +kernel
  rw [e1] at h2
  have h2 : List.Forall₂ (HandedBackBy (Book.empty.after (rideTrns.map (sourced "a".toList))))
    [sourced "b".toList (trn 3 "ticket" [post "expenses:bus" 150 ["fp-c1"], post "assets:a" (-150) ["fp-c2"]])] u₃ := h2
  cases h2 with
  | cons hb hn =>
    rename_i v _
    refine ⟨v, by simp, ?_⟩
    obtain ⟨_, hb⟩ := hb
    have e2 : ∀ p : PostingInternal, p = post "expenses:bus" 150 ["fp-c1"] ∨ p = post "assets:a" (-150) ["fp-c2"] →
        (if (Book.empty.after (rideTrns.map (sourced "a".toList))).Unclear ⟨2020, 1, 3⟩ p then
          (Book.empty.after (rideTrns.map (sourced "a".toList))).softMatches ⟨2020, 1, 3⟩ p else []) =
        if p = post "expenses:bus" 150 ["fp-c1"] then [post "expenses:bus" 150 ["fp-t1"], post "expenses:bus" 150 ["fp-t2"]]
        else [post "assets:a" (-150) ["fp-s1"], post "assets:a" (-150) ["fp-s2"]] := by
      rintro p (rfl | rfl) <;> decide +kernel
    have hb : List.Forall₂ (fun p q => Annotated (if (Book.empty.after (rideTrns.map (sourced "a".toList))).Unclear ⟨2020, 1, 3⟩ p then
          (Book.empty.after (rideTrns.map (sourced "a".toList))).softMatches ⟨2020, 1, 3⟩ p else []) p q)
        [post "expenses:bus" 150 ["fp-c1"], post "assets:a" (-150) ["fp-c2"]] v.posts := hb
    generalize v.posts = ps at hb
    cases hb with
    | cons a1 hb =>
      cases hb with
      | cons a2 hb =>
        cases hb
        rw [e2 _ (.inl rfl), if_pos rfl] at a1
        rw [e2 _ (.inr rfl), if_neg (by decide +kernel)] at a2
        refine ⟨by simp, .cons ?_ (.cons ?_ .nil)⟩
        · exact chosen_of_annotated (f' := "fp-t1".toList) a1 (by decide +kernel) (by decide +kernel)
            (fun x hx => by obtain ⟨s, hs, rfl⟩ := mem_post_tags.1 hx; rw [List.mem_singleton.1 hs]; decide) (post_tags_cons)
        · exact chosen_of_annotated (f' := "fp-s1".toList) a2 (by decide +kernel) (by decide +kernel)
            (fun x hx => by obtain ⟨s, hs, rfl⟩ := mem_post_tags.1 hx; rw [List.mem_singleton.1 hs]; decide) (post_tags_cons)

set_option maxRecDepth 100000 in
theorem ride_journal : (bookAfter rideCalls).journal = rideTrns.map (sourced "a".toList) := by
  unfold Book.journal
  rw [mergeSort_eval dateOf]
  decide +kernel

set_option maxRecDepth 100000 in
theorem ticket_resolves : Resolves (bookAfter rideCalls).journal [ticketResolution] := by
  rw [ride_journal]
  refine ⟨?_, ?_, ?_, ?_⟩ <;> decide +kernel

/-- The files after the first run, with the edited ticket in the file `e`. -/
noncomputable def withEdited (w : World) (n : Nat) : Option Bytes :=
  if n = 101 then some (encodeUtf8 (rideSystem.render (TransactionPostings.intoLedger HashOrder.sorted [ticketResolution.trn])))
  else contentsAfter rideSystem.start w.log n

set_option maxRecDepth 100000 in
/-- The hypotheses of `C88_commands` are met: the ticket is left unmerged by the first run, resolved by the user, and merged by the second run
into the second ride. -/
example (ho ho' : Nat → HashOrder) : ∃ w w',
    MergeCmd.run rideSystem ho ⟨[Ex.file "a", Ex.file "b"], some (Ex.file "u"), Ex.file "o"⟩ World.start = (.ok (), w) ∧
    MergeCmd.run { rideSystem with start := withEdited w } ho' ⟨[Ex.file "o", Ex.file "e"], none, Ex.file "o"⟩ World.start = (.ok (), w') ∧
    w'.log = wholeWrite rideSystem (Ex.file "o") (rideSystem.render (TransactionPostings.intoLedger HashOrder.sorted
      [trn 3 "bus" [post "expenses:bus" 150 ["fp-t1"], post "assets:a" (-150) ["fp-s1"]],
       trn 3 "bus back" [post "expenses:bus" 150 ["fp-c1", "fp-t2"], post "assets:a" (-150) ["fp-c2", "fp-s2"]]])) := by
  have hok := C25_succeeds_otherwise rideSystem ho ⟨[Ex.file "a", Ex.file "b"], some (Ex.file "u"), Ex.file "o"⟩ rideCalls (fun _ => rfl)
    ride_inputs ride_refused (.inr (by simp))
  rcases hr : MergeCmd.run rideSystem ho ⟨[Ex.file "a", Ex.file "b"], some (Ex.file "u"), Ex.file "o"⟩ World.start with ⟨r, w⟩
  rw [hr] at hok
  simp only at hok
  subst hok
  obtain ⟨h, u, hu, _, key⟩ := C88_commands rideSystem ho ho' _ "o".toList w rideCalls (fun _ => rfl) rfl hr ride_inputs
    (by
      intro g hg t ht
      have : ∃ d t', Simple t' ∧ t = sourced d t' := by
        unfold rideCalls at hg
        rcases List.mem_cons.1 hg with rfl | hg
        · obtain ⟨t', ht', rfl⟩ := List.mem_map.1 ht
          exact ⟨_, t', rides_simple.1 t' ht', rfl⟩
        · rw [List.mem_singleton.1 hg] at ht
          obtain ⟨t', ht', rfl⟩ := List.mem_map.1 ht
          exact ⟨_, t', rides_simple.2 t' ht', rfl⟩
      obtain ⟨d, t', hs, rfl⟩ := this
      rw [unsourced_sourced_simple hs]
      exact ⟨hs.2.2.1.plain, fun q hq => (hs.2.2.2 q hq).2.plain⟩)
    (fun L _ => Ex.exactSystem_comesBack _ _ L)
  have hsimple : Simple ticketResolution.trn := by decide +kernel
  obtain ⟨res, w', h1, h2, _⟩ := key (withEdited w) "e".toList
    (TransactionPostings.intoLedger HashOrder.sorted [ticketResolution.trn]) "e".toList [ticketResolution] none (Ex.file "o")
    (by unfold withEdited; rw [if_neg (by decide)])
    (by
      unfold ledgerAt
      show ((withEdited w 101).bind decodeUtf8).bind rideSystem.parse = _
      unfold withEdited
      rw [if_pos rfl, Option.bind_some, decode_encode, Option.bind_some]
      exact Ex.exactSystem_comesBack _ _ _)
    (C62_round_trip _ _ (fun t ht => by rw [List.mem_singleton.1 ht]; exact hsimple.tidy))
    (fun r hr => by rw [List.mem_singleton.1 hr]; exact hsimple.source _)
    (fun r hr => by rw [List.mem_singleton.1 hr]; exact ticket_left hu)
  obtain ⟨rfl, h4⟩ := h2 ticket_resolves
  refine ⟨w, w', rfl, h1, h4.trans ?_⟩
  congr 3
  rw [ride_journal]
  decide +kernel

end Verif
