import Verif.Proofs.Bisim

/-!
# Books that cannot be told apart stay that way
-/

namespace Verif
open Spec Spec.Book

/-- The records of a new transaction are the postings of the input transaction, filed under its date. -/
theorem news_fresh_dated {J : Book} (hw : J.WF) (ts : List TransactionPostings) (c : Nat) (hc : J.hdrs.length ≤ c) (k : Nat)
    (hk : c ≤ k) : ((J.news c ts).filter (·.trn = k)).map (fun r => (r.date, r.post)) =
      (((ts.filter (J.Fresh ·))[k - c]?).map (fun t => t.posts.map (fun p => (dateOf t, p)))).getD [] := by
  induction ts generalizing c with
  | nil => rfl
  | cons t ts ih =>
    unfold news
    rw [List.filter_append, List.map_append]
    by_cases hu : Undecided J t
    · have hf : ¬ J.Fresh t := fun h => h.1 hu
      rw [if_pos hu, if_neg hf, ih c hc hk, List.filter_cons_of_neg (by simpa using hf)]; rfl
    rw [if_neg hu]
    by_cases hd : J.dests t = []
    · have hf : J.Fresh t := ⟨hu, hd⟩
      rw [if_pos hf, List.filter_cons_of_pos (by simpa using hf)]
      have hall : t.posts.filter (fun p => (J.verdict (dateOf t) p).dest? = none) = t.posts := by
        rw [List.filter_eq_self]; intro p hp; simpa using dests_nil_iff.1 hd p hp
      rw [hall, home_fresh hd]
      by_cases hkc : k = c
      · subst hkc
        have h2 : ((J.news (k + 1) ts).filter (·.trn = k)) = [] := by
          rw [List.filter_eq_nil_iff]
          intro r hr
          obtain ⟨t', _, _, _, _, _, c', hc', hh⟩ := mem_news hr
          by_cases hd' : J.dests t' = []
          · rw [home_fresh hd'] at hh; simp; omega
          · have := home_lt hw hd' c'; simp; omega
        rw [h2]
        simp [List.filter_map, Function.comp_def]
      · have h1 : ((t.posts.map (fun p => (⟨c, dateOf t, p⟩ : Rec))).filter (·.trn = k)) = [] := by
          rw [List.filter_eq_nil_iff]
          intro r hr
          obtain ⟨p, _, rfl⟩ := List.mem_map.1 hr
          simp; omega
        rw [h1, ih (c + 1) (by omega) (by omega)]
        have : k - c = (k - (c + 1)) + 1 := by omega
        rw [this, List.getElem?_cons_succ]; rfl
    · have hf : ¬ J.Fresh t := fun h => hd h.2
      rw [if_neg hf, List.filter_cons_of_neg (by simpa using hf), ih c hc hk]
      have h1 : (((t.posts.filter (fun p => (J.verdict (dateOf t) p).dest? = none)).map
          (fun p => (⟨J.home c t, dateOf t, p⟩ : Rec))).filter (·.trn = k)) = [] := by
        rw [List.filter_eq_nil_iff]
        intro r hr
        obtain ⟨p, _, rfl⟩ := List.mem_map.1 hr
        have := home_lt hw hd c
        simp; omega
      rw [h1]; rfl

open Classical in
/-- The postings that a merge call adds to the transaction with the postings `g`. -/
noncomputable def Spec.Book.added (J : Book) (ts : List TransactionPostings) (g : List (Date × PostingInternal)) :
    List (Date × PostingInternal) :=
  ts.flatMap fun t =>
    if ¬ Undecided J t ∧ ∃ p ∈ t.posts, ∃ x ∈ g.map (·.2), J.target (dateOf t) p = some x then
      (t.posts.filter (fun p => J.target (dateOf t) p = none)).map (dateOf t, ·)
    else []

/-- The transaction with the postings `g` after a merge call. -/
noncomputable def Spec.Book.grown (J : Book) (ts : List TransactionPostings) (g : List (Date × PostingInternal)) :
    List (Date × PostingInternal) :=
  g.map (fun x => (x.1, (J.into ts x.2).foldl absorb x.2)) ++ J.added ts g

/-- The transaction `t` as a new transaction of the book. -/
def asGroup (t : TransactionPostings) : TransactionInternal × List (Date × PostingInternal) :=
  (t.trn, t.posts.map (fun p => (dateOf t, p)))

theorem home_iff {J : Book} (hw : J.WF) {t : TransactionPostings} (hs : ¬ SplitTrn J t) (hu : ¬ Undecided J t) {c k : Nat}
    (hc : J.hdrs.length ≤ c) (hk : k < J.hdrs.length) : J.home c t = k ↔
      ∃ p ∈ t.posts, ∃ x ∈ ((J.recs.filter (·.trn = k)).map fun r => (r.date, r.post)).map (·.2), J.target (dateOf t) p = some x := by
  have hx : ∀ x, x ∈ ((J.recs.filter (·.trn = k)).map fun r => (r.date, r.post)).map (·.2) ↔ ∃ r ∈ J.recs, r.trn = k ∧ r.post = x := by
    intro x
    simp only [List.map_map, List.mem_map, List.mem_filter, decide_eq_true_eq, Function.comp_def, and_assoc]
  simp only [hx]
  by_cases hd : J.dests t = []
  · rw [home_fresh hd]
    constructor
    · intro h; omega
    · rintro ⟨p, hp, x, _, hv⟩
      obtain ⟨i, _, hv, _⟩ := target_eq_some.1 hv
      have : i ∈ J.dests t := mem_dests.2 ⟨p, hp, hv⟩
      rw [hd] at this; cases this
  · cases hl : J.dests t with
    | nil => exact absurd hl hd
    | cons i l =>
      have hi : i ∈ J.dests t := by rw [hl]; simp
      obtain ⟨p, hp, hv⟩ := mem_dests.1 hi
      have hr := List.getElem?_eq_getElem (verdict_into_lt hv)
      have hh : J.home c t = (J.recs[i]'(verdict_into_lt hv)).trn := by
        unfold Spec.Book.home
        rw [hl, List.head?_cons, Option.bind_some]
        unfold trnOf
        rw [hr]; rfl
      rw [hh]
      constructor
      · intro he
        exact ⟨p, hp, _, ⟨_, List.mem_of_getElem? hr, he, rfl⟩, target_eq_some.2 ⟨i, _, hv, hr, rfl⟩⟩
      · rintro ⟨q, hq, x, ⟨s, hs', hsk, rfl⟩, hvq⟩
        obtain ⟨j, s', hvj, hs'', he⟩ := target_eq_some.1 hvq
        obtain ⟨j', hj'⟩ := List.mem_iff_getElem?.1 hs'
        have := hw.post_inj hs'' hj' he
        subst this
        have hjd : j ∈ J.dests t := mem_dests.2 ⟨q, hq, hvj⟩
        by_contra hne
        apply hs
        refine ⟨hu, i, hi, j, hjd, ?_⟩
        unfold trnOf
        rw [hr, hj', Option.map_some, Option.map_some]
        intro he'
        apply hne
        rw [Option.some.inj he', hsk]

theorem news_added {J : Book} (hw : J.WF) (ts : List TransactionPostings) (hs : ∀ t ∈ ts, ¬ SplitTrn J t) (c : Nat)
    (hc : J.hdrs.length ≤ c) {k : Nat} (hk : k < J.hdrs.length) :
    ((J.news c ts).filter (·.trn = k)).map (fun r => (r.date, r.post)) =
      J.added ts ((J.recs.filter (·.trn = k)).map fun r => (r.date, r.post)) := by
  classical
  induction ts generalizing c with
  | nil => rfl
  | cons t ts ih =>
    unfold news Spec.Book.added
    rw [List.filter_append, List.map_append, List.flatMap_cons]
    congr 1
    · by_cases hu : Undecided J t
      · rw [if_pos hu, if_neg (by rintro ⟨h, _⟩; exact h hu)]; rfl
      · rw [if_neg hu]
        have hh := home_iff hw (hs t (by simp)) hu hc hk
        by_cases he : J.home c t = k
        · rw [if_pos ⟨hu, hh.1 he⟩]
          rw [List.filter_eq_self.2 (by intro r hr; obtain ⟨p, _, rfl⟩ := List.mem_map.1 hr; simpa using he)]
          rw [List.map_map]
          have hf : t.posts.filter (fun p => (J.verdict (dateOf t) p).dest? = none) =
              t.posts.filter (fun p => J.target (dateOf t) p = none) := by
            apply List.filter_congr
            intro p _
            rw [decide_eq_decide]
            exact target_eq_none.symm
          rw [hf]
          rfl
        · rw [if_neg (fun h => he (hh.2 h.2))]
          rw [List.filter_eq_nil_iff.2 (by intro r hr; obtain ⟨p, _, rfl⟩ := List.mem_map.1 hr; simpa using he)]
          rfl
    · have := ih (fun t ht => hs t (by simp [ht])) (if J.Fresh t then c + 1 else c) (by split <;> omega)
      exact this

/-- The transactions after a merge call: the old ones, grown, and then the fresh ones of the input. -/
theorem grp_after {J : Book} (hw : J.WF) (ts : List TransactionPostings) (hs : ∀ t ∈ ts, ¬ SplitTrn J t) :
    (J.after ts).grp = J.grp.map (fun g => (g.1, J.grown ts g.2)) ++ (ts.filter (J.Fresh ·)).map asGroup := by
  apply List.ext_getElem?
  intro k
  have hL : (J.after ts).grp[k]? = ((J.after ts).hdrs[k]?).map
      (fun hdr => (hdr, ((J.after ts).recs.filter (·.trn = k)).map fun r => (r.date, r.post))) := by
    unfold Spec.Book.grp; rw [List.getElem?_mapIdx]
  have hlen : (J.grp.map (fun g => (g.1, J.grown ts g.2))).length = J.hdrs.length := by simp [Spec.Book.grp]
  rw [hL, after_hdrs]
  by_cases hk : k < J.hdrs.length
  · rw [List.getElem?_append_left hk, List.getElem?_append_left (by omega)]
    rw [List.getElem?_map]
    have hG : J.grp[k]? = (J.hdrs[k]?).map (fun hdr => (hdr, (J.recs.filter (·.trn = k)).map fun r => (r.date, r.post))) := by
      unfold Spec.Book.grp; rw [List.getElem?_mapIdx]
    rw [hG, List.getElem?_eq_getElem hk]
    simp only [Option.map_some]
    congr 2
    rw [after_recs, List.filter_append, List.map_append]
    unfold Spec.Book.grown
    congr 1
    · rw [List.map_map]
      have : J.recs.mapIdx (fun i r => { r with post := (J.hits ts i).foldl absorb r.post }) =
          J.recs.map (fun r => { r with post := (J.into ts r.post).foldl absorb r.post }) := by
        apply List.ext_getElem?
        intro i
        rw [List.getElem?_mapIdx, List.getElem?_map]
        cases hi : J.recs[i]? with
        | none => rfl
        | some r => simp only [Option.map_some]; rw [hits_into hw ts hi]
      rw [this, List.filter_map, List.map_map]
      rfl
    · exact news_added hw ts hs _ (le_refl _) hk
  · rw [List.getElem?_append_right (by omega), List.getElem?_append_right (by omega), hlen, List.getElem?_map, List.getElem?_map]
    have h1 : (J.recs.mapIdx (fun i r => { r with post := (J.hits ts i).foldl absorb r.post })).filter (·.trn = k) = [] := by
      rw [List.filter_eq_nil_iff]
      intro r hr
      rw [List.mem_mapIdx] at hr
      obtain ⟨i, hi, rfl⟩ := hr
      have := hw.owner _ (List.getElem_mem hi)
      simp; omega
    rw [after_recs, List.filter_append, h1, List.nil_append, news_fresh_dated hw ts _ (le_refl _) _ (by omega)]
    cases hf : (ts.filter (J.Fresh ·))[k - J.hdrs.length]? with
    | none => rfl
    | some t => rfl

theorem fresh_iff {J : Book} {t : TransactionPostings} : J.Fresh t ↔ ¬ Undecided J t ∧ ∀ p ∈ t.posts, J.target (dateOf t) p = none := by
  unfold Spec.Book.Fresh
  rw [dests_nil_iff]
  simp only [target_eq_none]

theorem Same.fresh {J K : Book} (h : Same J K) (t : TransactionPostings) : J.Fresh t ↔ K.Fresh t := by
  rw [fresh_iff, fresh_iff, h.undecided]
  simp only [h.target]

theorem Same.grown {J K : Book} (h : Same J K) (ts : List TransactionPostings) (g : List (Date × PostingInternal)) :
    J.grown ts g = K.grown ts g := by
  unfold Spec.Book.grown Spec.Book.added
  simp only [h.into, h.undecided, h.target]
  congr!

theorem trnsError_none_iff' {J : Book} {ts : List TransactionPostings} (hg : Good J ts) : ∀ t ∈ ts, ¬ SplitTrn J t :=
  fun t ht hs => hg.noSplit ⟨t, ht, hs⟩

theorem Same.after {J K : Book} (h : Same J K) {ts : List TransactionPostings} (hJ : Good J ts) (hK : Good K ts)
    (hw : (J.after ts).WF) (hw' : (K.after ts).WF) : Same (J.after ts) (K.after ts) where
  wf := hw
  wf' := hw'
  grp := by
    intro d
    rw [grp_after h.wf ts (trnsError_none_iff' hJ), grp_after h.wf' ts (trnsError_none_iff' hK), List.filter_append, List.filter_append]
    congr 1
    · rw [List.filter_map, List.filter_map]
      have := h.grp d
      simp only [Function.comp_def]
      rw [this]
      apply List.map_congr_left
      intro g _
      rw [h.grown]
    · congr 1
      simp only [h.fresh]

/-- Indistinguishable books have the same journal. -/
theorem Same.journal {J K : Book} (h : Same J K) : J.journal = K.journal := by
  have key : ∀ J : Book, J.entries = J.grp.map (fun g => ⟨g.1, g.2.map (·.2)⟩) := by
    intro J
    unfold Spec.Book.entries Spec.Book.grp
    apply List.ext_getElem?
    intro k
    rw [List.getElem?_mapIdx, List.getElem?_map, List.getElem?_mapIdx, Option.map_map]
    congr 1
    funext hdr
    simp only [Function.comp_def, List.map_map]
  rw [journal_eq, journal_eq]
  unfold byDate
  apply eq_of_sorted_filter dateOf
  · exact sorted_mergeSort dateOf _
  · exact sorted_mergeSort dateOf _
  · intro d
    rw [filter_mergeSort, filter_mergeSort, key, key, List.filter_map, List.filter_map]
    congr 1
    exact h.grp d

/-- Every record is filed under the date of its transaction. -/
def Filed (J : Book) : Prop := ∀ r ∈ J.recs, ∀ hdr, J.hdrs[r.trn]? = some hdr → r.date = hdr.raw.date

theorem grp_filed {J : Book} (hf : Filed J) : J.grp = J.entries.map asGroup := by
  unfold Spec.Book.entries Spec.Book.grp
  apply List.ext_getElem?
  intro k
  rw [List.getElem?_mapIdx, List.getElem?_map, List.getElem?_mapIdx, Option.map_map]
  cases hk : J.hdrs[k]? with
  | none => rfl
  | some hdr =>
    simp only [Option.map_some, Function.comp_def, asGroup, List.map_map, Option.some.injEq, Prod.mk.injEq, true_and]
    apply List.map_congr_left
    intro r hr
    rw [List.mem_filter, decide_eq_true_iff] at hr
    rw [hf r hr.1 hdr (by rw [hr.2]; exact hk)]

theorem grp_empty_after {ts : List TransactionPostings} (hne : ∀ t ∈ ts, t.posts ≠ []) : (Book.empty.after ts).grp = ts.map asGroup := by
  rw [grp_after empty_wf]
  · have : ts.filter (Book.empty.Fresh ·) = ts := by
      rw [List.filter_eq_self]
      intro t ht
      have : Spec.Book.Fresh Book.empty t := ⟨fun hu => hne t ht (empty_undecided.1 hu), empty_dests t⟩
      simpa using this
    rw [this]; rfl
  · rintro t _ ⟨_, i, hi, _⟩
    rw [empty_dests] at hi; cases hi

/-- A book in which every record is filed under the date of its transaction cannot be told apart from the book that
results from reading its journal. -/
theorem same_reread {J : Book} (hw : J.WF) (hp : Populated J) (hf : Filed J) (hw' : (Book.empty.after J.journal).WF) :
    Same J (Book.empty.after J.journal) where
  wf := hw
  wf' := hw'
  grp := by
    intro d
    rw [grp_filed hf, grp_empty_after (journal_nonempty hp), List.filter_map, List.filter_map]
    congr 1
    have : ((fun g : TransactionInternal × List (Date × PostingInternal) => decide (g.1.raw.date = d)) ∘ asGroup) =
        (fun t => decide (dateOf t = d)) := by funext t; rfl
    rw [this, journal_eq]
    unfold byDate
    rw [filter_mergeSort dateOf]

theorem Same.bad {J K : Book} (h : Same J K) (ts : List TransactionPostings) : J.Bad ts ↔ K.Bad ts := by
  have h1 : J.Conflicting ts ↔ K.Conflicting ts := by
    unfold Conflicting verdicts
    simp only [List.mem_map, h.conflict]
  have h2 : J.Split ts ↔ K.Split ts := by
    have := fun t => h.splitTrn t
    unfold SplitTrn at this
    unfold Split
    simp only [this]
  unfold Bad
  rw [h1, h2, h.sameDest]

/-- One merge call on indistinguishable books. -/
theorem Same.step {J K : Book} (h : Same J K) (ts : List TransactionPostings) (hw : (J.step ts).WF) (hw' : (K.step ts).WF) :
    Same (J.step ts) (K.step ts) := by
  have hb := h.bad ts
  by_cases hJ : J.Bad ts
  · have hK := hb.1 hJ
    unfold Book.step
    rw [if_pos hJ, if_pos hK]; exact h
  · have hK := fun x => hJ (hb.2 x)
    have e1 : J.step ts = J.after ts := by unfold Book.step; exact if_neg hJ
    have e2 : K.step ts = K.after ts := by unfold Book.step; exact if_neg hK
    rw [e1] at hw ⊢; rw [e2] at hw' ⊢
    exact h.after (good_iff.2 hJ) (good_iff.2 hK) hw hw'

end Verif
