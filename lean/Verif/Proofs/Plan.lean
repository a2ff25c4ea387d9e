import Verif.Proofs.Refine

/-!
# Planning: `make_pending` and `check_pending` computed on the book
-/

namespace Verif
open Spec Spec.Book

/-- An input posting that is accepted: no candidate tag, at least one fingerprint. -/
def PostOK (p : PostingInternal) : Prop := (∀ t ∈ tagsOf p, ¬ IsCand t) ∧ fps p ≠ []

theorem tag_mem_insert {s : TagSet} {f g : Str} : g ∈ s.insert f ↔ g = f ∨ g ∈ s := by
  rw [Std.ExtTreeSet.mem_insert, Std.LawfulEqCmp.compare_eq_iff_eq, eq_comm]

open Classical in
theorem fromPostingInternal_eq (p : PostingInternal) (d : Date) :
    Input.fromPostingInternal p d =
      if ∃ t ∈ tagsOf p, IsCand t then .error .candidateTag
      else if fps p = [] then .error .noFingerprint
      else .ok ⟨d, p⟩ := by
  unfold Input.fromPostingInternal
  have h1 : p.comment.tags.toList.any isCandidate = true ↔ ∃ t ∈ tagsOf p, IsCand t := by
    simp [List.any_eq_true, isCandidate_eq]
  have h2 : p.comment.tags.toList.any isFingerprint = false ↔ fps p = [] := by
    unfold fps
    simp [List.any_eq_false, isFingerprint_eq, List.filter_eq_nil_iff]
  by_cases c1 : ∃ t ∈ tagsOf p, IsCand t
  · rw [if_pos c1, if_pos (h1.2 c1)]
  · rw [if_neg c1, if_neg (fun h => c1 (h1.1 h))]
    by_cases c2 : fps p = []
    · rw [if_pos c2, if_pos]; rw [h2.2 c2]; rfl
    · rw [if_neg c2, if_neg]
      intro h; apply c2; apply h2.1; simpa using h

theorem checkSeen_eq (fs : List Str) (hn : fs.Nodup) (seen : TagSet) :
    (Merger.checkSeen fs seen = .error .duplicateFingerprint ∧ ∃ f ∈ fs, f ∈ seen) ∨
    (∃ seen', Merger.checkSeen fs seen = .ok seen' ∧ (∀ f ∈ fs, f ∉ seen) ∧ ∀ f, f ∈ seen' ↔ f ∈ seen ∨ f ∈ fs) := by
  induction fs generalizing seen with
  | nil => right; exact ⟨seen, rfl, by simp, by simp⟩
  | cons f fs ih =>
    unfold Merger.checkSeen
    by_cases hf : f ∈ seen
    · left
      have : seen.contains f = true := Std.ExtTreeSet.contains_iff_mem.2 hf
      exact ⟨by rw [if_pos this], f, by simp, hf⟩
    · have hc : ¬ seen.contains f = true := fun h => hf (Std.ExtTreeSet.contains_iff_mem.1 h)
      rw [if_neg hc]
      have hn' := List.nodup_cons.1 hn
      have hm : ∀ g, g ∈ seen.insert f ↔ g = f ∨ g ∈ seen := fun g => tag_mem_insert
      rcases ih hn'.2 (seen.insert f) with ⟨h1, g, hg, hgs⟩ | ⟨seen', h1, h2, h3⟩
      · left
        refine ⟨h1, g, by simp [hg], ?_⟩
        rcases (hm g).1 hgs with rfl | h
        · exact absurd hg hn'.1
        · exact h
      · right
        refine ⟨seen', h1, ?_, ?_⟩
        · intro g hg
          rcases List.mem_cons.1 hg with rfl | hg
          · exact hf
          · intro hgs; exact h2 g hg ((hm g).2 (Or.inr hgs))
        · intro g; rw [h3, hm]; simp; grind

/-- The action for a verdict. -/
def actionOf : Verdict → Option PostingMergeAction
  | .new => some .new
  | .into i => some (.mergeIntoExisting i)
  | .ambiguous _ => none
  | .conflict => none

/-- Pushing a list of postings with actions. -/
def pushAll (a : MergeActions) (xs : List (Input × Option PostingMergeAction)) : MergeActions :=
  xs.foldl (fun a x => MergeActionsAccumulator.pushInner x.1 x.2 a) a

theorem pushAll_leave (ps : List Input) (xs) :
    pushAll (.leaveUnmerged ps) xs = .leaveUnmerged (ps ++ xs.map (·.1)) := by
  unfold pushAll
  induction xs generalizing ps with
  | nil => simp
  | cons x xs ih =>
    rw [List.foldl_cons]
    have : MergeActionsAccumulator.pushInner x.1 x.2 (.leaveUnmerged ps) = .leaveUnmerged (ps ++ [x.1]) := rfl
    rw [this, ih]; simp

theorem pushAll_actions (as : List (Input × PostingMergeAction)) (xs : List (Input × Option PostingMergeAction)) :
    pushAll (.actions as) xs =
      if xs.any (fun x => x.2.isNone) then .leaveUnmerged (as.map (·.1) ++ xs.map (·.1))
      else .actions (as ++ xs.filterMap (fun x => x.2.map (fun a => (x.1, a)))) := by
  induction xs generalizing as with
  | nil => simp [pushAll]
  | cons x xs ih =>
    rcases x with ⟨i, _ | a⟩
    · have : pushAll (.actions as) ((i, none) :: xs) = pushAll (.leaveUnmerged (as.map (·.1) ++ [i])) xs := rfl
      rw [this, pushAll_leave]; simp
    · have : pushAll (.actions as) ((i, some a) :: xs) = pushAll (.actions (as ++ [(i, a)])) xs := rfl
      rw [this, ih]
      cases hb : xs.any (fun x => x.2.isNone) <;> simp [hb]

theorem determine_conflict {m : Merger} {J : Book} (hR : R m J) (h : HashOrder) (site : Site) {d : Date}
    {p : PostingInternal} (hv : J.verdict d p = .conflict) :
    m.determinePostingAction h site ⟨d, p⟩ = .error .multipleDestinations := by
  rw [determine_eq hR, hv]

theorem determine_ok {m : Merger} {J : Book} (hR : R m J) (h : HashOrder) (site : Site) {d : Date}
    {p : PostingInternal} (hv : J.verdict d p ≠ .conflict) :
    m.determinePostingAction h site ⟨d, p⟩ =
      .ok (⟨d, J.handBackPost (pickFp h J) d p⟩, actionOf (J.verdict d p)) := by
  rw [determine_eq hR]
  unfold handBackPost
  cases hw : J.verdict d p <;> simp_all [actionOf]

/-- The postings with actions that the book prescribes. -/
def postPlan (J : Book) (h : HashOrder) (d : Date) (ps : List PostingInternal) :
    List (Input × Option PostingMergeAction) :=
  ps.map fun p => (⟨d, J.handBackPost (pickFp h J) d p⟩, actionOf (J.verdict d p))

/-- Why the postings of one transaction may be refused. -/
inductive PostErr (J : Book) (d : Date) (ps : List PostingInternal) (seen : TagSet) : MergeErr → Prop
  | cand (p) (hp : p ∈ ps) (t) (ht : t ∈ tagsOf p) (hc : IsCand t) : PostErr J d ps seen .candidateTag
  | nofp (p) (hp : p ∈ ps) (hf : fps p = []) : PostErr J d ps seen .noFingerprint
  | seen (p) (hp : p ∈ ps) (f) (hf : f ∈ fps p) (hs : f ∈ seen) : PostErr J d ps seen .duplicateFingerprint
  | dup (hd : ¬ ps.Pairwise (fun p q => ¬ SharesFp p q)) : PostErr J d ps seen .duplicateFingerprint
  | multi (p) (hp : p ∈ ps) (hv : J.verdict d p = .conflict) : PostErr J d ps seen .multipleDestinations

theorem processPosts_spec {m : Merger} {J : Book} (hR : R m J) (h : HashOrder) (d : Date)
    (ps : List PostingInternal) (n : Nat) (seen : TagSet) (a : MergeActions) :
    (∃ e, m.processPosts h d ps n seen (.value a) = .error e ∧ PostErr J d ps seen e) ∨
    (∃ n' seen', m.processPosts h d ps n seen (.value a) =
        .ok (n', seen', .value (pushAll a (postPlan J h d ps))) ∧
      (∀ p ∈ ps, PostOK p) ∧ ps.Pairwise (fun p q => ¬ SharesFp p q) ∧
      (∀ p ∈ ps, ∀ f ∈ fps p, f ∉ seen) ∧ (∀ p ∈ ps, J.verdict d p ≠ .conflict) ∧
      (∀ f, f ∈ seen' ↔ f ∈ seen ∨ ∃ p ∈ ps, f ∈ fps p)) := by
  induction ps generalizing n seen a with
  | nil => right; exact ⟨n, seen, rfl, by simp, by simp, by simp, by simp, by simp⟩
  | cons p ps ih =>
    unfold Merger.processPosts
    rw [fromPostingInternal_eq]
    by_cases c1 : ∃ t ∈ tagsOf p, IsCand t
    · left
      obtain ⟨t, ht, hc⟩ := c1
      refine ⟨.candidateTag, ?_, .cand p (by simp) t ht hc⟩
      rw [if_pos ⟨t, ht, hc⟩]; rfl
    rw [if_neg c1]
    by_cases c2 : fps p = []
    · left
      refine ⟨.noFingerprint, ?_, .nofp p (by simp) c2⟩
      rw [if_pos c2]; rfl
    rw [if_neg c2]
    have hperm := fingerprintsFromComment_perm h (.inputTags n) p
    have hnd : ((Input.mk d p).iterFingerprints h (.inputTags n)).Nodup := hperm.nodup_iff.2 (fps_nodup p)
    have hmem : ∀ f, f ∈ (Input.mk d p).iterFingerprints h (.inputTags n) ↔ f ∈ fps p := fun f => hperm.mem_iff
    rcases checkSeen_eq _ hnd seen with ⟨h1, f, hf, hfs⟩ | ⟨seen1, h1, h2, h3⟩
    · left
      refine ⟨.duplicateFingerprint, ?_, .seen p (by simp) f ((hmem f).1 hf) hfs⟩
      simp only [bind, Except.bind, h1]
    simp only [bind, Except.bind, h1]
    by_cases c3 : J.verdict d p = .conflict
    · left
      refine ⟨.multipleDestinations, ?_, .multi p (by simp) c3⟩
      rw [determine_conflict hR h _ c3]
    rw [determine_ok hR h _ c3]
    simp only [MergeActionsAccumulator.push, MutCell.mapValue]
    have hs1 : ∀ f, f ∈ seen1 ↔ f ∈ seen ∨ f ∈ fps p := fun f => by rw [h3, hmem]
    have hns : ∀ f ∈ fps p, f ∉ seen := fun f hf => h2 f ((hmem f).2 hf)
    rcases ih (n + 1) seen1
        (MergeActionsAccumulator.pushInner ⟨d, J.handBackPost (pickFp h J) d p⟩ (actionOf (J.verdict d p)) a) with
      ⟨e, he, hpe⟩ | ⟨n', seen', he, g1, g2, g3, g4, g5⟩
    · left
      refine ⟨e, he, ?_⟩
      cases hpe with
      | cand q hq t ht hc => exact .cand q (by simp [hq]) t ht hc
      | nofp q hq hf => exact .nofp q (by simp [hq]) hf
      | seen q hq f hf hs =>
        rcases (hs1 f).1 hs with hs | hs
        · exact .seen q (by simp [hq]) f hf hs
        · apply PostErr.dup
          intro hpw
          exact (List.pairwise_cons.1 hpw).1 q hq ⟨f, hs, hf⟩
      | dup hd =>
        apply PostErr.dup
        intro hpw
        exact hd (List.pairwise_cons.1 hpw).2
      | multi q hq hv => exact .multi q (by simp [hq]) hv
    · right
      refine ⟨n', seen', ?_, ?_, ?_, ?_, ?_, ?_⟩
      · rw [he]; simp [postPlan, pushAll]
      · intro q hq
        rcases List.mem_cons.1 hq with rfl | hq
        · exact ⟨fun t ht hc => c1 ⟨t, ht, hc⟩, c2⟩
        · exact g1 q hq
      · rw [List.pairwise_cons]
        refine ⟨?_, g2⟩
        rintro q hq ⟨f, hf, hfq⟩
        exact g3 q hq f hfq ((hs1 f).2 (Or.inr hf))
      · intro q hq f hf
        rcases List.mem_cons.1 hq with rfl | hq
        · exact hns f hf
        · intro hfs; exact g3 q hq f hf ((hs1 f).2 (Or.inl hfs))
      · intro q hq
        rcases List.mem_cons.1 hq with rfl | hq
        · exact c3
        · exact g4 q hq
      · intro f
        rw [g5, hs1]
        simp only [List.mem_cons, exists_eq_or_imp]
        grind

/-! ### The destination transaction -/

theorem verdict_into_lt {J : Book} {d : Date} {p : PostingInternal} {i : Nat} (hv : J.verdict d p = .into i) :
    i < J.recs.length := by
  unfold verdict at hv
  split at hv
  · rename_i j hj
    simp at hv; subst hv
    exact where_lt (P := fun r => decide (SharesFp r.post p)) (by unfold fpHits at hj; simp [hj])
  · simp at hv
  · split at hv
    · simp at hv
    · rename_i j hj
      simp at hv; subst hv
      exact where_lt (P := fun r => decide (r.date = d ∧ SoftMatch r.post p)) (by unfold softHits at hj; rw [hj]; simp)
    · simp at hv

theorem dests_lt {J : Book} {t : TransactionPostings} {i : Nat} (hi : i ∈ J.dests t) : i < J.recs.length := by
  unfold dests verdicts at hi
  rw [List.mem_filterMap] at hi
  obtain ⟨v, hv, hvi⟩ := hi
  rw [List.mem_map] at hv
  obtain ⟨p, hp, rfl⟩ := hv
  cases hw : J.verdict (dateOf t) p <;> simp [hw, Verdict.dest?] at hvi
  subst hvi
  exact verdict_into_lt hw

theorem mapM_parent {m : Merger} {J : Book} (hR : R m J) (l : List Nat) (hl : ∀ i ∈ l, i < J.recs.length) :
    l.mapM (fun i => (m.posts.get i).map (·.parentTrn)) = .ok (l.filterMap J.trnOf) := by
  induction l with
  | nil => rfl
  | cons i l ih =>
    have hi := hl i (by simp)
    rw [List.mapM_cons, hR.get, List.getElem?_eq_getElem hi, ih (fun j hj => hl j (by simp [hj]))]
    have : J.trnOf i = some (J.recs[i].trn) := by simp [trnOf, List.getElem?_eq_getElem hi]
    rw [List.filterMap_cons, this]
    rfl

theorem set_size_le_one (l : List Nat) :
    (Std.ExtTreeSet.ofList l : Std.ExtTreeSet Nat compare).size ≤ 1 ↔ ∀ x ∈ l, ∀ y ∈ l, x = y := by
  set s : Std.ExtTreeSet Nat compare := Std.ExtTreeSet.ofList l with hs
  have hm : ∀ x, x ∈ s.toList ↔ x ∈ l := by
    intro x; rw [Std.ExtTreeSet.mem_toList, hs, Std.ExtTreeSet.mem_ofList]; simp
  have hlen : s.size = s.toList.length := by rw [Std.ExtTreeSet.length_toList]
  rw [hlen]
  have hord : s.toList.Pairwise (fun a b => compare a b = .lt) := Std.ExtTreeSet.ordered_toList
  match hl : s.toList, hord with
  | [], _ => simp only [List.length_nil, Nat.zero_le, true_iff]; intro x hx; rw [← hm, hl] at hx; simp at hx
  | [a], _ =>
    simp only [List.length_singleton, le_refl, true_iff]
    intro x hx y hy
    rw [← hm, hl] at hx hy; simp at hx hy; rw [hx, hy]
  | a :: b :: t, hord =>
    constructor
    · intro h; simp at h
    · intro h
      have ha := (hm a).1 (by simp [hl])
      have hb := (hm b).1 (by simp [hl])
      have hab := h a ha b hb
      have := (List.pairwise_cons.1 hord).1 b (by simp)
      rw [hab] at this
      simp at this

theorem mapM_trn_ok {m : Merger} {J : Book} (hR : R m J) (l : List Nat) (hl : ∀ k ∈ l, k < J.hdrs.length) :
    ∃ ts, l.mapM m.trns.get = .ok ts := by
  induction l with
  | nil => exact ⟨[], rfl⟩
  | cons i l ih =>
    obtain ⟨ts, hts⟩ := ih (fun j hj => hl j (by simp [hj]))
    have hi := hl i (by simp)
    have : m.trns.get i = .ok ⟨J.hdrs[i], J.where_ (fun r => r.trn = i)⟩ := by
      unfold IndexedTransactions.get
      rw [hR.trns, List.getElem?_mapIdx, List.getElem?_eq_getElem hi]; rfl
    refine ⟨⟨J.hdrs[i], J.where_ (fun r => r.trn = i)⟩ :: ts, ?_⟩
    rw [List.mapM_cons, this, hts]
    rfl

theorem findExistingDestTrn_spec {m : Merger} {J : Book} (hR : R m J) (h : HashOrder)
    (as : List (Input × PostingMergeAction)) (hl : ∀ i ∈ Merger.mergeDests as, i < J.recs.length) :
    (m.findExistingDestTrn h as = .error .splitTransaction ∧
      ∃ i ∈ Merger.mergeDests as, ∃ j ∈ Merger.mergeDests as, J.trnOf i ≠ J.trnOf j) ∨
    (m.findExistingDestTrn h as = .ok ((Merger.mergeDests as).head?.bind J.trnOf) ∧
      ∀ i ∈ Merger.mergeDests as, ∀ j ∈ Merger.mergeDests as, J.trnOf i = J.trnOf j) := by
  unfold Merger.findExistingDestTrn
  generalize hD : Merger.mergeDests as = D at *
  rw [mapM_parent hR D hl]
  simp only [bind, Except.bind]
  set s : Std.ExtTreeSet Nat compare := Std.ExtTreeSet.ofList (D.filterMap J.trnOf) with hs
  have hm : ∀ x, x ∈ s.toList ↔ x ∈ D.filterMap J.trnOf := by
    intro x; rw [Std.ExtTreeSet.mem_toList, hs, Std.ExtTreeSet.mem_ofList]; simp
  have hsome : ∀ i ∈ D, ∃ k, J.trnOf i = some k ∧ k < J.hdrs.length := by
    intro i hi
    have := hl i hi
    exact ⟨J.recs[i].trn, by simp [trnOf, List.getElem?_eq_getElem this], hR.wf.owner _ (List.getElem_mem this)⟩
  have hall : (∀ x ∈ D.filterMap J.trnOf, ∀ y ∈ D.filterMap J.trnOf, x = y) ↔
      ∀ i ∈ D, ∀ j ∈ D, J.trnOf i = J.trnOf j := by
    constructor
    · intro hx i hi j hj
      obtain ⟨k, hk, _⟩ := hsome i hi
      obtain ⟨k', hk', _⟩ := hsome j hj
      rw [hk, hk', hx k (List.mem_filterMap.2 ⟨i, hi, hk⟩) k' (List.mem_filterMap.2 ⟨j, hj, hk'⟩)]
    · intro hx x hx' y hy'
      obtain ⟨i, hi, hix⟩ := List.mem_filterMap.1 hx'
      obtain ⟨j, hj, hjy⟩ := List.mem_filterMap.1 hy'
      have := hx i hi j hj
      rw [hix, hjy] at this
      exact Option.some.inj this
  by_cases hsz : s.size ≤ 1
  · right
    rw [if_pos hsz]
    have h1 := (set_size_le_one _).1 hsz
    refine ⟨?_, hall.1 h1⟩
    simp only [pure, Except.pure]
    congr 1
    have hperm := h.iter_perm .destTrns s.toList
    cases D with
    | nil =>
      have : s.toList = [] := by
        apply List.eq_nil_iff_forall_not_mem.2; intro x hx; simpa using (hm x).1 hx
      rw [this] at hperm ⊢
      rw [hperm.eq_nil]; rfl
    | cons i D =>
      obtain ⟨k, hk, _⟩ := hsome i (by simp)
      simp only [List.head?_cons, Option.bind_some, hk]
      have hkm : k ∈ (i :: D).filterMap J.trnOf := List.mem_filterMap.2 ⟨i, by simp, hk⟩
      cases hl' : h.iter .destTrns s.toList with
      | nil =>
        rw [hl'] at hperm
        have := hperm.symm.eq_nil
        have hk2 := (hm k).2 hkm
        rw [this] at hk2; simp at hk2
      | cons x xs =>
        simp only [List.head?_cons, Option.some.injEq]
        have hx : x ∈ s.toList := hperm.subset (by rw [hl']; simp)
        exact h1 x ((hm x).1 hx) k hkm
  · left
    rw [if_neg hsz]
    have hlk : ∀ k ∈ h.iter .destTrns s.toList, k < J.hdrs.length := by
      intro k hk
      have := (hm k).1 ((h.iter_perm _ _).subset hk)
      obtain ⟨i, hi, hik⟩ := List.mem_filterMap.1 this
      obtain ⟨k', hk', hlt⟩ := hsome i hi
      rw [hk'] at hik; cases hik; exact hlt
    obtain ⟨ts, hts⟩ := mapM_trn_ok hR _ hlk
    refine ⟨by simp only [hts, throw, throwThe, MonadExceptOf.throw], ?_⟩
    by_contra hc
    push Not at hc
    exact hsz ((set_size_le_one _).2 (hall.2 hc))

/-! ### The plan for a transaction -/

/-- The postings of a decided transaction with their actions. -/
def trnActions (J : Book) (t : TransactionPostings) : List (Input × PostingMergeAction) :=
  t.posts.filterMap fun p => (actionOf (J.verdict (dateOf t) p)).map fun a => (⟨dateOf t, p⟩, a)

/-- The action that the book prescribes for a transaction. -/
def trnPlan (J : Book) (h : HashOrder) (t : TransactionPostings) : TransactionMergeAction :=
  if Undecided J t then .leaveUnmerged (J.handBack (pickFp h J) t)
  else
    match (J.dests t).head?.bind J.trnOf with
    | some k => .mergeInto ⟨⟨t.trn, []⟩, trnActions J t⟩ k
    | none => .new ⟨⟨t.trn, []⟩, trnActions J t⟩

theorem mergeDests_trnActions (J : Book) (t : TransactionPostings) :
    Merger.mergeDests (trnActions J t) = J.dests t := by
  unfold Merger.mergeDests trnActions dests verdicts
  rw [List.filterMap_filterMap, List.filterMap_map]
  congr 1
  funext p
  simp only [Function.comp]
  cases J.verdict (dateOf t) p <;> simp [actionOf, Verdict.dest?]

/-- Why a transaction may be refused. -/
inductive TrnErr (J : Book) (t : TransactionPostings) (seen : TagSet) : MergeErr → Prop
  | post {e} (h : PostErr J (dateOf t) t.posts seen e) : TrnErr J t seen e
  | split (hu : ¬ Undecided J t) (i) (hi : i ∈ J.dests t) (j) (hj : j ∈ J.dests t) (hne : J.trnOf i ≠ J.trnOf j) :
      TrnErr J t seen .splitTransaction

theorem toTransactionMergeAction_spec {m : Merger} {J : Book} (hR : R m J) (h : HashOrder) (n : Nat) (seen : TagSet)
    (t : TransactionPostings) :
    (∃ e, m.toTransactionMergeAction h n seen t = .error e ∧ TrnErr J t seen e) ∨
    (∃ n' seen', m.toTransactionMergeAction h n seen t = .ok (n', seen', trnPlan J h t) ∧
      (∀ p ∈ t.posts, PostOK p) ∧ t.posts.Pairwise (fun p q => ¬ SharesFp p q) ∧
      (∀ p ∈ t.posts, ∀ f ∈ fps p, f ∉ seen) ∧ Verdict.conflict ∉ J.verdicts t ∧
      (¬ Undecided J t → ∀ i ∈ J.dests t, ∀ j ∈ J.dests t, J.trnOf i = J.trnOf j) ∧
      (∀ f, f ∈ seen' ↔ f ∈ seen ∨ ∃ p ∈ t.posts, f ∈ fps p)) := by
  unfold Merger.toTransactionMergeAction
  by_cases hemp : t.posts = []
  · right
    have hu : Undecided J t := Or.inl hemp
    refine ⟨n, seen, ?_, by simp [hemp], by simp [hemp], by simp [hemp], by simp [verdicts, hemp],
      fun hu' => absurd hu hu', by simp [hemp]⟩
    have : t.posts.isEmpty = true := by simp [hemp]
    rw [if_pos this]
    unfold trnPlan handBack
    rw [if_pos hu]
    cases t; simp_all
  · have hne : ¬ t.posts.isEmpty = true := by simpa using hemp
    rw [if_neg hne]
    simp only [TrnHolder.fromTransactionInternal, bind, Except.bind]
    rcases processPosts_spec hR h (dateOf t) t.posts n seen (.actions []) with
      ⟨e, he, hpe⟩ | ⟨n', seen', he, g1, g2, g3, g4, g5⟩
    · left
      refine ⟨e, ?_, .post hpe⟩
      unfold MergeActionsAccumulator.new MutCell.new
      rw [he]
    · unfold MergeActionsAccumulator.new MutCell.new
      rw [he]
      have hconf : Verdict.conflict ∉ J.verdicts t := by
        unfold verdicts; rw [List.mem_map]; rintro ⟨p, hp, hv⟩; exact g4 p hp hv
      simp only [MergeActionsAccumulator.intoInner, MutCell.intoInner, panicToErr]
      rw [pushAll_actions]
      have hany : ((postPlan J h (dateOf t) t.posts).any fun x => x.2.isNone) = true ↔ Undecided J t := by
        unfold Undecided verdicts postPlan
        simp only [List.any_map, List.any_eq_true, List.mem_map, exists_exists_and_eq_and, hemp, false_or,
          Function.comp]
        constructor
        · rintro ⟨p, hp, hn⟩
          refine ⟨p, hp, ?_⟩
          have := g4 p hp
          cases hv : J.verdict (dateOf t) p <;> simp_all [actionOf, Verdict.isAmbiguous]
        · rintro ⟨p, hp, hn⟩
          refine ⟨p, hp, ?_⟩
          cases hv : J.verdict (dateOf t) p <;> simp_all [actionOf, Verdict.isAmbiguous]
      by_cases hu : Undecided J t
      · right
        rw [if_pos (hany.2 hu)]
        refine ⟨n', seen', ?_, g1, g2, g3, hconf, fun hu' => absurd hu hu', g5⟩
        simp only [pure, Except.pure]
        unfold trnPlan handBack
        rw [if_pos hu]
        simp [TrnHolder.intoTransactionPostings, postPlan, Input.intoPostingInternal, Function.comp_def]
      · rw [if_neg (fun hh => hu (hany.1 hh))]
        have hacts : ([] : List (Input × PostingMergeAction)) ++
            (postPlan J h (dateOf t) t.posts).filterMap (fun x => x.2.map (fun a => (x.1, a))) = trnActions J t := by
          unfold postPlan trnActions
          rw [List.nil_append, List.filterMap_map]
          apply List.filterMap_congr
          intro p hp
          simp only [Function.comp]
          have : ∀ is, J.verdict (dateOf t) p ≠ .ambiguous is := by
            intro is hv
            apply hu
            right
            exact ⟨.ambiguous is, by unfold verdicts; exact List.mem_map.2 ⟨p, hp, hv⟩, rfl⟩
          unfold handBackPost
          cases hv : J.verdict (dateOf t) p <;> simp_all [actionOf]
        rw [hacts]
        simp only
        have hlt : ∀ i ∈ Merger.mergeDests (trnActions J t), i < J.recs.length := by
          rw [mergeDests_trnActions]; intro i hi; exact dests_lt hi
        rcases findExistingDestTrn_spec hR h _ hlt with ⟨h1, i, hi, j, hj, hij⟩ | ⟨h1, h2⟩
        · left
          rw [mergeDests_trnActions] at hi hj
          refine ⟨.splitTransaction, by rw [h1], .split hu i hi j hj hij⟩
        · right
          rw [mergeDests_trnActions] at h1 h2
          refine ⟨n', seen', ?_, g1, g2, g3, hconf, fun _ => h2, g5⟩
          rw [h1]
          unfold trnPlan
          rw [if_neg hu]
          cases (J.dests t).head?.bind J.trnOf <;> rfl

end Verif
