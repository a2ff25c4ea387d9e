import Verif.Model.Merger
import Verif.Spec.Book
import Verif.Proofs.Posting
import Verif.Proofs.MatchSet

/-!
# The merger refines the index-free book: definitions and one-step lemmas
-/

namespace Verif
open Spec Spec.Book

/-! ### Basic facts about books -/

namespace Spec.Book

theorem mem_where {J : Book} {P : Rec → Bool} {i : Nat} :
    i ∈ J.where_ P ↔ ∃ r, J.recs[i]? = some r ∧ P r = true := by
  unfold where_
  rw [List.mem_filter, List.mem_range, Option.any_eq_true_iff_get]
  constructor
  · rintro ⟨h, h1, h2⟩
    exact ⟨_, by simp, h2⟩
  · rintro ⟨r, h1, h2⟩
    have : i < J.recs.length := by
      by_contra hc
      rw [List.getElem?_eq_none (by omega)] at h1
      cases h1
    refine ⟨this, by simp [h1], by simp [h1, h2]⟩

theorem where_nodup (J : Book) (P : Rec → Bool) : (J.where_ P).Nodup := List.nodup_range.filter _

theorem where_lt {J : Book} {P : Rec → Bool} {i : Nat} (h : i ∈ J.where_ P) : i < J.recs.length := by
  unfold where_ at h; simp at h; exact h.1

theorem where_append (hd : List TransactionInternal) (rs : List Rec) (r : Rec) (P : Rec → Bool) :
    (⟨hd, rs ++ [r]⟩ : Book).where_ P = (⟨hd, rs⟩ : Book).where_ P ++ (if P r then [rs.length] else []) := by
  unfold where_
  simp only [List.length_append, List.length_singleton, List.range_succ, List.filter_append]
  congr 1
  · apply List.filter_congr
    intro i hi
    rw [List.getElem?_append_left (by simpa using hi)]
  · by_cases h : P r <;> simp [h]

theorem where_hdrs (hd hd' : List TransactionInternal) (rs : List Rec) (P : Rec → Bool) :
    (⟨hd, rs⟩ : Book).where_ P = (⟨hd', rs⟩ : Book).where_ P := rfl

theorem where_modify (hd : List TransactionInternal) (rs : List Rec) (i : Nat) (f : Rec → Rec) (P : Rec → Bool)
    (hf : ∀ r, P (f r) = P r) :
    (⟨hd, rs.modify i f⟩ : Book).where_ P = (⟨hd, rs⟩ : Book).where_ P := by
  unfold where_
  simp only [List.length_modify]
  apply List.filter_congr
  intro j _
  rw [List.getElem?_modify]
  split <;> cases rs[j]? <;> simp [hf]

theorem where_filter (J : Book) (P Q : Rec → Bool) :
    (J.where_ P).filter (fun i => (J.recs[i]?).any Q) = J.where_ (fun r => P r && Q r) := by
  unfold where_
  rw [List.filter_filter]
  apply List.filter_congr
  intro i _
  cases J.recs[i]? <;> simp [Bool.and_comm]

theorem mem_fpHits {J : Book} {p : PostingInternal} {i : Nat} :
    i ∈ J.fpHits p ↔ ∃ r, J.recs[i]? = some r ∧ SharesFp r.post p := by
  unfold fpHits; rw [mem_where]; simp

theorem mem_softHits {J : Book} {d : Date} {p : PostingInternal} {i : Nat} :
    i ∈ J.softHits d p ↔ ∃ r, J.recs[i]? = some r ∧ r.date = d ∧ SoftMatch r.post p := by
  unfold softHits; rw [mem_where]; simp

end Spec.Book

/-- `none` for the empty list: a key without entries is absent from the map. -/
def optNE {α : Type} (l : List α) : Option (List α) := if l.isEmpty then none else some l

theorem optNE_getD {α : Type} (l : List α) : (optNE l).getD [] = l := by
  cases l <;> simp [optNE]

theorem optNE_append {α : Type} (l : List α) (a : α) : optNE (l ++ [a]) = some (l ++ [a]) := by
  simp [optNE]

/-- The merger state `m` stands for the book `J`: all indices are exact. -/
structure R (m : Merger) (J : Book) : Prop where
  wf : J.WF
  arena : m.posts.arena = J.recs.map (fun r => ⟨r.trn, r.post⟩)
  byFp : ∀ f i, m.posts.byFp[f]? = some i ↔ ∃ r, J.recs[i]? = some r ∧ f ∈ fps r.post
  byDate : ∀ d, m.posts.byDate[d]? = optNE (J.where_ (fun r => r.date = d))
  trns : m.trns.arena = J.hdrs.mapIdx fun k hdr => ⟨hdr, J.where_ (fun r => r.trn = k)⟩
  trnsByDate : ∀ d, m.trns.byDate[d]? =
    optNE ((List.range J.hdrs.length).filter fun k => (J.hdrs[k]?).any (fun h => h.raw.date = d))

/-- A fingerprint naming record `i`, as chosen by the hash order. -/
def pickFp (h : HashOrder) (J : Book) (i : Nat) : Str :=
  ((J.recs[i]?).bind fun r => (fingerprintsFromComment h (.storedTags i) r.post.comment).head?).getD []

theorem pickFp_mem {h : HashOrder} {J : Book} (hJ : J.WF) {i : Nat} {r : Rec} (hr : J.recs[i]? = some r) :
    pickFp h J i ∈ fps r.post := by
  have hne := hJ.hasFp r (List.mem_of_getElem? hr)
  have hp := fingerprintsFromComment_perm h (.storedTags i) r.post
  unfold pickFp
  rw [hr]
  cases hl : fingerprintsFromComment h (.storedTags i) r.post.comment with
  | nil => rw [hl] at hp; exact absurd hp.symm.eq_nil hne
  | cons a l => rw [hl] at hp; simp only [Option.bind_some, hl, List.head?_cons, Option.getD_some]; exact hp.subset (by simp)

theorem R.get {m : Merger} {J : Book} (hR : R m J) (i : Nat) :
    m.posts.get i = match J.recs[i]? with
      | some r => .ok ⟨r.trn, r.post⟩
      | none => .error (.panic .badPostingIndex) := by
  unfold IndexedPostings.get
  rw [hR.arena, List.getElem?_map]
  cases J.recs[i]? <;> rfl

/-! ### Matching -/

theorem fromIter_cases {L H : List Nat} (hn : H.Nodup) (hm : ∀ x, x ∈ L ↔ x ∈ H) :
    (MatchSet.fromIter L = .zero ∧ H = []) ∨
    (∃ a, MatchSet.fromIter L = .one a ∧ H = [a]) ∨
    (∃ vs x y t, MatchSet.fromIter L = .many vs ∧ (∀ z, z ∈ vs ↔ z ∈ H) ∧ H = x :: y :: t) := by
  cases hl : MatchSet.fromIter L with
  | zero =>
    left
    have := MatchSet.fromIter_zero hl
    subst this
    refine ⟨rfl, ?_⟩
    apply List.eq_nil_iff_forall_not_mem.2
    intro x hx; simpa using (hm x).2 hx
  | one a =>
    right; left
    have h1 := MatchSet.fromIter_one hl
    refine ⟨a, rfl, ?_⟩
    have h2 : ∀ x, x ∈ H ↔ x = a := fun x => by rw [← hm, h1]
    match H, hn, h2 with
    | [], _, h2 => simpa using (h2 a).2 rfl
    | [b], _, h2 => have := (h2 b).1 (by simp); rw [this]
    | b :: c :: t, hn, h2 =>
      have hb := (h2 b).1 (by simp)
      have hc := (h2 c).1 (by simp)
      simp [hb, hc] at hn
  | many vs =>
    right; right
    obtain ⟨h1, h2, h3⟩ := MatchSet.fromIter_many hl
    have h4 : ∀ z, z ∈ vs ↔ z ∈ H := fun z => by rw [← hm, h3]
    have hlen : vs.length ≤ H.length := (List.subperm_of_subset h2 (fun z hz => (h4 z).1 hz)).length_le
    match H, hlen, h4 with
    | [], hlen, _ => simp at hlen; subst hlen; simp at h1
    | [b], hlen, _ => simp at hlen; omega
    | x :: y :: t, _, h4 => exact ⟨vs, x, y, t, rfl, h4, rfl⟩

theorem softFilter_eq {m : Merger} {J : Book} (hR : R m J) (d : Date) (p : PostingInternal) (l : List Nat)
    (hl : ∀ i ∈ l, i < J.recs.length) :
    m.posts.softFilter ⟨d, p⟩ l =
      .ok (l.filter fun i => (J.recs[i]?).any fun r => decide (SoftMatch r.post p)) := by
  induction l with
  | nil => rfl
  | cons i l ih =>
    have hi := hl i (by simp)
    unfold IndexedPostings.softFilter
    rw [hR.get, ih (fun j hj => hl j (by simp [hj]))]
    rw [List.getElem?_eq_getElem hi]
    simp only [bind, Except.bind, pure, Except.pure, PostHolder.isMatch, postingMatches_eq, List.filter_cons,
      List.getElem?_eq_getElem hi, Option.any_some]

theorem addCandidateTags_eq {m : Merger} {J : Book} (hR : R m J) (h : HashOrder) (l : List Nat)
    (hl : ∀ i ∈ l, i < J.recs.length) (src : Input) :
    m.addCandidateTags h l src = .ok { src with posting := annotate (pickFp h J) l src.posting } := by
  induction l generalizing src with
  | nil => rfl
  | cons i l ih =>
    have hi := hl i (by simp)
    have hr : J.recs[i]? = some J.recs[i] := List.getElem?_eq_getElem hi
    unfold Merger.addCandidateTags
    rw [hR.get, hr]
    have hne := hR.wf.hasFp _ (List.getElem_mem hi)
    have hp := fingerprintsFromComment_perm h (.storedTags i) J.recs[i].post
    have : primaryFingerprint h (.storedTags i) J.recs[i].post.comment = .ok (pickFp h J i) := by
      unfold primaryFingerprint pickFp
      rw [hr]
      cases hx : fingerprintsFromComment h (.storedTags i) J.recs[i].post.comment with
      | nil => rw [hx] at hp; exact absurd hp.symm.eq_nil hne
      | cons a t => simp [hx]
    simp only [bind, Except.bind, this]
    rw [ih (fun j hj => hl j (by simp [hj]))]
    simp [annotate, Input.addTag, candidatePrefix_eq]

theorem mem_annotate {pick : Nat → Str} {is : List Nat} {p : PostingInternal} {t : Str} :
    t ∈ tagsOf (annotate pick is p) ↔ t ∈ tagsOf p ∨ ∃ i ∈ is, t = candPrefix ++ pick i := by
  unfold annotate tagsOf
  simp only
  generalize p.comment.tags = s
  induction is generalizing s with
  | nil => simp
  | cons i is ih =>
    rw [List.foldl_cons, ih]
    simp only [Std.ExtTreeSet.mem_insert, Std.LawfulEqCmp.compare_eq_iff_eq, List.mem_cons, exists_eq_or_imp]
    grind

theorem annotate_congr {pick : Nat → Str} {is js : List Nat} (h : ∀ z, z ∈ is ↔ z ∈ js) (p : PostingInternal) :
    annotate pick is p = annotate pick js p := by
  have : (annotate pick is p).comment.tags = (annotate pick js p).comment.tags := by
    apply Std.ExtTreeSet.ext_mem
    intro t
    have h1 := mem_annotate (pick := pick) (is := is) (p := p) (t := t)
    have h2 := mem_annotate (pick := pick) (is := js) (p := p) (t := t)
    unfold tagsOf at h1 h2
    rw [h1, h2]
    simp [h]
  unfold annotate at this ⊢
  simp only at this
  rw [this]

theorem mapM_get_ok {m : Merger} {J : Book} (hR : R m J) (l : List Nat) (hl : ∀ i ∈ l, i < J.recs.length) :
    ∃ ps, l.mapM m.posts.get = .ok ps := by
  induction l with
  | nil => exact ⟨[], rfl⟩
  | cons i l ih =>
    obtain ⟨ps, hps⟩ := ih (fun j hj => hl j (by simp [hj]))
    have hi := hl i (by simp)
    refine ⟨⟨J.recs[i].trn, J.recs[i].post⟩ :: ps, ?_⟩
    rw [List.mapM_cons, hR.get, List.getElem?_eq_getElem hi, hps]
    rfl

theorem determine_eq {m : Merger} {J : Book} (hR : R m J) (h : HashOrder) (site : Site) (d : Date)
    (p : PostingInternal) :
    m.determinePostingAction h site ⟨d, p⟩ =
      match J.verdict d p with
      | .new => .ok (⟨d, p⟩, some .new)
      | .into i => .ok (⟨d, p⟩, some (.mergeIntoExisting i))
      | .ambiguous is => .ok (⟨d, annotate (pickFp h J) is p⟩, none)
      | .conflict => .error .multipleDestinations := by
  have hfp : ∀ x, x ∈ ((Input.mk d p).iterFingerprints h site).filterMap m.posts.fingerprintToIndex ↔
      x ∈ J.fpHits p := by
    intro x
    rw [List.mem_filterMap, mem_fpHits]
    simp only [Input.iterFingerprints, mem_fingerprintsFromComment, IndexedPostings.fingerprintToIndex, hR.byFp,
      SharesFp]
    constructor
    · rintro ⟨f, hf, r, hr, hfr⟩; exact ⟨r, hr, f, hfr, hf⟩
    · rintro ⟨r, hr, f, hfr, hf⟩; exact ⟨f, hf, r, hr, hfr⟩
  have hsoft : m.posts.softFilter ⟨d, p⟩ (m.posts.dateToIndices d) = .ok (J.softHits d p) := by
    unfold IndexedPostings.dateToIndices
    rw [hR.byDate, optNE_getD, softFilter_eq hR _ _ _ (fun i hi => where_lt hi), where_filter]
    unfold softHits
    congr 2
    funext r
    rw [Bool.eq_iff_iff]; simp
  unfold Merger.determinePostingAction IndexedPostings.findMatchingPostings
    IndexedPostings.findPostingByFingerprints verdict
  rcases fromIter_cases (where_nodup J _) hfp with ⟨h1, h2⟩ | ⟨a, h1, h2⟩ | ⟨vs, x, y, t, h1, h2, h3⟩
  · have h2' : J.fpHits p = [] := h2
    rw [h1, h2']
    simp only [hsoft, bind, Except.bind]
    rcases fromIter_cases (where_nodup J _) (L := J.softHits d p) (H := J.softHits d p) (fun _ => Iff.rfl) with
      ⟨g1, g2⟩ | ⟨b, g1, g2⟩ | ⟨vs, x, y, t, g1, g2, g3⟩
    · rw [g1, g2]; rfl
    · rw [g1, g2]; rfl
    · rw [g1]
      have : ∀ z ∈ vs, z < J.recs.length := fun z hz => where_lt ((g2 z).1 hz)
      simp only [pure, Except.pure, MatchSet.containerToList]
      rw [addCandidateTags_eq hR h vs this, annotate_congr g2, g3]
  · have h2' : J.fpHits p = [a] := h2
    rw [h1, h2']
    rfl
  · have h3' : J.fpHits p = x :: y :: t := h3
    rw [h1, h3']
    have : ∀ z ∈ vs, z < J.recs.length := fun z hz => where_lt ((h2 z).1 hz)
    obtain ⟨ps, hps⟩ := mapM_get_ok hR vs this
    simp only [bind, Except.bind, MatchSet.containerToList, hps, throw, throwThe, MonadExceptOf.throw]

end Verif
