import Verif.Proofs.Check

/-!
# `apply_pending`: the indices stay exact
-/

namespace Verif
open Spec Spec.Book

theorem not_isFp_unknownTag : ¬ IsFp unknownTag := by
  intro h
  have : isFingerprint unknownTag = true := by rw [isFingerprint_eq]; exact decide_eq_true h
  revert this; decide

theorem mem_fps_absorb {d s : PostingInternal} {f : Str} : f ∈ fps (absorb d s) ↔ f ∈ fps d ∨ f ∈ fps s := by
  rw [mem_fps, mem_fps, mem_fps]
  have : f ∈ tagsOf (absorb d s) ↔ f ∈ mergedTags d.comment.tags s.comment.tags := by
    unfold tagsOf absorb; rfl
  rw [this, mem_mergedTags]
  unfold tagsOf
  by_cases hf : f = unknownTag
  · subst hf; simp [not_isFp_unknownTag]
  · simp only [hf, if_false]; tauto

theorem sharesFp_absorb {d s q : PostingInternal} : SharesFp (absorb d s) q ↔ SharesFp d q ∨ SharesFp s q := by
  unfold SharesFp
  simp only [mem_fps_absorb]
  constructor
  · rintro ⟨f, h1 | h1, h2⟩
    · exact Or.inl ⟨f, h1, h2⟩
    · exact Or.inr ⟨f, h1, h2⟩
  · rintro (⟨f, h1, h2⟩ | ⟨f, h1, h2⟩)
    · exact ⟨f, Or.inl h1, h2⟩
    · exact ⟨f, Or.inr h1, h2⟩

theorem sharesFp_comm {p q : PostingInternal} : SharesFp p q ↔ SharesFp q p := by
  unfold SharesFp
  constructor <;> (rintro ⟨f, h1, h2⟩; exact ⟨f, h2, h1⟩)

theorem cand_absorb {d s : PostingInternal} (hd : ∀ t ∈ tagsOf d, ¬ IsCand t) (hs : ∀ t ∈ tagsOf s, ¬ IsCand t) :
    ∀ t ∈ tagsOf (absorb d s), ¬ IsCand t := by
  intro t ht
  have : t ∈ mergedTags d.comment.tags s.comment.tags := by unfold tagsOf absorb at ht; exact ht
  rw [mem_mergedTags] at this
  split at this
  · exact hd t this.1
  · rcases this with h | h
    · exact hd t h
    · exact hs t h

theorem register_ok (fs : List Str) (i : Nat) (byFp : Std.ExtTreeMap Str Nat compare)
    (h : ∀ f ∈ fs, byFp[f]? = none ∨ byFp[f]? = some i) :
    ∃ new, IndexedPostings.registerFingerprints fs i byFp = (.ok (), new) ∧
      ∀ g, new[g]? = if g ∈ fs then some i else byFp[g]? := by
  induction fs generalizing byFp with
  | nil => exact ⟨byFp, rfl, by simp⟩
  | cons f fs ih =>
    unfold IndexedPostings.registerFingerprints
    rcases h f (by simp) with h1 | h1
    · rw [h1]
      obtain ⟨new, hn, hg⟩ := ih (byFp.insert f i) (by
        intro g hg
        rw [Std.ExtTreeMap.getElem?_insert]
        by_cases hfg : f = g
        · subst hfg; simp
        · have : ¬ compare f g = .eq := by simpa using hfg
          simp only [this, if_false]
          exact h g (by simp [hg]))
      refine ⟨new, hn, ?_⟩
      intro g
      rw [hg, Std.ExtTreeMap.getElem?_insert]
      by_cases hfg : f = g
      · subst hfg; simp
      · have : ¬ compare f g = .eq := by simpa using hfg
        have h' : g ≠ f := fun e => hfg e.symm
        simp [this, h']
    · rw [h1]
      simp only [ne_eq, not_true, if_false]
      obtain ⟨new, hn, hg⟩ := ih byFp (fun g hg => h g (by simp [hg]))
      refine ⟨new, hn, ?_⟩
      intro g
      rw [hg]
      by_cases hfg : g = f
      · subst hfg; simp [h1]
      · simp [hfg]

/-- The verdict `v` on `p` does not clash with the fingerprints in the book. -/
def Compat (J : Book) (p : PostingInternal) : Verdict → Prop
  | .new => ∀ r ∈ J.recs, ¬ SharesFp r.post p
  | .into i => i < J.recs.length ∧ ∀ j r, J.recs[j]? = some r → SharesFp r.post p → j = i
  | _ => False

theorem compat_verdict {J : Book} {d : Date} {p : PostingInternal} (h1 : (J.verdict d p).isAmbiguous = false)
    (h2 : J.verdict d p ≠ .conflict) : Compat J p (J.verdict d p) := by
  cases hv : J.verdict d p with
  | ambiguous is => rw [hv] at h1; simp [Verdict.isAmbiguous] at h1
  | conflict => exact absurd hv h2
  | new =>
    intro r hr hs
    obtain ⟨j, hj⟩ := List.mem_iff_getElem?.1 hr
    have hm : j ∈ J.fpHits p := mem_fpHits.2 ⟨r, hj, hs⟩
    unfold verdict at hv
    split at hv
    · cases hv
    · cases hv
    · rename_i hf; rw [hf] at hm; cases hm
  | into i =>
    refine ⟨verdict_into_lt hv, ?_⟩
    intro j r hj hs
    have hm : j ∈ J.fpHits p := mem_fpHits.2 ⟨r, hj, hs⟩
    unfold verdict at hv
    split at hv
    · rename_i hf; rw [hf] at hm; cases hv; simpa using hm
    · cases hv
    · rename_i hf; rw [hf] at hm; cases hm

theorem Compat.putPost {J : Book} {p q : PostingInternal} {v : Verdict} (hc : Compat J p v) (hpq : ¬ SharesFp q p)
    (k : Nat) (d : Date) (w : Verdict) : Compat (J.putPost k d q w) p v := by
  have key : ∀ (j : Nat) (r : Rec), (J.putPost k d q w).recs[j]? = some r → SharesFp r.post p →
      ∃ r', J.recs[j]? = some r' ∧ SharesFp r'.post p := by
    intro j r hj hs
    have happ : ∀ {l : List Rec}, (J.recs ++ [⟨k, d, q⟩] = l) → l[j]? = some r →
        ∃ r', J.recs[j]? = some r' ∧ SharesFp r'.post p := by
      rintro _ rfl hj
      rw [List.getElem?_append] at hj
      split at hj
      · exact ⟨r, hj, hs⟩
      · rw [List.getElem?_singleton] at hj
        split at hj
        · cases hj; exact absurd hs hpq
        · cases hj
    cases w with
    | into i =>
      simp only [Book.putPost, List.getElem?_modify] at hj
      cases hr : J.recs[j]? with
      | none => rw [hr] at hj; split at hj <;> simp at hj
      | some r' =>
        rw [hr] at hj
        refine ⟨r', rfl, ?_⟩
        split at hj
        · simp only [Option.map_eq_map, Option.map_some, Option.some.injEq] at hj
          subst hj
          rcases sharesFp_absorb.1 hs with h | h
          · exact h
          · exact absurd h hpq
        · simp at hj; subst hj; exact hs
    | new => exact happ rfl hj
    | ambiguous is => exact happ rfl hj
    | conflict => exact happ rfl hj
  have hlen : J.recs.length ≤ (J.putPost k d q w).recs.length := by
    cases w <;> simp [Book.putPost]
  cases v with
  | ambiguous is => exact hc
  | conflict => exact hc
  | new =>
    intro r hr hs
    obtain ⟨j, hj⟩ := List.mem_iff_getElem?.1 hr
    obtain ⟨r', hr', hs'⟩ := key j r hj hs
    exact hc r' (List.mem_of_getElem? hr') hs'
  | into i =>
    refine ⟨lt_of_lt_of_le hc.1 hlen, ?_⟩
    intro j r hj hs
    obtain ⟨r', hr', hs'⟩ := key j r hj hs
    exact hc.2 j r' hr' hs'

theorem Compat.hdrs {J : Book} {p : PostingInternal} {v : Verdict} (hc : Compat J p v) (hd : List TransactionInternal) :
    Compat { J with hdrs := hd } p v := by cases v <;> exact hc

theorem Compat.putPosts {J : Book} {p : PostingInternal} {v : Verdict} (hc : Compat J p v) (k : Nat) (d : Date)
    (ps : List PostingInternal) (vs : List Verdict) (hps : ∀ q ∈ ps, ¬ SharesFp q p) :
    Compat (J.putPosts k d ps vs) p v := by
  induction ps generalizing J vs with
  | nil => cases vs <;> exact hc
  | cons q ps ih =>
    cases vs with
    | nil => exact hc
    | cons w vs => exact ih (hc.putPost (hps q (by simp)) k d w) vs (fun q hq => hps q (by simp [hq]))

theorem putPosts_hdrs (J : Book) (k : Nat) (d : Date) (ps : List PostingInternal) (vs : List Verdict) :
    (J.putPosts k d ps vs).hdrs = J.hdrs := by
  induction ps generalizing J vs with
  | nil => cases vs <;> rfl
  | cons q ps ih =>
    cases vs with
    | nil => rfl
    | cons w vs =>
      unfold Book.putPosts
      rw [ih]
      cases w <;> rfl

/-! ### One posting -/

theorem R.addPost {m : Merger} {J : Book} (hR : R m J) (h : HashOrder) {k : Nat} (hk : k < J.hdrs.length) (d : Date)
    {p : PostingInternal} (hp : PostOK p) (hc : Compat J p .new) :
    ∃ posts trns, m.posts.add h ⟨d, p⟩ k = (.ok m.posts.arena.length, posts) ∧
      m.trns.addPostToTrn k m.posts.arena.length = (.ok (), trns) ∧ R ⟨posts, trns⟩ (J.putPost k d p .new) := by
  have hlen : m.posts.arena.length = J.recs.length := by rw [hR.arena]; simp
  have hfree : ∀ f ∈ fps p, m.posts.byFp[f]? = none := by
    intro f hf
    cases hx : m.posts.byFp[f]? with
    | none => rfl
    | some i =>
      obtain ⟨r, hr, hfr⟩ := (hR.byFp f i).1 hx
      exact absurd ⟨f, hfr, hf⟩ (hc r (List.mem_of_getElem? hr))
  obtain ⟨new, hn, hg⟩ := register_ok
    (fingerprintsFromComment h (.registerTags m.posts.arena.length) p.comment) m.posts.arena.length m.posts.byFp
    (fun f hf => Or.inl (hfree f (mem_fingerprintsFromComment.1 hf)))
  have htr : m.trns.arena[k]? = some ⟨J.hdrs[k], J.where_ (fun r => r.trn = k)⟩ := by
    rw [hR.trns, List.getElem?_mapIdx, List.getElem?_eq_getElem hk]; rfl
  refine ⟨_, _, by unfold IndexedPostings.add; simp only [hn, PostHolder.fromInput]; rfl,
    by unfold IndexedTransactions.addPostToTrn; rw [htr], ?_⟩
  have hrecs : (J.putPost k d p .new).recs = J.recs ++ [⟨k, d, p⟩] := rfl
  have hget : ∀ i r, (J.recs ++ [(⟨k, d, p⟩ : Rec)])[i]? = some r ↔
      J.recs[i]? = some r ∨ (i = J.recs.length ∧ r = ⟨k, d, p⟩) := by
    intro i r
    rw [List.getElem?_append]
    split
    · rename_i hi; constructor
      · exact Or.inl
      · rintro (h | ⟨h, _⟩)
        · exact h
        · omega
    · rename_i hi
      rw [List.getElem?_singleton, List.getElem?_eq_none (by omega)]
      constructor
      · intro h; split at h
        · right; exact ⟨by omega, by simpa using h.symm⟩
        · cases h
      · rintro (h | ⟨h, h'⟩)
        · cases h
        · rw [if_pos (by omega), h']
  constructor
  · -- WF
    constructor
    · intro r hr
      rw [hrecs] at hr
      rcases List.mem_append.1 hr with hr | hr
      · exact hR.wf.owner r hr
      · simp at hr; subst hr; exact hk
    · intro r hr
      rw [hrecs] at hr
      rcases List.mem_append.1 hr with hr | hr
      · exact hR.wf.hasFp r hr
      · simp at hr; subst hr; exact hp.2
    · intro r hr
      rw [hrecs] at hr
      rcases List.mem_append.1 hr with hr | hr
      · exact hR.wf.noCand r hr
      · simp at hr; subst hr; exact hp.1
    · intro i j r s hi hj hs
      rw [hrecs, hget] at hi hj
      rcases hi with hi | ⟨hi, rfl⟩ <;> rcases hj with hj | ⟨hj, rfl⟩
      · exact hR.wf.unique i j r s hi hj hs
      · exact absurd hs (hc r (List.mem_of_getElem? hi))
      · exact absurd (sharesFp_comm.1 hs) (hc s (List.mem_of_getElem? hj))
      · omega
  · rw [hrecs, List.map_append, ← hR.arena]; rfl
  · intro f i
    simp only [hg, mem_fingerprintsFromComment, hrecs, hget, hlen]
    by_cases hf : f ∈ fps p
    · rw [if_pos hf]
      constructor
      · intro h; cases h; exact ⟨_, Or.inr ⟨rfl, rfl⟩, hf⟩
      · rintro ⟨r, hr | ⟨hr, _⟩, hfr⟩
        · exact absurd ⟨f, hfr, hf⟩ (hc r (List.mem_of_getElem? hr))
        · rw [hr]
    · rw [if_neg hf, hR.byFp]
      constructor
      · rintro ⟨r, hr, hfr⟩; exact ⟨r, Or.inl hr, hfr⟩
      · rintro ⟨r, hr | ⟨_, rfl⟩, hfr⟩
        · exact ⟨r, hr, hfr⟩
        · exact absurd hfr hf
  · intro e
    have hw : (J.putPost k d p .new).where_ (fun r => r.date = e) =
        J.where_ (fun r => r.date = e) ++ (if d = e then [J.recs.length] else []) := by
      refine (where_append J.hdrs J.recs ⟨k, d, p⟩ _).trans ?_
      simp
    rw [hw]
    simp only [Std.ExtTreeMap.getElem?_insert, hR.byDate, optNE_getD, hlen]
    by_cases hde : d = e
    · subst hde; simp [optNE_append]
    · have : ¬ compare d e = .eq := by simpa using hde
      simp [this, hde]
  · have hh : (J.putPost k d p .new).hdrs = J.hdrs := rfl
    rw [hh]
    apply List.ext_getElem?
    intro n
    have hw : (J.putPost k d p .new).where_ (fun r => r.trn = n) =
        J.where_ (fun r => r.trn = n) ++ (if k = n then [J.recs.length] else []) := by
      refine (where_append J.hdrs J.recs ⟨k, d, p⟩ _).trans ?_
      simp
    simp only [List.getElem?_mapIdx, hw]
    rw [List.getElem?_set, hR.trns]
    simp only [List.getElem?_mapIdx, List.length_mapIdx, hlen]
    by_cases hkn : k = n
    · subst hkn
      simp [hk]
    · simp [hkn]
  · exact hR.trnsByDate

theorem R.mergePost {m : Merger} {J : Book} (hR : R m J) (h : HashOrder) (k : Nat) (d : Date) {i : Nat}
    {p : PostingInternal} (hp : PostOK p) (hc : Compat J p (.into i)) :
    ∃ posts, m.posts.mergeInto h i ⟨d, p⟩ = (.ok (), posts) ∧ R ⟨posts, m.trns⟩ (J.putPost k d p (.into i)) := by
  obtain ⟨hi, hu⟩ := hc
  obtain ⟨new, hn, hg⟩ := register_ok (fingerprintsFromComment h (.registerTags i) p.comment) i m.posts.byFp (by
    intro f hf
    have hf := mem_fingerprintsFromComment.1 hf
    cases hx : m.posts.byFp[f]? with
    | none => exact Or.inl rfl
    | some j =>
      obtain ⟨r, hr, hfr⟩ := (hR.byFp f j).1 hx
      right; rw [hu j r hr ⟨f, hfr, hf⟩])
  have hget : m.posts.arena[i]? = some ⟨J.recs[i].trn, J.recs[i].post⟩ := by
    rw [hR.arena, List.getElem?_map, List.getElem?_eq_getElem hi]; rfl
  refine ⟨_, by unfold IndexedPostings.mergeInto; simp only [hn, hget]; rfl, ?_⟩
  have hrecs : (J.putPost k d p (.into i)).recs = J.recs.modify i (fun r => { r with post := absorb r.post p }) := rfl
  have hgetr : ∀ j r, (J.recs.modify i (fun r => { r with post := absorb r.post p }))[j]? = some r ↔
      ∃ r', J.recs[j]? = some r' ∧ r = if j = i then { r' with post := absorb r'.post p } else r' := by
    intro j r
    rw [List.getElem?_modify]
    by_cases hij : i = j
    · subst hij
      rw [List.getElem?_eq_getElem hi]
      simp [eq_comm]
    · have : j ≠ i := fun e => hij e.symm
      simp only [hij, if_false, this]
      cases J.recs[j]? <;> simp [eq_comm]
  have hmem : ∀ r ∈ J.recs.modify i (fun r => { r with post := absorb r.post p }),
      ∃ r' ∈ J.recs, r = r' ∨ r = { r' with post := absorb r'.post p } := by
    intro r hr
    obtain ⟨j, hj⟩ := List.mem_iff_getElem?.1 hr
    obtain ⟨r', hr', he⟩ := (hgetr j r).1 hj
    refine ⟨r', List.mem_of_getElem? hr', ?_⟩
    split at he
    · exact Or.inr he
    · exact Or.inl he
  constructor
  · constructor
    · intro r hr
      rw [hrecs] at hr
      obtain ⟨r', hr', rfl | rfl⟩ := hmem r hr
      · exact hR.wf.owner _ hr'
      · exact hR.wf.owner r' hr'
    · intro r hr
      rw [hrecs] at hr
      obtain ⟨r', hr', rfl | rfl⟩ := hmem r hr
      · exact hR.wf.hasFp _ hr'
      · intro he
        have := hR.wf.hasFp r' hr'
        obtain ⟨f, hf⟩ := List.exists_mem_of_ne_nil _ this
        have : f ∈ fps (absorb r'.post p) := mem_fps_absorb.2 (Or.inl hf)
        simp only at he
        rw [he] at this; cases this
    · intro r hr
      rw [hrecs] at hr
      obtain ⟨r', hr', rfl | rfl⟩ := hmem r hr
      · exact hR.wf.noCand _ hr'
      · exact cand_absorb (hR.wf.noCand _ hr') hp.1
    · intro a b r s ha hb hs
      rw [hrecs, hgetr] at ha hb
      obtain ⟨r', hr', rfl⟩ := ha
      obtain ⟨s', hs', rfl⟩ := hb
      by_cases hai : a = i <;> by_cases hbi : b = i
      · omega
      · rw [if_pos hai, if_neg hbi] at hs
        rcases sharesFp_absorb.1 hs with hs | hs
        · exact hR.wf.unique a b r' s' hr' hs' hs
        · exact absurd (hu b s' hs' (sharesFp_comm.1 hs)) hbi
      · rw [if_neg hai, if_pos hbi] at hs
        rcases sharesFp_absorb.1 (sharesFp_comm.1 hs) with hs | hs
        · exact hR.wf.unique a b r' s' hr' hs' (sharesFp_comm.1 hs)
        · exact absurd (hu a r' hr' (sharesFp_comm.1 hs)) hai
      · rw [if_neg hai, if_neg hbi] at hs
        exact hR.wf.unique a b r' s' hr' hs' hs
  · rw [hrecs]
    apply List.ext_getElem?
    intro n
    simp only [hR.arena, List.getElem?_map, List.getElem?_set, List.getElem?_modify, List.length_map,
      PostHolder.mergeFromInputPosting, postingMerge_eq]
    by_cases hin : i = n
    · subst hin
      simp [hi]
    · simp only [hin, if_false]
      cases J.recs[n]? <;> rfl
  · intro f j
    simp only [hg, mem_fingerprintsFromComment, hrecs, hgetr]
    by_cases hf : f ∈ fps p
    · rw [if_pos hf]
      constructor
      · intro h; cases h
        exact ⟨_, ⟨_, List.getElem?_eq_getElem hi, rfl⟩, by rw [if_pos rfl]; exact mem_fps_absorb.2 (Or.inr hf)⟩
      · rintro ⟨r, ⟨r', hr', rfl⟩, hfr⟩
        by_cases hji : j = i
        · rw [hji]
        · rw [if_neg hji] at hfr
          exact absurd (hu j r' hr' ⟨f, hfr, hf⟩) hji
    · rw [if_neg hf, hR.byFp]
      constructor
      · rintro ⟨r, hr, hfr⟩
        refine ⟨_, ⟨r, hr, rfl⟩, ?_⟩
        split
        · exact mem_fps_absorb.2 (Or.inl hfr)
        · exact hfr
      · rintro ⟨r, ⟨r', hr', rfl⟩, hfr⟩
        refine ⟨r', hr', ?_⟩
        split at hfr
        · rcases mem_fps_absorb.1 hfr with h | h
          · exact h
          · exact absurd h hf
        · exact hfr
  · intro e
    have : (J.putPost k d p (.into i)).where_ (fun r => r.date = e) = J.where_ (fun r => r.date = e) :=
      where_modify J.hdrs J.recs i _ _ (fun r => rfl)
    rw [this]; exact hR.byDate e
  · have hh : (J.putPost k d p (.into i)).hdrs = J.hdrs := rfl
    rw [hh, hR.trns]
    congr 1
    funext n hdr
    have : (J.putPost k d p (.into i)).where_ (fun r => r.trn = n) = J.where_ (fun r => r.trn = n) :=
      where_modify J.hdrs J.recs i _ _ (fun r => rfl)
    rw [this]
  · exact hR.trnsByDate

/-! ### One transaction -/

theorem applyPosts_spec (h : HashOrder) (k : Nat) (d : Date) (V : PostingInternal → Verdict)
    (ps : List PostingInternal) {m : Merger} {J : Book} (hR : R m J) (hk : k < J.hdrs.length)
    (hok : ∀ p ∈ ps, PostOK p) (hc : ∀ p ∈ ps, Compat J p (V p))
    (hpw : ps.Pairwise (fun p q => ¬ SharesFp p q)) :
    ∃ m', Merger.applyPostActionsToTrn h k
        (ps.filterMap fun p => (actionOf (V p)).map fun a => ((⟨d, p⟩ : Input), a)) m = (.ok (), m') ∧
      R m' (J.putPosts k d ps (ps.map V)) := by
  induction ps generalizing m J with
  | nil => exact ⟨m, rfl, hR⟩
  | cons p ps ih =>
    rw [List.pairwise_cons] at hpw
    have hcp := hc p (by simp)
    have hokp := hok p (by simp)
    rw [List.map_cons]
    cases hv : V p with
    | ambiguous is => rw [hv] at hcp; exact hcp.elim
    | conflict => rw [hv] at hcp; exact hcp.elim
    | new =>
      rw [hv] at hcp
      obtain ⟨posts, trns, h1, h2, h3⟩ := hR.addPost h hk d hokp hcp
      obtain ⟨m', hm', hR'⟩ := ih (m := ⟨posts, trns⟩) (J := J.putPost k d p .new) h3 hk
        (fun q hq => hok q (by simp [hq]))
        (fun q hq => (hc q (by simp [hq])).putPost (hpw.1 q hq) k d .new) hpw.2
      refine ⟨m', ?_, hR'⟩
      rw [List.filterMap_cons, hv]
      simp only [actionOf, Option.map_some]
      unfold Merger.applyPostActionsToTrn
      simp only [h1, h2]
      exact hm'
    | into i =>
      rw [hv] at hcp
      obtain ⟨posts, h1, h3⟩ := hR.mergePost h k d hokp hcp
      obtain ⟨m', hm', hR'⟩ := ih (m := ⟨posts, m.trns⟩) (J := J.putPost k d p (.into i)) h3 hk
        (fun q hq => hok q (by simp [hq]))
        (fun q hq => (hc q (by simp [hq])).putPost (hpw.1 q hq) k d _) hpw.2
      refine ⟨m', ?_, hR'⟩
      rw [List.filterMap_cons, hv]
      simp only [actionOf, Option.map_some]
      unfold Merger.applyPostActionsToTrn
      simp only [h1]
      exact hm'

theorem R.addTrn {m : Merger} {J : Book} (hR : R m J) (t : TransactionInternal) :
    ∃ trns, m.trns.add ⟨t, []⟩ = (J.hdrs.length, trns) ∧ R ⟨m.posts, trns⟩ { J with hdrs := J.hdrs ++ [t] } := by
  have hlen : m.trns.arena.length = J.hdrs.length := by rw [hR.trns]; simp
  refine ⟨_, by unfold IndexedTransactions.add; simp only [hlen]; rfl, ?_⟩
  constructor
  · refine ⟨?_, hR.wf.hasFp, hR.wf.noCand, hR.wf.unique⟩
    intro r hr
    have := hR.wf.owner r hr
    simp; omega
  · exact hR.arena
  · exact hR.byFp
  · exact hR.byDate
  · simp only [List.mapIdx_append, hR.trns]
    congr 1
    simp only [List.mapIdx_cons, List.mapIdx_nil, zero_add]
    congr 2
    symm
    apply List.eq_nil_iff_forall_not_mem.2
    intro i hi
    obtain ⟨r, hr, hk⟩ := mem_where.1 hi
    have := hR.wf.owner r (List.mem_of_getElem? hr)
    simp at hk; omega
  · intro d
    simp only [List.length_append, List.length_singleton, List.range_succ, List.filter_append]
    have hf : (List.range J.hdrs.length).filter (fun k => ((J.hdrs ++ [t])[k]?).any (fun h => h.raw.date = d)) =
        (List.range J.hdrs.length).filter (fun k => (J.hdrs[k]?).any (fun h => h.raw.date = d)) := by
      apply List.filter_congr
      intro k hk
      rw [List.getElem?_append_left (by simpa using hk)]
    rw [hf, Std.ExtTreeMap.getElem?_insert]
    simp only [hR.trnsByDate, optNE_getD]
    by_cases hd : t.raw.date = d
    · subst hd; simp [optNE_append]
    · have : ¬ compare t.raw.date d = .eq := by simpa using hd
      simp [this, hd]

/-! ### The whole call -/

theorem putTrn_hdrs_le (J₀ J : Book) (t : TransactionPostings) : J.hdrs.length ≤ (J₀.putTrn J t).hdrs.length := by
  unfold putTrn
  split
  · rfl
  · split
    · rw [putPosts_hdrs]
    · rw [putPosts_hdrs]; simp

theorem applyPending_spec (h : HashOrder) {J₀ : Book} (hJ₀ : J₀.WF) (ts : List TransactionPostings)
    {m : Merger} {J : Book} (hR : R m J) (hle : J₀.hdrs.length ≤ J.hdrs.length)
    (hok : ∀ p ∈ allPosts ts, PostOK p)
    (hc : ∀ t ∈ ts, ¬ Undecided J₀ t → ∀ p ∈ t.posts, Compat J p (J₀.verdict (dateOf t) p))
    (hpw : (allPosts ts).Pairwise (fun p q => ¬ SharesFp p q)) :
    ∃ m', Merger.applyPending h (ts.map (trnPlan J₀ h)) m =
        (.ok ((ts.filter (fun t => Undecided J₀ t)).map (J₀.handBack (pickFp h J₀))), m') ∧
      R m' (ts.foldl (J₀.putTrn ·) J) := by
  induction ts generalizing m J with
  | nil => exact ⟨m, rfl, hR⟩
  | cons t ts ih =>
    rw [allPosts_cons, List.pairwise_append] at hpw
    have hokt : ∀ p ∈ t.posts, PostOK p := fun p hp => hok p (by rw [allPosts_cons]; simp [hp])
    have hokr : ∀ p ∈ allPosts ts, PostOK p := fun p hp => hok p (by rw [allPosts_cons]; simp [hp])
    rw [List.map_cons, List.foldl_cons]
    by_cases hu : Undecided J₀ t
    · have hp : trnPlan J₀ h t = .leaveUnmerged (J₀.handBack (pickFp h J₀) t) := by unfold trnPlan; rw [if_pos hu]
      have hput : J₀.putTrn J t = J := by unfold putTrn; rw [if_pos hu]
      obtain ⟨m', hm', hR'⟩ := ih hR hle hokr (fun t' ht' => hc t' (by simp [ht'])) hpw.2.1
      refine ⟨m', ?_, by rw [hput]; exact hR'⟩
      rw [hp]
      unfold Merger.applyPending
      rw [hm']
      simp [hu]
    · have hct := hc t (by simp) hu
      have hcr : ∀ (J' : Book) (k : Nat), (∀ p v, Compat J p v → Compat J' p v) → ∀ t' ∈ ts, ¬ Undecided J₀ t' →
          ∀ p ∈ t'.posts, Compat (J'.putPosts k (dateOf t) t.posts (J₀.verdicts t)) p (J₀.verdict (dateOf t') p) := by
        intro J' k hJ' t' ht' hu' p hp
        apply (hJ' _ _ (hc t' (by simp [ht']) hu' p hp)).putPosts
        intro q hq
        exact hpw.2.2 q hq p (by unfold allPosts; exact List.mem_flatMap.2 ⟨t', ht', hp⟩)
      cases hd : (J₀.dests t).head?.bind J₀.trnOf with
      | some k =>
        have hk : k < J.hdrs.length := by
          obtain ⟨i, _, hik⟩ := Option.bind_eq_some_iff.1 hd
          unfold trnOf at hik
          obtain ⟨r, hr, rfl⟩ := Option.map_eq_some_iff.1 hik
          exact lt_of_lt_of_le (hJ₀.owner r (List.mem_of_getElem? hr)) hle
        have hp : trnPlan J₀ h t = .mergeInto ⟨⟨t.trn, []⟩, trnActions J₀ t⟩ k := by
          unfold trnPlan; rw [if_neg hu]; simp only [hd]
        have hput : J₀.putTrn J t = J.putPosts k (dateOf t) t.posts (J₀.verdicts t) := by
          unfold putTrn; rw [if_neg hu]; simp only [hd]
        obtain ⟨m₁, hm₁, hR₁⟩ := applyPosts_spec h k (dateOf t) (J₀.verdict (dateOf t)) t.posts hR hk hokt hct hpw.1
        obtain ⟨m', hm', hR'⟩ := ih hR₁ (by rw [putPosts_hdrs]; exact hle) hokr
          (hcr J k (fun _ _ h => h)) hpw.2.1
        refine ⟨m', ?_, by rw [hput]; exact hR'⟩
        rw [hp]
        unfold Merger.applyPending
        have hm₁' : Merger.applyPostActionsToTrn h k (trnActions J₀ t) m = (.ok (), m₁) := hm₁
        simp only [hm₁', hm']
        simp [hu]
      | none =>
        have hp : trnPlan J₀ h t = .new ⟨⟨t.trn, []⟩, trnActions J₀ t⟩ := by
          unfold trnPlan; rw [if_neg hu]; simp only [hd]
        have hput : J₀.putTrn J t = { J with hdrs := J.hdrs ++ [t.trn] }.putPosts J.hdrs.length (dateOf t) t.posts
            (J₀.verdicts t) := by
          unfold putTrn; rw [if_neg hu]; simp only [hd]
        obtain ⟨trns, ha, hRa⟩ := hR.addTrn t.trn
        obtain ⟨m₁, hm₁, hR₁⟩ := applyPosts_spec h J.hdrs.length (dateOf t) (J₀.verdict (dateOf t)) t.posts hRa
          (by simp) hokt (fun p hp => (hct p hp).hdrs _) hpw.1
        obtain ⟨m', hm', hR'⟩ := ih hR₁ (by rw [putPosts_hdrs]; simp; omega) hokr
          (hcr { J with hdrs := J.hdrs ++ [t.trn] } J.hdrs.length (fun _ _ h => h.hdrs _)) hpw.2.1
        refine ⟨m', ?_, by rw [hput]; exact hR'⟩
        rw [hp]
        unfold Merger.applyPending
        have hm₁' : Merger.applyPostActionsToTrn h J.hdrs.length (trnActions J₀ t) ⟨m.posts, trns⟩ = (.ok (), m₁) := hm₁
        simp only [ha, hm₁', hm']
        simp [hu]

theorem R_new : R Merger.new Book.empty := by
  constructor
  · exact ⟨by simp [Book.empty], by simp [Book.empty], by simp [Book.empty], by simp [Book.empty]⟩
  · rfl
  · intro f i; simp [Merger.new, IndexedPostings.new, Book.empty]
  · intro d; simp [Merger.new, IndexedPostings.new, Book.empty, where_, optNE]
  · rfl
  · intro d; simp [Merger.new, IndexedTransactions.new, Book.empty, optNE]

/-- The merger simulates the book. -/
theorem merge_spec {m : Merger} {J : Book} (hR : R m J) (h : HashOrder) (ts : List TransactionPostings) :
    (J.Bad ts ∧ ∃ e, m.merge h ts = (.error e, m) ∧ ErrMeans J ts e) ∨
    (¬ J.Bad ts ∧ ∃ m', m.merge h ts = (.ok (J.handedBack (pickFp h J) ts), m') ∧ R m' (J.after ts)) := by
  unfold Merger.merge
  rcases makePending_spec hR h ts with ⟨e, he, hm⟩ | ⟨he, hc⟩
  · left; rw [he]; exact ⟨hm.bad, e, rfl, hm⟩
  · rw [he]
    simp only
    rcases checkPending_spec hR h ts with ⟨h1, h2⟩ | ⟨h1, h2⟩
    · left
      rw [h1]
      have : ErrMeans J ts .sameDestination := h2
      exact ⟨this.bad, _, rfl, this⟩
    · right
      rw [h1]
      refine ⟨?_, ?_⟩
      · rintro (h | h | h | h | h | h)
        · obtain ⟨p, hp, t, ht, hct⟩ := h; exact (hc.ok p hp).1 t ht hct
        · obtain ⟨p, hp, hf⟩ := h; exact (hc.ok p hp).2 hf
        · exact h hc.disjoint
        · exact hc.noConflict h
        · exact hc.noSplit h
        · exact h2 h
      · refine applyPending_spec h hR.wf ts hR (le_refl _) hc.ok ?_ hc.disjoint
        intro t ht hu p hp
        have hv : J.verdict (dateOf t) p ∈ J.verdicts t := by unfold verdicts; exact List.mem_map.2 ⟨p, hp, rfl⟩
        apply compat_verdict
        · by_contra hne
          exact hu (Or.inr ⟨_, hv, by simpa using hne⟩)
        · intro he; rw [he] at hv; exact hc.noConflict ⟨t, ht, hv⟩

end Verif
