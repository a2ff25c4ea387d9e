import Verif.Spec.Edits
import Verif.Props.AgainCmd
import Verif.Props.Complete

/-!
# Proofs for C101: books and journals that keep what is in a file
-/

namespace Verif
open Spec Spec.Book

/-! ### One posting -/

theorem mem_mergedTags_iff {d s : TagSet} {t : Str} : t ∈ mergedTags d s ↔ (t ∈ d ∨ t ∈ s) ∧ (t = unknownTag → unknownTag ∈ d ∧ unknownTag ∈ s) := by
  unfold mergedTags
  split
  · rename_i h
    rw [Std.ExtTreeSet.mem_union_iff]
    exact ⟨fun h' => ⟨h', fun _ => h⟩, And.left⟩
  · rename_i h
    rw [Std.ExtTreeSet.mem_erase, Std.ExtTreeSet.mem_union_iff]
    have : compare unknownTag t ≠ .eq ↔ t ≠ unknownTag := by
      rw [not_iff_not, Std.LawfulEqOrd.compare_eq_iff_eq]
      exact eq_comm
    rw [this]
    constructor
    · rintro ⟨h1, h2⟩; exact ⟨h2, fun h3 => absurd h3 h1⟩
    · rintro ⟨h1, h2⟩; exact ⟨fun h3 => h (h2 h3), h1⟩

/-- Merging a posting changes nothing exactly if it has nothing new to tell. -/
theorem absorb_same_iff {d s : PostingInternal} : absorb d s = d ↔ NothingNew d s := by
  have htag : ∀ t, t ∈ tagsOf d ↔ t ∈ d.comment.tags := fun t => Iff.rfl
  constructor
  · intro h
    have hb := congrArg (·.raw.balance) h
    have hst := congrArg (·.raw.status) h
    have hl := congrArg (·.comment.lines) h
    have ht := congrArg (·.comment.tags) h
    have hv := congrArg (·.comment.valueTags) h
    simp only [absorb] at hb hst hl ht hv
    have ht' : ∀ t, t ∈ mergedTags d.comment.tags s.comment.tags ↔ t ∈ d.comment.tags := fun t => by rw [ht]
    simp only [mem_mergedTags_iff] at ht'
    refine ⟨?_, hst, ?_, ?_, ?_, ?_⟩
    · intro hd
      rw [hd, Option.none_or] at hb
      exact hb
    · intro l hls
      by_contra hn
      have hnil := List.append_right_eq_self.1 hl
      have : l ∈ (s.comment.lines.filter (fun l => decide (l ∉ d.comment.lines))).eraseDups :=
        List.mem_eraseDups.2 (List.mem_filter.2 ⟨hls, decide_eq_true hn⟩)
      rw [hnil] at this
      cases this
    · intro t hts hne
      exact (ht' t).1 ⟨.inr hts, fun e => absurd e hne⟩
    · intro hu
      exact (((ht' unknownTag).2 hu).2 rfl).2
    · intro k v hk
      rw [← hv, Std.ExtTreeMap.getElem?_union, hk]
      rfl
  · rintro ⟨h2, h3, h4, h5, h6, h7⟩
    obtain ⟨raw, cmt⟩ := d
    unfold absorb
    congr 1
    · have : ¬ (UnknownAccount ⟨raw, cmt⟩ ∧ ¬ UnknownAccount s) := fun h => h.2 (h6 h.1)
      rw [if_neg this]
      have hb : raw.balance.or s.raw.balance = raw.balance := by
        cases hb : raw.balance with
        | none => rw [Option.none_or]; exact h2 hb
        | some b => rfl
      simp only at h3
      rw [h3, hb]
    · obtain ⟨ls, ts, vs⟩ := cmt
      simp only at *
      congr 1
      · rw [List.append_right_eq_self]
        have : s.comment.lines.filter (fun l => decide (l ∉ ls)) = [] := by
          rw [List.filter_eq_nil_iff]
          intro l hl hn
          exact of_decide_eq_true hn (h4 l hl)
        rw [this]
        rfl
      · apply Std.ExtTreeSet.ext_mem
        intro t
        rw [mem_mergedTags_iff]
        constructor
        · rintro ⟨h | h, hu⟩
          · exact h
          · by_cases e : t = unknownTag
            · rw [e]; exact (hu e).1
            · exact h5 t h e
        · intro h
          refine ⟨.inl h, fun e => ?_⟩
          rw [e] at h
          exact ⟨h, h6 h⟩
      · apply Std.ExtTreeMap.ext_getElem?
        intro k
        rw [Std.ExtTreeMap.getElem?_union]
        cases hk : s.comment.valueTags[k]? with
        | none => rfl
        | some v => rw [h7 k v hk]; rfl

/-! ### Books -/

theorem mem_entries_posts {J : Book} (hw : J.WF) {r : Rec} (hr : r ∈ J.recs) :
    ∃ u, J.entries[r.trn]? = some u ∧ r.post ∈ u.posts := by
  have hlt := hw.owner r hr
  refine ⟨_, by unfold Spec.Book.entries; rw [List.getElem?_mapIdx, List.getElem?_eq_getElem hlt, Option.map_some], ?_⟩
  exact List.mem_map.2 ⟨r, List.mem_filter.2 ⟨hr, decide_eq_true rfl⟩, rfl⟩

theorem entries_posts {J : Book} {k : Nat} {u : TransactionPostings} (hu : J.entries[k]? = some u) {q : PostingInternal} (hq : q ∈ u.posts) :
    ∃ r ∈ J.recs, r.trn = k ∧ r.post = q := by
  unfold Spec.Book.entries at hu
  rw [List.getElem?_mapIdx] at hu
  cases hh : J.hdrs[k]? with
  | none => rw [hh] at hu; cases hu
  | some hd =>
    rw [hh, Option.map_some] at hu
    cases hu
    obtain ⟨r, hr, rfl⟩ := List.mem_map.1 hq
    obtain ⟨h1, h2⟩ := List.mem_filter.1 hr
    exact ⟨r, h1, of_decide_eq_true h2, rfl⟩

/-- A book is settled with a file exactly if its entries keep what is in the file. -/
theorem settled_iff {J : Book} (hw : J.WF) {g : List TransactionPostings} :
    Settled J g ↔ InOrder g ∧ Keeps g J.entries := by
  constructor
  · intro h
    refine ⟨⟨h.nonempty, fun p hp => (h.ok p hp).1, fun p hp => (h.ok p hp).2, h.disjoint⟩, ?_, ?_⟩
    · intro t ht
      obtain ⟨k, hk⟩ := h.home t ht
      obtain ⟨p, hp⟩ := List.exists_mem_of_ne_nil _ (h.nonempty t ht)
      obtain ⟨i, r, hr, rfl, _⟩ := hk p hp
      obtain ⟨u, hu, _⟩ := mem_entries_posts hw (List.mem_of_getElem? hr)
      refine ⟨u, List.mem_of_getElem? hu, fun p hp => ?_⟩
      obtain ⟨i', r', hr', hrt, hf⟩ := hk p hp
      obtain ⟨u', hu', hp'⟩ := mem_entries_posts hw (List.mem_of_getElem? hr')
      rw [hrt, hu] at hu'
      cases hu'
      exact ⟨r'.post, hp', hf⟩
    · intro p hp p' hp' q hq h1 h2
      obtain ⟨u, hu, hq⟩ := mem_allPosts.1 hq
      obtain ⟨k, hk⟩ := List.mem_iff_getElem?.1 hu
      obtain ⟨r, hr, _, rfl⟩ := entries_posts hk hq
      obtain ⟨i, hi⟩ := List.mem_iff_getElem?.1 hr
      exact h.apart p hp p' hp' i r hi h1 h2
  · rintro ⟨ho, hk⟩
    refine ⟨fun p hp => ⟨ho.clean p hp, ho.marked p hp⟩, ho.distinct, ho.nonempty, ?_, ?_⟩
    · intro t ht
      obtain ⟨u, hu, hq⟩ := hk.together t ht
      obtain ⟨k, hk'⟩ := List.mem_iff_getElem?.1 hu
      refine ⟨k, fun p hp => ?_⟩
      obtain ⟨q, hq, hf⟩ := hq p hp
      obtain ⟨r, hr, hrk, rfl⟩ := entries_posts hk' hq
      obtain ⟨i, hi⟩ := List.mem_iff_getElem?.1 hr
      exact ⟨i, r, hi, hrk, hf⟩
    · intro p hp p' hp' i r hr h1 h2
      obtain ⟨u, hu, hq⟩ := mem_entries_posts hw (List.mem_of_getElem? hr)
      exact hk.apart p hp p' hp' r.post (mem_allPosts.2 ⟨u, List.mem_of_getElem? hu, hq⟩) h1 h2

theorem Spec.Keeps.perm {A B B' : List TransactionPostings} (h : Keeps A B) (hp : B.Perm B') : Keeps A B' := by
  refine ⟨fun t ht => ?_, fun p hpp p' hp' q hq => ?_⟩
  · obtain ⟨u, hu, hq⟩ := h.together t ht
    exact ⟨u, hp.mem_iff.1 hu, hq⟩
  · obtain ⟨u, hu, hqu⟩ := mem_allPosts.1 hq
    exact h.apart p hpp p' hp' q (mem_allPosts.2 ⟨u, hp.mem_iff.2 hu, hqu⟩)

/-- What is found in a journal is found in every journal that keeps that one. -/
theorem Spec.Keeps.trans {A B C : List TransactionPostings} (hA : ∀ p ∈ allPosts A, fps p ≠ []) (h : Keeps A B) (h' : Keeps B C) : Keeps A C := by
  refine ⟨fun t ht => ?_, ?_⟩
  · obtain ⟨u, hu, hq⟩ := h.together t ht
    obtain ⟨v, hv, hr⟩ := h'.together u hu
    refine ⟨v, hv, fun p hp => ?_⟩
    obtain ⟨q, hqu, hf⟩ := hq p hp
    obtain ⟨r, hrv, hf'⟩ := hr q hqu
    exact ⟨r, hrv, fun f hfp => hf' f (hf f hfp)⟩
  · intro p hp p' hp' r hr h1 h2
    have home : ∀ p ∈ allPosts A, ∃ q ∈ allPosts B, ∀ f ∈ fps p, f ∈ fps q := by
      intro p hp
      obtain ⟨t, ht, hpt⟩ := mem_allPosts.1 hp
      obtain ⟨u, hu, hq⟩ := h.together t ht
      obtain ⟨q, hqu, hf⟩ := hq p hpt
      exact ⟨q, mem_allPosts.2 ⟨u, hu, hqu⟩, hf⟩
    have up : ∀ {p q : PostingInternal}, (∀ f ∈ fps p, f ∈ fps q) → SharesFp r p → SharesFp r q := by
      rintro p q hf ⟨f, h1, h2⟩
      exact ⟨f, h1, hf f h2⟩
    obtain ⟨q, hq, hf⟩ := home p hp
    obtain ⟨q', hq', hf'⟩ := home p' hp'
    have e := h'.apart q hq q' hq' r hr (up hf h1) (up hf' h2)
    subst e
    have shares : ∀ p ∈ allPosts A, (∀ f ∈ fps p, f ∈ fps q) → SharesFp q p := by
      intro p hp hf
      obtain ⟨f, hfp⟩ := List.exists_mem_of_ne_nil _ (hA p hp)
      exact ⟨f, hf f hfp, hfp⟩
    exact h.apart p hp p' hp' q hq (shares p hp hf) (shares p' hp' hf')

/-- What a settled file brings in. -/
theorem Settled.hits_eq {J : Book} {g : List TransactionPostings} (hs : Settled J g) (hw : J.WF) {i : Nat} {r : Rec} (hr : J.recs[i]? = some r) :
    J.hits g i = (allPosts g).filter fun p => SharesFp r.post p := by
  unfold Spec.Book.hits allPosts
  rw [List.filter_flatMap]
  apply List.flatMap_congr
  intro t ht
  unfold trnHits
  rw [if_neg (hs.decided hw ht)]
  apply List.filter_congr
  intro p hp
  obtain ⟨j, r', hr', hf, hv⟩ := hs.verdict hw (dateOf t) (mem_allPosts.2 ⟨t, ht, hp⟩)
  obtain ⟨f, hfp⟩ := List.exists_mem_of_ne_nil _ (hs.ok p (mem_allPosts.2 ⟨t, ht, hp⟩)).2
  rw [hv, decide_eq_decide, Verdict.into.injEq]
  constructor
  · rintro rfl
    rw [hr] at hr'
    cases hr'
    exact ⟨f, hf f hfp, hfp⟩
  · rintro ⟨f', h1, h2⟩
    exact hw.unique j i r' r hr' hr ⟨f', hf f' h2, h1⟩

theorem Settled.after_entries {J : Book} {g : List TransactionPostings} (hs : Settled J g) (hw : J.WF) :
    (J.after g).entries = broughtInto J.entries g := by
  obtain ⟨h1, h2⟩ := hs.after_eq hw
  have h3 : (J.after g).recs = J.recs.map fun r => { r with post := broughtIn g r.post } := by
    rw [h2]
    apply List.ext_getElem?
    intro i
    rw [List.getElem?_mapIdx, List.getElem?_map]
    cases hr : J.recs[i]? with
    | none => rfl
    | some r =>
      simp only [Option.map_some, Option.some.injEq]
      rw [hs.hits_eq hw hr]
      rfl
  unfold Spec.Book.entries broughtInto
  rw [h1, h3]
  apply List.ext_getElem?
  intro k
  rw [List.getElem?_map, List.getElem?_mapIdx, List.getElem?_mapIdx]
  cases J.hdrs[k]? with
  | none => rfl
  | some hd =>
    simp only [Option.map_some, Option.some.injEq, TransactionPostings.mk.injEq, true_and]
    rw [List.filter_map, List.map_map, List.map_map]
    rfl

theorem after_reached {J : Book} (hJ : Reached J) {g : List TransactionPostings} (hs : Settled J g) : Reached (J.after g) :=
  hJ.after (good_iff.1 (hs.good hJ.wf))

/-- Files that a book is settled with, merged into it one after the other. -/
theorem settled_calls {J : Book} (hJ : Reached J) {gs : List (List TransactionPostings)} (hs : ∀ g ∈ gs, Settled J g) :
    ¬ Refused J gs ∧ leftOver J gs = [] ∧ (gs.foldl Book.after J).entries = gs.foldl broughtInto J.entries := by
  induction gs generalizing J with
  | nil => exact ⟨id, rfl, rfl⟩
  | cons g gs ih =>
    have hg := hs g List.mem_cons_self
    have hr := after_reached hJ hg
    have hb := good_iff.1 (hg.good hJ.wf)
    obtain ⟨k1, k2, k3⟩ := ih hr fun g' hg' => (hs g' (List.mem_cons_of_mem _ hg')).mono (ext_after J g) hr.wf
    refine ⟨fun hx => hx.elim hb k1, leftOver_cons_nil.2 ⟨fun t ht => hg.decided hJ.wf ht, k2⟩, ?_⟩
    rw [List.foldl_cons, List.foldl_cons, k3, hg.after_entries hJ.wf]

/-- Files that were merged with nothing left over: the book is settled with them. -/
theorem settled_of_calls {J : Book} (hJ : Reached J) {gs : List (List TransactionPostings)} (hb : ¬ Refused J gs) (hl : leftOver J gs = []) :
    ∀ g ∈ gs, Settled (gs.foldl Book.after J) g := by
  induction gs generalizing J with
  | nil => intro g hg; cases hg
  | cons g gs ih =>
    obtain ⟨hn, hl⟩ := leftOver_cons_nil.1 hl
    have hb1 : ¬ J.Bad g := fun h => hb (.inl h)
    have hr := hJ.after hb1
    have hs := settled_after (good_iff.2 hb1) hn
    intro g' hg'
    rcases List.mem_cons.1 hg' with rfl | hg'
    · exact hs.mono (ext_calls _ _) (reached_calls hr fun h => hb (.inr h)).wf
    · exact ih hr (fun h => hb (.inr h)) hl g' hg'

end Verif
