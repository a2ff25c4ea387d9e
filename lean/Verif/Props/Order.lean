import Verif.Proofs.Order

/-!
# C80: two files, merged in either order
-/

namespace Verif
open Spec Spec.Book

theorem nodup_of_posts {ts : List TransactionPostings} (hne : ∀ t ∈ ts, t.posts ≠ []) (h : (allPosts ts).Nodup) : ts.Nodup := by
  unfold allPosts at h
  rw [List.nodup_flatMap] at h
  refine h.2.imp_of_mem ?_
  rintro t u ht _ hd rfl
  obtain ⟨p, hp⟩ := List.exists_mem_of_ne_nil _ (hne t ht)
  exact hd hp hp

namespace OneAfter
variable {A B : List TransactionPostings}

theorem nodupPosts (h : OneAfter A B) {t : TransactionPostings} (ht : t ∈ A) : t.posts.Nodup := by
  have := h.goodA.nodup
  unfold allPosts at this
  rw [List.nodup_flatMap] at this
  exact this.1 t ht

theorem pairsTrn_symm (h : OneAfter A B) {t u : TransactionPostings} (hx : PairsTrn A B t u) : PairsTrn B A u t := by
  obtain ⟨p, hp, q, hq, hx⟩ := hx
  exact ⟨q, hq, p, hp, h.pairs_symm hx⟩

theorem grown_alone {t : TransactionPostings} (hn : ∀ u ∈ B, ¬ PairsTrn A B t u) : grown A B t = t := by
  classical
  have h1 : t.posts.map (merged A B) = t.posts := by
    conv_rhs => rw [← List.map_id t.posts]
    refine List.map_congr_left fun p hp => merged_none fun q hx => ?_
    have hy := hx
    obtain ⟨_, _, _, u, hu, hq, _⟩ := hy
    exact hn u hu ⟨p, hp, q, hq, hx⟩
  have h2 : (B.filter fun u => PairsTrn A B t u) = [] := by
    rw [List.filter_eq_nil_iff]
    intro u hu
    rw [decide_eq_true_iff]
    exact hn u hu
  unfold grown
  rw [h1, h2]
  simp

open Classical in
theorem grown_of (h' : OneAfter B A) (h : OneAfter A B) {t u : TransactionPostings} (ht : t ∈ A) (hu : u ∈ B)
    (hx : PairsTrn A B t u) :
    grown A B t = ⟨t.trn, t.posts.map (merged A B) ++ u.posts.filter fun q => ¬ ∃ p ∈ t.posts, Pairs A B p q⟩ := by
  have e : (B.filter fun u => PairsTrn A B t u) = [u] := by
    refine eq_singleton_of_nodup ((nodup_of_posts h'.ne h'.goodA.nodup).filter _) ?_ ?_
    · rw [List.mem_filter, decide_eq_true_iff]; exact ⟨hu, hx⟩
    · intro v hv
      rw [List.mem_filter, decide_eq_true_iff] at hv
      exact h'.trn_left_unique hv.1 hu ht (h.pairsTrn_symm hv.2) (h.pairsTrn_symm hx)
  unfold grown
  rw [e]
  simp

/-- Two transactions that are merged. -/
theorem sameMerged (h : OneAfter A B) (h' : OneAfter B A) {t u : TransactionPostings} (ht : t ∈ A) (hu : u ∈ B) (hx : PairsTrn A B t u) :
    SameMerged A B (grown A B t) (grown B A u) := by
  classical
  right
  rw [grown_of h' h ht hu hx, grown_of h h' hu ht (h.pairsTrn_symm hx)]
  refine ⟨t, ht, u, hu, rfl, rfl, ?_⟩
  have hsym : ∀ p q, Pairs B A q p ↔ Pairs A B p q := fun p q => ⟨h'.pairs_symm, h.pairs_symm⟩
  have hw := either_way (a := t.posts) (b := u.posts) (M := Pairs A B) (R := EitherWay t u) (f := merged A B) (g := merged B A)
    (i := id) (j := id) (h.nodupPosts ht) (h'.nodupPosts hu)
    (fun _ _ _ _ _ _ a b => h.pairs_right_unique a b)
    (fun _ _ _ _ _ _ a b => h.pairs_left_unique a b)
    (by
      intro p hp q hq hy
      rw [h.merged_of hy, h'.merged_of (h.pairs_symm hy)]
      refine .inr ⟨p, hp, q, hq, rfl, rfl, ?_⟩
      obtain ⟨t', ht', hp', u', hu', hq', hy⟩ := hy
      rw [← h.home ht ht' hp hp', ← h.homeB hu hu' hq hq'] at hy
      rcases hy with hy | ⟨_, h2, h3⟩
      · exact .inl hy
      · exact .inr ⟨h2, h3⟩)
    (by
      intro p hp hn
      have hm : merged A B p = p := by
        refine merged_none fun q hy => ?_
        have hz := hy
        obtain ⟨t', ht', hp', u', hu', hq', _⟩ := hz
        have e := h.home ht ht' hp hp'
        subst e
        have e := h'.trn_left_unique hu hu' ht (h.pairsTrn_symm hx) (h.pairsTrn_symm ⟨p, hp, q, hq', hy⟩)
        subst e
        exact hn q hq' hy
      rw [hm]
      exact .inl ⟨rfl, List.mem_append_left _ hp⟩)
    (by
      intro q hq hn
      refine .inl ⟨?_, List.mem_append_right _ hq⟩
      rw [merged_none fun p hy => ?_]
      · rfl
      · have hy := (hsym p q).1 hy
        have hz := hy
        obtain ⟨t', ht', hp', u', hu', hq', _⟩ := hz
        have e := h.homeB hu hu' hq hq'
        subst e
        have e := h.trn_left_unique ht ht' hu hx ⟨p, hp', q, hq, hy⟩
        subst e
        exact hn p hp' hy)
  simp only [List.map_id] at hw
  have e : (t.posts.filter fun p => ¬ ∃ q ∈ u.posts, Pairs B A q p) = t.posts.filter fun p => ¬ ∃ q ∈ u.posts, Pairs A B p q := by
    apply List.filter_congr
    intro p _
    rw [decide_eq_decide]
    simp only [hsym]
  simp only [e]
  exact hw

/-- The two books. -/
theorem either (h : OneAfter A B) (h' : OneAfter B A) :
    ∃ l, l.Perm ((Book.empty.after B).after A).entries ∧ List.Forall₂ (SameMerged A B) ((Book.empty.after A).after B).entries l := by
  classical
  have hw := either_way (a := A) (b := B) (M := PairsTrn A B) (R := SameMerged A B) (f := grown A B) (g := grown B A)
    (i := id) (j := id) (nodup_of_posts h.ne h.goodA.nodup) (nodup_of_posts h'.ne h'.goodA.nodup)
    (fun t ht u hu u' hu' a b => h'.trn_left_unique hu hu' ht (h.pairsTrn_symm a) (h.pairsTrn_symm b))
    (fun t ht t' ht' u hu a b => h.trn_left_unique ht ht' hu a b)
    (fun t ht u hu hx => h.sameMerged h' ht hu hx)
    (by
      intro t ht hn
      rw [grown_alone hn]
      exact .inl ⟨rfl, List.mem_append_left _ ht⟩)
    (by
      intro u hu hn
      rw [grown_alone fun t ht hx => hn t ht (h'.pairsTrn_symm hx)]
      exact .inl ⟨rfl, List.mem_append_right _ hu⟩)
  simp only [List.map_id] at hw
  rw [h.entries, h'.entries]
  have e : (A.filter fun t => ¬ ∃ u ∈ B, PairsTrn B A u t) = A.filter fun t => ¬ ∃ u ∈ B, PairsTrn A B t u := by
    apply List.filter_congr
    intro t _
    rw [decide_eq_decide]
    exact not_congr ⟨fun ⟨u, hu, hx⟩ => ⟨u, hu, h'.pairsTrn_symm hx⟩, fun ⟨u, hu, hx⟩ => ⟨u, hu, h.pairsTrn_symm hx⟩⟩
  rw [e]
  exact hw

theorem of_merge {h₁ h₂ : HashOrder} {m₁ m₂ : Merger} (ha : Merger.new.merge h₁ A = (.ok [], m₁)) (hb : m₁.merge h₂ B = (.ok [], m₂)) :
    OneAfter A B ∧ R m₂ ((Book.empty.after A).after B) := by
  obtain ⟨a1, a2, a3⟩ := merge_ok R_new ha
  obtain ⟨b1, b2, b3⟩ := merge_ok a3 hb
  have hu := handedBack_nil_iff.1 a2.symm
  exact ⟨⟨fun t ht he => hu t ht (.inl he), good_iff.2 a1, good_iff.2 b1, handedBack_nil_iff.1 b2.symm⟩, b3⟩


theorem single (h : OneAfter A B) : OneAfter B [] where
  ne := h.neB
  goodA := good_empty h.good.ok h.good.disjoint
  good := ⟨by simp [allPosts], by simp [allPosts], fun ⟨_, h, _⟩ => (List.not_mem_nil h).elim,
    fun ⟨_, h, _⟩ => (List.not_mem_nil h).elim, by simp [allDests]⟩
  dec := by simp

theorem pairsTrn_iff (h : OneAfter A B) {t u : TransactionPostings} (ht : t ∈ A) (hu : u ∈ B) : TakenTrn A t u ↔ PairsTrn A B t u := by
  constructor
  · rintro ⟨p, hp, q, hq, hx⟩
    exact ⟨p, hp, q, hq, t, ht, hp, u, hu, hq, hx⟩
  · rintro ⟨p, hp, q, hq, t', ht', hp', u', hu', hq', hx⟩
    rw [← h.home ht ht' hp hp', ← h.homeB hu hu' hq hq'] at hx
    exact ⟨p, hp, q, hq, hx⟩

/-- A file without rivals in the other. -/
theorem taken_back (hr : NoRival A B) {t u : TransactionPostings} (ht : t ∈ A) (hu : u ∈ B) {p q : PostingInternal}
    (hp : p ∈ t.posts) (hq : q ∈ u.posts) (hx : Taken B u q t p) : Pairs A B p q := by
  refine ⟨t, ht, hp, u, hu, hq, ?_⟩
  rcases hx with hx | ⟨h1, h2, h3⟩
  · exact .inl (sharesFp_comm.1 hx)
  · have h3 := softMatch_comm h3
    exact .inr ⟨hr t ht p hp (fun q' hq' hs => h1 q' hq' (sharesFp_comm.1 hs)) u hu h2 q hq h3, h2.symm, h3⟩

/-- The other file first: a posting is never taken for two. -/
theorem back_unique (h : OneAfter A B) (hr : NoRival A B) {t : TransactionPostings} (ht : t ∈ A) {p : PostingInternal} (hp : p ∈ t.posts)
    {i j : Nat} {r s : Rec} (hi : (Book.empty.after B).recs[i]? = some r) (hj : (Book.empty.after B).recs[j]? = some s)
    (hx : ∀ x, x = r ∨ x = s → SharesFp x.post p ∨ (∀ r' ∈ (Book.empty.after B).recs, ¬ SharesFp r'.post p) ∧ x.date = dateOf t ∧ SoftMatch x.post p) :
    i = j := by
  have hk := h.single
  have key : ∀ x, x ∈ (Book.empty.after B).recs → (x = r ∨ x = s) → Pairs A B p x.post := by
    intro x hm hxx
    obtain ⟨u, hu, hd, hq⟩ := hk.recOf hm
    exact taken_back hr ht (List.mem_of_getElem? hu) hp hq ((hk.taken_iff hd).1 (hx x hxx))
  have he := h.pairs_right_unique (key r (List.mem_of_getElem? hi) (.inl rfl)) (key s (List.mem_of_getElem? hj) (.inr rfl))
  refine hk.wf.unique i j r s hi hj ?_
  rw [he]
  exact sharesFp_self (hk.wf.hasFp s (List.mem_of_getElem? hj))

theorem two_members {α : Type} {l : List α} (hn : l.Nodup) {a b : α} {l' : List α} (he : l = a :: b :: l') : a ≠ b ∧ a ∈ l ∧ b ∈ l := by
  subst he
  refine ⟨?_, by simp, by simp⟩
  rintro rfl
  simp at hn

theorem back_clear (h : OneAfter A B) (hr : NoRival A B) {t : TransactionPostings} (ht : t ∈ A) {p : PostingInternal} (hp : p ∈ t.posts) :
    ((Book.empty.after B).verdict (dateOf t) p).isAmbiguous = false ∧ (Book.empty.after B).verdict (dateOf t) p ≠ .conflict := by
  unfold verdict
  split
  · exact ⟨rfl, by simp⟩
  · rename_i i j l hl
    exfalso
    obtain ⟨hne, h1, h2⟩ := two_members (where_nodup _ _ : ((Book.empty.after B).fpHits p).Nodup) hl
    obtain ⟨r, hi, hs⟩ := mem_fpHits.1 h1
    obtain ⟨r', hj, hs'⟩ := mem_fpHits.1 h2
    refine hne (h.back_unique hr ht hp hi hj ?_)
    rintro x (rfl | rfl)
    · exact .inl hs
    · exact .inl hs'
  · rename_i hl
    have hn := fpHits_nil_iff.1 hl
    split
    · exact ⟨rfl, by simp⟩
    · exact ⟨rfl, by simp⟩
    · rename_i is h0 h1
      exfalso
      match hs : (Book.empty.after B).softHits (dateOf t) p with
      | [] => exact h0 hs
      | [i] => exact h1 i hs
      | i :: j :: l =>
        obtain ⟨hne, h1, h2⟩ := two_members (where_nodup _ _ : ((Book.empty.after B).softHits (dateOf t) p).Nodup) hs
        obtain ⟨r, hi, hs⟩ := mem_softHits.1 h1
        obtain ⟨r', hj, hs'⟩ := mem_softHits.1 h2
        refine hne (h.back_unique hr ht hp hi hj ?_)
        rintro x (rfl | rfl)
        · exact .inr ⟨hn, hs⟩
        · exact .inr ⟨hn, hs'⟩

theorem back_pairs (h : OneAfter A B) (hr : NoRival A B) {t : TransactionPostings} (ht : t ∈ A) {p : PostingInternal} (hp : p ∈ t.posts)
    {j : Nat} (hv : (Book.empty.after B).verdict (dateOf t) p = .into j) :
    ∃ r u, (Book.empty.after B).recs[j]? = some r ∧ B[r.trn]? = some u ∧ r.post ∈ u.posts ∧ Pairs A B p r.post := by
  obtain ⟨h1, h2⟩ := h.back_clear hr ht hp
  have hlt := verdict_into_lt hv
  have hj := List.getElem?_eq_getElem hlt
  obtain ⟨u, hu, hd, hq⟩ := h.single.recOf (List.mem_of_getElem? hj)
  exact ⟨_, u, hj, hu, hq, taken_back hr ht (List.mem_of_getElem? hu) hp hq ((h.single.taken_iff hd).1 ((into_iff h1 h2 hj).1 hv))⟩

theorem hits_sublist (J : Book) (ts : List TransactionPostings) (i : Nat) : (J.hits ts i).Sublist (allPosts ts) := by
  unfold hits allPosts
  induction ts with
  | nil => simp
  | cons t ts ih =>
    rw [List.flatMap_cons, List.flatMap_cons]
    refine List.Sublist.append ?_ ih
    unfold trnHits
    split
    · exact List.nil_sublist _
    · exact List.filter_sublist

/-- If the one order succeeds, then so does the other, under two conditions. -/
theorem back (h : OneAfter A B) (hr : NoRival A B) (ho : OneEach A B) : OneAfter B A where
  ne := h.neB
  goodA := h.single.goodA
  good := by
    refine ⟨h.goodA.ok, h.goodA.disjoint, ?_, ?_, ?_⟩
    · rintro ⟨t, ht, hv⟩
      obtain ⟨p, hp, hv⟩ := List.mem_map.1 hv
      exact (h.back_clear hr ht hp).2 hv
    · rintro ⟨t, ht, _, i, hi, j, hj, hne⟩
      obtain ⟨p, hp, hv⟩ := mem_dests.1 hi
      obtain ⟨p', hp', hv'⟩ := mem_dests.1 hj
      obtain ⟨r, u, hri, hu, hq, hx⟩ := h.back_pairs hr ht hp hv
      obtain ⟨r', u', hrj, hu', hq', hx'⟩ := h.back_pairs hr ht hp' hv'
      have e := ho t ht u (List.mem_of_getElem? hu) u' (List.mem_of_getElem? hu')
        ((h.pairsTrn_iff ht (List.mem_of_getElem? hu)).2 ⟨p, hp, _, hq, hx⟩)
        ((h.pairsTrn_iff ht (List.mem_of_getElem? hu')).2 ⟨p', hp', _, hq', hx'⟩)
      subst e
      have hn := nodup_of_posts h.neB h.single.goodA.nodup
      have e : r.trn = r'.trn := by
        obtain ⟨hl, he⟩ := List.getElem?_eq_some_iff.1 hu
        obtain ⟨hl', he'⟩ := List.getElem?_eq_some_iff.1 hu'
        exact (hn.getElem_inj_iff).1 (he.trans he'.symm)
      apply hne
      rw [trnOf, trnOf, hri, hrj, Option.map_some, Option.map_some, e]
    · rw [List.nodup_iff_count_le_one]
      intro i
      rw [count_allDests]
      match hl : (Book.empty.after B).hits A i with
      | [] => simp
      | [_] => simp
      | a :: b :: l =>
        exfalso
        obtain ⟨hne, h1, h2⟩ := two_members (h.goodA.nodup.sublist (hits_sublist _ _ _)) hl
        obtain ⟨t, ht, _, hp, hv⟩ := mem_hits.1 h1
        obtain ⟨t', ht', _, hp', hv'⟩ := mem_hits.1 h2
        obtain ⟨r, u, hri, hu, hq, hx⟩ := h.back_pairs hr ht hp hv
        obtain ⟨r', u', hrj, hu', hq', hx'⟩ := h.back_pairs hr ht' hp' hv'
        rw [hri] at hrj
        cases hrj
        exact hne (h.pairs_left_unique hx hx')
  dec := by
    rintro t ht (he | ⟨v, hv, ha⟩)
    · exact h.ne t ht he
    · obtain ⟨p, hp, rfl⟩ := List.mem_map.1 hv
      rw [(h.back_clear hr ht hp).1] at ha
      cases ha

theorem noRival (h' : OneAfter B A) : NoRival A B := by
  intro t ht p hp hn u hu hd q hq hs p' hp' hs'
  obtain ⟨t', ht', hp'⟩ := mem_allPosts.1 hp'
  have x : Pairs B A q p := ⟨u, hu, hq, t, ht, hp, .inr ⟨fun q' hq' hx => hn q' hq' (sharesFp_comm.1 hx), hd, softMatch_comm hs⟩⟩
  have y : Pairs B A q p' := ⟨u, hu, hq, t', ht', hp', .inl (sharesFp_comm.1 hs')⟩
  have e := h'.pairs_right_unique x y
  subst e
  exact hn q (mem_allPosts.2 ⟨u, hu, hq⟩) hs'

theorem oneEach (h : OneAfter A B) (h' : OneAfter B A) : OneEach A B := by
  intro t ht u hu u' hu' a b
  exact h'.trn_left_unique hu hu' ht (h.pairsTrn_symm ((h.pairsTrn_iff ht hu).1 a)) (h.pairsTrn_symm ((h.pairsTrn_iff ht hu').1 b))

theorem merge_of (h : OneAfter A B) (h₁ h₂ : HashOrder) : ∃ m₁ m₂, Merger.new.merge h₁ A = (.ok [], m₁) ∧ m₁.merge h₂ B = (.ok [], m₂) := by
  rcases merge_spec R_new h₁ A with ⟨hb, _⟩ | ⟨_, m₁, e₁, hR⟩
  · exact absurd hb (good_iff.1 h.goodA)
  · rcases merge_spec hR h₂ B with ⟨hb, _⟩ | ⟨_, m₂, e₂, _⟩
    · exact absurd hb (good_iff.1 h.good)
    · rw [handedBack_nil_iff.2 fun t ht hu => h.ne t ht (empty_undecided.1 hu)] at e₁
      rw [handedBack_nil_iff.2 h.dec] at e₂
      exact ⟨m₁, m₂, e₁, e₂⟩

end OneAfter

/-- C80: if two files can be merged in either order, and nothing is handed back, then the two journals have the same transactions, but for
their order: those of one file alone are the same, and those that were merged have the same postings, but for their order, and but for
which of two postings was merged into the other. -/
theorem C80_either_order (h₁ h₂ h₃ h₄ h₅ h₆ : HashOrder) (A B X Y : List TransactionPostings) (m₁ m₂ m₃ m₄ : Merger)
    (ha : Merger.new.merge h₁ A = (.ok [], m₁)) (hab : m₁.merge h₂ B = (.ok [], m₂)) (hx : m₂.build h₃ = .ok X)
    (hb : Merger.new.merge h₄ B = (.ok [], m₃)) (hba : m₃.merge h₅ A = (.ok [], m₄)) (hy : m₄.build h₆ = .ok Y) :
    ∃ Y', Y'.Perm Y ∧ List.Forall₂ (SameMerged A B) X Y' := by
  obtain ⟨hA, hR⟩ := OneAfter.of_merge ha hab
  obtain ⟨hB, hR'⟩ := OneAfter.of_merge hb hba
  rw [hR.build] at hx
  rw [hR'.build] at hy
  cases hx
  cases hy
  obtain ⟨l, hl, hf⟩ := hA.either hB
  obtain ⟨v, hv, hp⟩ := List.perm_comp_forall₂ (journal_perm _) hf
  exact ⟨v, hp.trans (hl.trans (journal_perm _).symm), hv⟩

/-- C80, exactly: if `B` can be merged after `A` and nothing is handed back, then the same holds for `A` after `B` if, and only if, no posting of `A`
is a rival, by what it says, of one that goes by its fingerprint, and no transaction of `A` is met by two of `B`. -/
theorem C80_exact (h₁ h₂ h₃ h₄ : HashOrder) (A B : List TransactionPostings) (m₁ m₂ : Merger)
    (ha : Merger.new.merge h₁ A = (.ok [], m₁)) (hab : m₁.merge h₂ B = (.ok [], m₂)) :
    (∃ m₃ m₄, Merger.new.merge h₃ B = (.ok [], m₃) ∧ m₃.merge h₄ A = (.ok [], m₄)) ↔ NoRival A B ∧ OneEach A B := by
  have h := (OneAfter.of_merge ha hab).1
  constructor
  · rintro ⟨m₃, m₄, hb, hba⟩
    have h' := (OneAfter.of_merge hb hba).1
    exact ⟨OneAfter.noRival h', h.oneEach h'⟩
  · rintro ⟨hr, ho⟩
    exact (h.back hr ho).merge_of h₃ h₄

/-- C80, the postings: which of two postings is merged into the other makes no difference to the tags, the status, the set of lines and of value
tags of the comment. -/
theorem C80_postings (p q : PostingInternal) :
    (absorb p q).comment.tags = (absorb q p).comment.tags ∧ (absorb p q).raw.status = (absorb q p).raw.status ∧
    (∀ l, l ∈ (absorb p q).comment.lines ↔ l ∈ (absorb q p).comment.lines) ∧
    (∀ k, k ∈ (absorb p q).comment.valueTags ↔ k ∈ (absorb q p).comment.valueTags) := by
  refine ⟨?_, ?_, fun l => ?_, fun k => ?_⟩
  · apply Std.ExtTreeSet.ext_mem
    intro t
    show t ∈ mergedTags p.comment.tags q.comment.tags ↔ t ∈ mergedTags q.comment.tags p.comment.tags
    rw [mem_mergedTags, mem_mergedTags]
    split
    · exact and_comm
    · exact or_comm
  · show strongest _ _ = strongest _ _
    generalize p.raw.status = a
    generalize q.raw.status = b
    rcases a with _ | _ | _ <;> rcases b with _ | _ | _ <;> rfl
  · show l ∈ p.comment.lines ++ (q.comment.lines.filter (fun l => l ∉ p.comment.lines)).eraseDups ↔
      l ∈ q.comment.lines ++ (p.comment.lines.filter (fun l => l ∉ q.comment.lines)).eraseDups
    simp only [List.mem_append, List.mem_eraseDups, List.mem_filter, decide_eq_true_iff]
    tauto
  · show k ∈ p.comment.valueTags ∪ q.comment.valueTags ↔ k ∈ q.comment.valueTags ∪ p.comment.valueTags
    rw [Std.ExtTreeMap.mem_union_iff, Std.ExtTreeMap.mem_union_iff]
    exact or_comm

/-- C80, the postings: if two postings match by what they say, then so do the two ways to merge them; and the account is the same, unless the
accounts of both are unknown. -/
theorem C80_soft (p q : PostingInternal) (h : SoftMatch p q) :
    SoftMatch (absorb p q) (absorb q p) ∧
      ((absorb p q).raw.account = (absorb q p).raw.account ∨ UnknownAccount p ∧ UnknownAccount q) := by
  have ha : (absorb p q).raw.account = (absorb q p).raw.account ∨ UnknownAccount p ∧ UnknownAccount q := by
    show (if UnknownAccount p ∧ ¬ UnknownAccount q then q.raw.account else p.raw.account) =
      (if UnknownAccount q ∧ ¬ UnknownAccount p then p.raw.account else q.raw.account) ∨ _
    by_cases h1 : UnknownAccount p <;> by_cases h2 : UnknownAccount q <;> simp only [h1, h2, not_true, not_false_iff, and_true, and_false,
      if_true, if_false, or_true, or_false]
    rcases h.1 with h | h | h
    · exact absurd h h1
    · exact absurd h h2
    · exact h
  refine ⟨⟨?_, h.2.1, ?_⟩, ha⟩
  · rcases ha with ha | ⟨h1, h2⟩
    · exact .inr (.inr ha)
    · left
      show unknownTag ∈ mergedTags p.comment.tags q.comment.tags
      rw [mem_mergedTags]
      rw [if_pos rfl]
      exact ⟨h1, h2⟩
  · have := h.2.2
    show BalancesAgree (p.raw.balance.or q.raw.balance) (q.raw.balance.or p.raw.balance)
    cases hp : p.raw.balance with
    | none =>
      cases hq : q.raw.balance with
      | none => trivial
      | some b => cases b <;> first | exact trivial | exact ⟨rfl, rfl⟩
    | some a =>
      cases hq : q.raw.balance with
      | none => cases a <;> first | exact trivial | exact ⟨rfl, rfl⟩
      | some b => rw [hp, hq] at this; exact this

/-- A transfer from one account to the other, as the first bank shows it. -/
def Ex.oneBank : List TransactionPostings :=
  [Ex.trn 3 "to savings" [Ex.post "assets:current" (-500) ["fp-a1"], Ex.post "expenses:unknown" 500 ["fp-a2", "unknown-account"]]]
/-- The same transfer as the second bank shows it, and a fee. -/
def Ex.otherBank : List TransactionPostings :=
  [Ex.trn 3 "from current" [Ex.post "assets:savings" 500 ["fp-b1"], Ex.post "income:unknown" (-500) ["fp-b2", "unknown-account"]],
   Ex.trn 3 "fee" [Ex.post "assets:savings" (-2) ["fp-b3"], Ex.post "expenses:fee" 2 ["fp-b4"]]]

set_option maxRecDepth 100000 in
/-- The hypotheses of `C80_either_order` are met: the files can be merged in either order, and nothing is handed back. -/
example : ∃ m₁ m₂ m₃ m₄ X Y, Merger.new.merge HashOrder.sorted Ex.oneBank = (.ok [], m₁) ∧
    m₁.merge HashOrder.rev Ex.otherBank = (.ok [], m₂) ∧ m₂.build HashOrder.sorted = .ok X ∧
    Merger.new.merge HashOrder.sorted Ex.otherBank = (.ok [], m₃) ∧ m₃.merge HashOrder.rev Ex.oneBank = (.ok [], m₄) ∧
    m₄.build HashOrder.sorted = .ok Y := by
  have h1 : (Merger.new.merge HashOrder.sorted Ex.oneBank).1 = .ok [] := by decide +kernel
  have h2 : ((Merger.new.merge HashOrder.sorted Ex.oneBank).2.merge HashOrder.rev Ex.otherBank).1 = .ok [] := by decide +kernel
  have h3 : (Merger.new.merge HashOrder.sorted Ex.otherBank).1 = .ok [] := by decide +kernel
  have h4 : ((Merger.new.merge HashOrder.sorted Ex.otherBank).2.merge HashOrder.rev Ex.oneBank).1 = .ok [] := by decide +kernel
  have e1 := Prod.ext (x := Merger.new.merge HashOrder.sorted Ex.oneBank) (y := (.ok [], _)) h1 rfl
  have e2 := Prod.ext (x := (Merger.new.merge HashOrder.sorted Ex.oneBank).2.merge HashOrder.rev Ex.otherBank) (y := (.ok [], _)) h2 rfl
  have e3 := Prod.ext (x := Merger.new.merge HashOrder.sorted Ex.otherBank) (y := (.ok [], _)) h3 rfl
  have e4 := Prod.ext (x := (Merger.new.merge HashOrder.sorted Ex.otherBank).2.merge HashOrder.rev Ex.oneBank) (y := (.ok [], _)) h4 rfl
  exact ⟨_, _, _, _, _, _, e1, e2, (OneAfter.of_merge e1 e2).2.build _, e3, e4, (OneAfter.of_merge e3 e4).2.build _⟩

set_option maxRecDepth 100000 in
/-- The conditions of `C80_exact` are met by these files. -/
example : NoRival Ex.oneBank Ex.otherBank := by
  unfold NoRival
  decide +kernel

set_option maxRecDepth 100000 in
example : OneEach Ex.oneBank Ex.otherBank := by
  unfold OneEach TakenTrn Taken
  decide +kernel

/-- In this example the transfers are merged, and both ways the accounts become known. -/
example : SoftMatch (Ex.post "expenses:unknown" 500 ["fp-a2", "unknown-account"]) (Ex.post "assets:savings" 500 ["fp-b1"]) := by
  set_option maxRecDepth 100000 in decide +kernel

/-- A journal with a payment that was downloaded before, and another with the same amount on the same day. -/
def Ex.twoAlike : List TransactionPostings :=
  [Ex.trn 3 "one" [Ex.post "assets:a" 500 ["fp-x"]], Ex.trn 3 "two" [Ex.post "assets:a" 500 ["fp-y"]]]
/-- The download with the first of them. -/
def Ex.onlyOne : List TransactionPostings := [Ex.trn 3 "one" [Ex.post "assets:a" 500 ["fp-x"]]]

set_option maxRecDepth 100000 in
/-- The hypothesis that both orders succeed is needed: here one order succeeds and the other is refused, because the first
transaction goes by its fingerprint, and the second by what it says, into the same posting. -/
theorem C80_order_matters :
    (Merger.new.merge HashOrder.sorted Ex.twoAlike).1 = .ok [] ∧
    ((Merger.new.merge HashOrder.sorted Ex.twoAlike).2.merge HashOrder.sorted Ex.onlyOne).1 = .ok [] ∧
    (Merger.new.merge HashOrder.sorted Ex.onlyOne).1 = .ok [] ∧
    ∃ e, ((Merger.new.merge HashOrder.sorted Ex.onlyOne).2.merge HashOrder.sorted Ex.twoAlike).1 = .error e := by
  refine ⟨by decide +kernel, by decide +kernel, by decide +kernel, .sameDestination, by decide +kernel⟩

set_option maxRecDepth 100000 in
/-- Here the second of the two alike is the rival of the first. -/
example : ¬ NoRival Ex.twoAlike Ex.onlyOne ∧ OneEach Ex.twoAlike Ex.onlyOne := by
  constructor
  · unfold NoRival
    decide +kernel
  · unfold OneEach TakenTrn Taken
    decide +kernel

/-- A transaction of two postings, and a file that has the postings in two transactions. -/
def Ex.inOne : List TransactionPostings := [Ex.trn 3 "both" [Ex.post "assets:a" 500 ["fp-x"], Ex.post "assets:b" (-500) ["fp-y"]]]
def Ex.inTwo : List TransactionPostings :=
  [Ex.trn 3 "one" [Ex.post "assets:a" 500 ["fp-x"]], Ex.trn 3 "two" [Ex.post "assets:b" (-500) ["fp-y"]]]

set_option maxRecDepth 100000 in
/-- The other condition is needed too: the two transactions can be merged into the one, but not the one into the two. -/
theorem C80_split_matters :
    (Merger.new.merge HashOrder.sorted Ex.inOne).1 = .ok [] ∧
    ((Merger.new.merge HashOrder.sorted Ex.inOne).2.merge HashOrder.sorted Ex.inTwo).1 = .ok [] ∧
    (Merger.new.merge HashOrder.sorted Ex.inTwo).1 = .ok [] ∧
    ∃ e, ((Merger.new.merge HashOrder.sorted Ex.inTwo).2.merge HashOrder.sorted Ex.inOne).1 = .error e := by
  refine ⟨by decide +kernel, by decide +kernel, by decide +kernel, .splitTransaction, by decide +kernel⟩

set_option maxRecDepth 100000 in
example : NoRival Ex.inOne Ex.inTwo ∧ ¬ OneEach Ex.inOne Ex.inTwo := by
  constructor
  · unfold NoRival
    decide +kernel
  · unfold OneEach TakenTrn Taken
    decide +kernel

end Verif
