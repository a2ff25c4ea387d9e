import Verif.Proofs.Apply
import Mathlib.Data.List.Induction

/-!
# `build` produces the journal of the book
-/

namespace Verif
open Spec Spec.Book

/-! ### Sorting by date -/

theorem date_le_trans (a b c : Date) (h1 : (compare a b).isLE = true) (h2 : (compare b c).isLE = true) :
    (compare a c).isLE = true := Std.TransCmp.isLE_trans h1 h2

theorem date_le_total (a b : Date) : ((compare a b).isLE || (compare b a).isLE) = true := by
  have h : compare b a = (compare a b).swap := Std.OrientedCmp.eq_swap
  rw [h]
  cases compare a b <;> rfl

theorem date_le_antisymm (a b : Date) (h1 : (compare a b).isLE = true) (h2 : (compare b a).isLE = true) : a = b := by
  have h : compare b a = (compare a b).swap := Std.OrientedCmp.eq_swap
  rw [h] at h2
  apply Std.LawfulEqCmp.eq_of_compare (cmp := compare)
  cases hc : compare a b <;> simp_all

theorem date_le_refl (a : Date) : (compare a a).isLE = true := by
  have : compare a a = .eq := Std.ReflCmp.compare_self
  rw [this]; rfl

theorem eq_of_sorted_filter {α : Type} (key : α → Date) (X Y : List α)
    (hX : X.Pairwise fun a b => (compare (key a) (key b)).isLE = true)
    (hY : Y.Pairwise fun a b => (compare (key a) (key b)).isLE = true)
    (h : ∀ d, X.filter (fun a => key a = d) = Y.filter (fun a => key a = d)) : X = Y := by
  have hmem : ∀ {X Y : List α}, (∀ d, X.filter (fun a => key a = d) = Y.filter (fun a => key a = d)) →
      ∀ x ∈ X, x ∈ Y := by
    intro X Y h x hx
    have : x ∈ X.filter (fun a => key a = key x) := by simp [hx]
    rw [h] at this
    exact (List.mem_filter.1 this).1
  induction X generalizing Y with
  | nil =>
    symm
    apply List.eq_nil_iff_forall_not_mem.2
    intro y hy
    have := hmem (fun d => (h d).symm) y hy
    cases this
  | cons x X ih =>
    cases Y with
    | nil => have := hmem h x (by simp); cases this
    | cons y Y =>
      rw [List.pairwise_cons] at hX hY
      have hyx : (compare (key y) (key x)).isLE = true := by
        rcases List.mem_cons.1 (hmem h x (by simp)) with e | e
        · rw [e]; exact date_le_refl _
        · exact hY.1 x e
      have hxy : (compare (key x) (key y)).isLE = true := by
        rcases List.mem_cons.1 (hmem (fun d => (h d).symm) y (by simp)) with e | e
        · rw [e]; exact date_le_refl _
        · exact hX.1 y e
      have hk := date_le_antisymm _ _ hxy hyx
      have hh := h (key x)
      rw [List.filter_cons, List.filter_cons] at hh
      simp only [decide_true, if_true, hk] at hh
      obtain ⟨rfl, hh'⟩ := List.cons.inj hh
      congr 1
      apply ih Y hX.2 hY.2
      intro d
      have := h d
      rw [List.filter_cons, List.filter_cons] at this
      by_cases hd : key x = d
      · simpa [hd] using this
      · simpa [hd] using this

theorem filter_mergeSort {α : Type} (key : α → Date) (l : List α) (d : Date) :
    (l.mergeSort fun a b => (compare (key a) (key b)).isLE).filter (fun a => key a = d) =
      l.filter (fun a => key a = d) := by
  set le : α → α → Bool := fun a b => (compare (key a) (key b)).isLE with hle
  have hs : (l.filter (fun a => key a = d)).Sublist (l.mergeSort le) := by
    apply List.sublist_mergeSort (le := le)
    · intro a b c; exact date_le_trans _ _ _
    · intro a b; exact date_le_total _ _
    · rw [List.pairwise_iff_forall_sublist]
      intro a b hab
      have ha : a ∈ l.filter (fun a => key a = d) := hab.subset (by simp)
      have hb : b ∈ l.filter (fun a => key a = d) := hab.subset (by simp)
      simp at ha hb
      simp only [hle, ha.2, hb.2]
      exact date_le_refl d
    · exact List.filter_sublist
  have hs2 : (l.filter (fun a => key a = d)).Sublist ((l.mergeSort le).filter (fun a => key a = d)) := by
    have := hs.filter (fun a => key a = d)
    rwa [List.filter_filter, show (fun a => decide (key a = d) && decide (key a = d)) = fun a => decide (key a = d) by
      funext a; simp] at this
  symm
  apply hs2.eq_of_length
  exact ((List.mergeSort_perm l le).filter _).length_eq.symm

theorem sorted_mergeSort {α : Type} (key : α → Date) (l : List α) :
    (l.mergeSort fun a b => (compare (key a) (key b)).isLE).Pairwise
      fun a b => (compare (key a) (key b)).isLE = true :=
  List.pairwise_mergeSort (le := fun a b => (compare (key a) (key b)).isLE)
    (fun a b c => date_le_trans (key a) (key b) (key c)) (fun a b => date_le_total (key a) (key b)) l

/-! ### Taking entries out of the arenas -/

theorem takeHolders_ok (T : Nat → TrnHolder) (l : List Nat) (hn : l.Nodup) (arena : List (Option TrnHolder))
    (h : ∀ i ∈ l, arena[i]? = some (some (T i))) :
    ∃ arena', IndexedTransactions.takeHolders l arena = .ok (l.map T, arena') ∧ ∀ j, j ∉ l → arena'[j]? = arena[j]? := by
  induction l generalizing arena with
  | nil => exact ⟨arena, rfl, fun _ _ => rfl⟩
  | cons i l ih =>
    rw [List.nodup_cons] at hn
    obtain ⟨a', h1, h2⟩ := ih hn.2 (arena.set i none) (by
      intro j hj
      have : i ≠ j := fun e => hn.1 (e ▸ hj)
      rw [List.getElem?_set_ne this]
      exact h j (by simp [hj]))
    refine ⟨a', ?_, ?_⟩
    · unfold IndexedTransactions.takeHolders
      rw [h i (by simp)]
      simp only [bind, Except.bind, h1]
      rfl
    · intro j hj
      simp only [List.mem_cons, not_or] at hj
      rw [h2 j hj.2, List.getElem?_set_ne (fun e => hj.1 e.symm)]

theorem takeDates_ok (T : Nat → TrnHolder) (L : List (Date × List Nat)) (hn : (L.flatMap (·.2)).Nodup)
    (arena : List (Option TrnHolder)) (h : ∀ i ∈ L.flatMap (·.2), arena[i]? = some (some (T i))) :
    IndexedTransactions.takeDates L arena = .ok (L.map fun e => (e.1, e.2.map T)) := by
  induction L generalizing arena with
  | nil => rfl
  | cons e L ih =>
    rcases e with ⟨d, is⟩
    rw [List.flatMap_cons, List.nodup_append] at hn
    obtain ⟨a', h1, h2⟩ := takeHolders_ok T is hn.1 arena (fun i hi => h i (by simp [hi]))
    have := ih hn.2.1 a' (by
      intro i hi
      rw [h2 i (fun hi' => hn.2.2 i hi' i hi rfl)]
      exact h i (by rw [List.flatMap_cons]; simp only [List.mem_append]; exact Or.inr hi))
    unfold IndexedTransactions.takeDates
    simp only [bind, Except.bind, h1, this]
    rfl

theorem takePosts_ok (P : Nat → PostingInternal) (l : List Nat) (hn : l.Nodup) (c : ConsumePostings)
    (h : ∀ i ∈ l, ∃ ph : PostHolder, c[i]? = some (some ph) ∧ ph.posting = P i) :
    ∃ c', Merger.takePosts l c = .ok (l.map P, c') ∧ ∀ j, j ∉ l → c'[j]? = c[j]? := by
  induction l generalizing c with
  | nil => exact ⟨c, rfl, fun _ _ => rfl⟩
  | cons i l ih =>
    rw [List.nodup_cons] at hn
    obtain ⟨a', h1, h2⟩ := ih hn.2 (c.set i none) (by
      intro j hj
      have : i ≠ j := fun e => hn.1 (e ▸ hj)
      rw [List.getElem?_set_ne this]
      exact h j (by simp [hj]))
    refine ⟨a', ?_, ?_⟩
    · obtain ⟨ph, hph, hP⟩ := h i (by simp)
      unfold Merger.takePosts ConsumePostings.take
      rw [hph]
      simp only [bind, Except.bind, h1, pure, Except.pure, List.map_cons, hP]
    · intro j hj
      simp only [List.mem_cons, not_or] at hj
      rw [h2 j hj.2, List.getElem?_set_ne (fun e => hj.1 e.symm)]

theorem buildLoop_ok (P : Nat → PostingInternal) (X : List TrnHolder) (hn : (X.flatMap (·.postings)).Nodup)
    (c : ConsumePostings) (h : ∀ i ∈ X.flatMap (·.postings), ∃ ph : PostHolder, c[i]? = some (some ph) ∧ ph.posting = P i) :
    Merger.buildLoop X c = .ok (X.map fun t => ⟨t.trn, t.postings.map P⟩) := by
  induction X generalizing c with
  | nil => rfl
  | cons t X ih =>
    rw [List.flatMap_cons, List.nodup_append] at hn
    obtain ⟨a', h1, h2⟩ := takePosts_ok P t.postings hn.1 c (fun i hi => h i (by simp [hi]))
    have := ih hn.2.1 a' (by
      intro i hi
      rw [h2 i (fun hi' => hn.2.2 i hi' i hi rfl)]
      exact h i (by rw [List.flatMap_cons]; simp only [List.mem_append]; exact Or.inr hi))
    unfold Merger.buildLoop
    simp only [bind, Except.bind, h1, this]
    rfl

/-! ### The main theorem -/

theorem flatMap_single_key {α : Type} (L : List (Date × α)) (f : Date → List β) (d : Date) (hn : (L.map (·.1)).Nodup) :
    (L.flatMap fun e => if e.1 = d then f d else []) = if d ∈ L.map (·.1) then f d else [] := by
  induction L with
  | nil => simp
  | cons e L ih =>
    rw [List.map_cons, List.nodup_cons] at hn
    rw [List.flatMap_cons, ih hn.2]
    by_cases he : e.1 = d
    · subst he
      simp [hn.1]
    · have : d ≠ e.1 := fun h => he h.symm
      simp only [List.map_cons, List.mem_cons, this, false_or, he, if_false, List.nil_append]

theorem where_map (J : Book) (P : Rec → Bool) :
    (J.where_ P).filterMap (fun i => J.recs[i]?) = J.recs.filter P := by
  unfold where_
  rcases J with ⟨hd, rs⟩
  simp only
  induction rs using List.reverseRecOn with
  | nil => rfl
  | append_singleton rs r ih =>
    have h1 : ∀ i ∈ List.range rs.length, (rs ++ [r])[i]? = rs[i]? := fun i hi =>
      List.getElem?_append_left (by simpa using hi)
    have h2 : (List.range rs.length).filter (fun i => ((rs ++ [r])[i]?).any P) =
        (List.range rs.length).filter (fun i => (rs[i]?).any P) :=
      List.filter_congr (fun i hi => by rw [h1 i hi])
    have h3 : ((List.range rs.length).filter (fun i => (rs[i]?).any P)).filterMap (fun i => (rs ++ [r])[i]?) =
        ((List.range rs.length).filter (fun i => (rs[i]?).any P)).filterMap (fun i => rs[i]?) := by
      apply List.filterMap_congr
      intro i hi
      exact h1 i (List.mem_filter.1 hi).1
    simp only [List.length_append, List.length_singleton, List.range_succ, List.filter_append, List.filterMap_append]
    rw [h2, h3, ih]
    by_cases hp : P r <;> simp [hp]

theorem R.build {m : Merger} {J : Book} (hR : R m J) (h : HashOrder) : m.build h = .ok J.journal := by
  set A := m.trns.arena with hA
  set T : Nat → TrnHolder := fun i => (A[i]?).getD default with hT
  set P : Nat → PostingInternal := fun i => ((m.posts.arena[i]?).map (·.posting)).getD default with hP
  have hAget : ∀ k, k < J.hdrs.length → A[k]? = some (T k) := by
    intro k hk
    rw [hT]; simp only
    rw [hA, hR.trns, List.getElem?_mapIdx, List.getElem?_eq_getElem hk]; rfl
  have hAlen : A.length = J.hdrs.length := by rw [hA, hR.trns]; simp
  have hAmap : A = (List.range J.hdrs.length).map T := by
    apply List.ext_getElem?
    intro k
    rw [List.getElem?_map]
    by_cases hk : k < J.hdrs.length
    · rw [hAget k hk, List.getElem?_range hk]; rfl
    · rw [List.getElem?_eq_none (by omega), List.getElem?_eq_none (by simp; omega)]; rfl
  have hTdate : ∀ k, k < J.hdrs.length → (T k).trn = J.hdrs[k]?.getD default := by
    intro k hk
    rw [hT]; simp only
    rw [hA, hR.trns, List.getElem?_mapIdx, List.getElem?_eq_getElem hk]; rfl
  let key : TrnHolder → Date := fun t => t.trn.raw.date
  -- the index lists
  have hidx : ∀ d, ((List.range J.hdrs.length).filter fun k => (J.hdrs[k]?).any (fun h => h.raw.date = d)).map T =
      A.filter (fun t => key t = d) := by
    intro d
    rw [hAmap, List.filter_map]
    congr 1
    apply List.filter_congr
    intro k hk
    have hk : k < J.hdrs.length := by simpa using hk
    simp only [Function.comp, key, hTdate k hk, List.getElem?_eq_getElem hk, Option.any_some, Option.getD_some]
  set L := h.iter .trnsByDate m.trns.byDate.toList with hL
  have hLp : L.Perm m.trns.byDate.toList := h.iter_perm _ _
  have hLmem : ∀ e ∈ L, e.2 = (List.range J.hdrs.length).filter fun k => (J.hdrs[k]?).any (fun h => h.raw.date = e.1) := by
    intro e he
    have h1 := (Std.ExtTreeMap.mem_toList_iff_getElem?_eq_some (k := e.1) (v := e.2)).1 (hLp.mem_iff.1 he)
    rw [hR.trnsByDate, optNE] at h1
    split at h1
    · cases h1
    · simpa using h1.symm
  have hLkeys : (L.map (·.1)).Nodup := by
    have h1 : (m.trns.byDate.toList.map (·.1)).Nodup := by
      have := Std.ExtTreeMap.distinct_keys_toList (t := m.trns.byDate)
      rw [List.Nodup, List.pairwise_map]
      refine this.imp ?_
      intro a b hab he
      exact hab (by rw [he]; exact Std.ReflCmp.compare_self)
    exact (hLp.map _).nodup_iff.2 h1
  have hLd : ∀ e ∈ L, ∀ k ∈ e.2, k < J.hdrs.length ∧ key (T k) = e.1 := by
    intro e he k hk
    rw [hLmem e he, List.mem_filter, List.mem_range] at hk
    refine ⟨hk.1, ?_⟩
    have := hk.2
    rw [List.getElem?_eq_getElem hk.1] at this
    simp only [Option.any_some, decide_eq_true_eq] at this
    simp only [key, hTdate k hk.1, List.getElem?_eq_getElem hk.1, Option.getD_some]
    exact this
  have hLnd : (L.flatMap (·.2)).Nodup := by
    rw [List.nodup_flatMap]
    constructor
    · intro e he
      rw [hLmem e he]; exact List.nodup_range.filter _
    · rw [List.Nodup, List.pairwise_map] at hLkeys
      refine hLkeys.imp_of_mem ?_
      intro a b ha hb hab
      simp only [Function.onFun]
      intro k hka hkb
      exact hab ((hLd a ha k hka).2.symm.trans (hLd b hb k hkb).2)
  have htd := takeDates_ok T L hLnd (m.trns.arena.map some) (by
    intro i hi
    obtain ⟨e, he, hie⟩ := List.mem_flatMap.1 hi
    rw [List.getElem?_map, ← hA, hAget i (hLd e he i hie).1]; rfl)
  set D := L.map fun e => (e.1, e.2.map T) with hD
  set S := D.mergeSort (fun a b => (compare a.1 b.1).isLE) with hS
  have hSp : S.Perm D := List.mergeSort_perm _ _
  have hSmem : ∀ e ∈ S, e.2 = A.filter (fun t => key t = e.1) := by
    intro e he
    have := hSp.mem_iff.1 he
    rw [hD, List.mem_map] at this
    obtain ⟨e', he', rfl⟩ := this
    simp only
    rw [hLmem e' he', hidx]
  have hSkeys : (S.map (·.1)).Nodup := by
    rw [(hSp.map _).nodup_iff, hD, List.map_map]
    exact hLkeys
  have hX : S.flatMap (fun e => e.2) = A.mergeSort (fun a b => (compare (key a) (key b)).isLE) := by
    apply eq_of_sorted_filter key
    · rw [List.pairwise_flatMap]
      constructor
      · intro e he
        rw [hSmem e he, List.pairwise_iff_forall_sublist]
        intro a b hab
        have ha := hab.subset (show a ∈ [a, b] by simp)
        have hb := hab.subset (show b ∈ [a, b] by simp)
        simp only [List.mem_filter, decide_eq_true_eq] at ha hb
        rw [ha.2, hb.2]; exact date_le_refl _
      · have hs : S.Pairwise fun a b => (compare a.1 b.1).isLE = true := sorted_mergeSort (fun e => e.1) D
        refine hs.imp_of_mem ?_
        intro a b ha hb hab x hx y hy
        rw [hSmem a ha] at hx
        rw [hSmem b hb] at hy
        simp only [List.mem_filter, decide_eq_true_eq] at hx hy
        rw [hx.2, hy.2]; exact hab
    · exact sorted_mergeSort key A
    · intro d
      rw [filter_mergeSort, List.filter_flatMap]
      have h1 : S.flatMap (fun e => e.2.filter (fun a => key a = d)) =
          S.flatMap (fun e => if e.1 = d then A.filter (fun t => key t = d) else []) := by
        apply List.flatMap_congr
        intro e he
        rw [hSmem e he, List.filter_filter]
        by_cases hed : e.1 = d
        · rw [if_pos hed, hed]
          apply List.filter_congr; intro t _; simp
        · rw [if_neg hed, List.filter_eq_nil_iff]
          intro t _
          simp only [Bool.and_eq_true, decide_eq_true_eq, not_and]
          intro h1 h2; exact hed (h2.symm.trans h1)
      rw [h1, flatMap_single_key S (fun d => A.filter (fun t => key t = d)) d hSkeys]
      split
      · rfl
      · rename_i hd
        rw [(hSp.map _).mem_iff, hD, List.map_map] at hd
        have hnone : m.trns.byDate[d]? = none := by
          by_contra hne
          obtain ⟨v, hv⟩ := Option.ne_none_iff_exists'.1 hne
          apply hd
          exact List.mem_map.2 ⟨(d, v), hLp.mem_iff.2 (Std.ExtTreeMap.mem_toList_iff_getElem?_eq_some.2 hv), rfl⟩
        rw [hR.trnsByDate, optNE] at hnone
        split at hnone
        · rename_i he
          rw [← hidx, List.isEmpty_iff.1 he]; rfl
        · cases hnone
  have hinto : m.trns.intoIter h = .ok (A.mergeSort (fun a b => (compare (key a) (key b)).isLE)) := by
    unfold IndexedTransactions.intoIter
    rw [← hL, htd]
    simp only [bind, Except.bind, pure, Except.pure]
    rw [← hX]
  -- postings
  have hpost : ∀ k, k < J.hdrs.length → (T k).postings = J.where_ (fun r => r.trn = k) := by
    intro k hk
    rw [hT]; simp only
    rw [hA, hR.trns, List.getElem?_mapIdx, List.getElem?_eq_getElem hk]; rfl
  set X := A.mergeSort (fun a b => (compare (key a) (key b)).isLE) with hXdef
  have hXp : X.Perm A := List.mergeSort_perm _ _
  have hAflat : (A.flatMap (·.postings)).Nodup := by
    rw [hAmap, List.flatMap_map, List.nodup_flatMap]
    constructor
    · intro k hk
      rw [hpost k (by simpa using hk)]; exact where_nodup _ _
    · refine List.nodup_range.imp_of_mem ?_
      intro a b ha hb hab
      simp only [Function.onFun]
      intro i hia hib
      rw [hpost a (by simpa using ha)] at hia
      rw [hpost b (by simpa using hb)] at hib
      obtain ⟨r, hr, h1⟩ := mem_where.1 hia
      obtain ⟨r', hr', h2⟩ := mem_where.1 hib
      rw [hr] at hr'; cases hr'
      simp at h1 h2; omega
  have hXflat : (X.flatMap (·.postings)).Nodup := (hXp.flatMap_right _).nodup_iff.2 hAflat
  have hbl := buildLoop_ok P X hXflat m.posts.intoConsume (by
    intro i hi
    have hi := (hXp.flatMap_right _).mem_iff.1 hi
    obtain ⟨t, ht, hit⟩ := List.mem_flatMap.1 hi
    rw [hAmap] at ht
    obtain ⟨k, hk, rfl⟩ := List.mem_map.1 ht
    rw [hpost k (by simpa using hk)] at hit
    have hlt := where_lt hit
    have hget : m.posts.arena[i]? = some ⟨J.recs[i].trn, J.recs[i].post⟩ := by
      rw [hR.arena, List.getElem?_map, List.getElem?_eq_getElem hlt]; rfl
    refine ⟨⟨J.recs[i].trn, J.recs[i].post⟩, ?_, ?_⟩
    · unfold IndexedPostings.intoConsume
      rw [List.getElem?_map, hget]; rfl
    · rw [hP]; simp only [hget]; rfl)
  unfold Merger.build
  rw [hinto]
  simp only [bind, Except.bind]
  rw [hbl]
  congr 1
  unfold journal
  rw [hXdef, List.map_mergeSort (s := fun a b => (compare (dateOf a) (dateOf b)).isLE) (fun _ _ _ _ => rfl)]
  congr 1
  apply List.ext_getElem?
  intro k
  rw [List.getElem?_map, List.getElem?_mapIdx]
  by_cases hk : k < J.hdrs.length
  · rw [hAget k hk, List.getElem?_eq_getElem hk]
    simp only [Option.map_some]
    congr 1
    rw [hpost k hk, hTdate k hk, List.getElem?_eq_getElem hk, ← where_map J (fun r => r.trn = k), List.map_filterMap]
    simp only [Option.getD_some]
    congr 1
    rw [← List.filterMap_eq_map]
    apply List.filterMap_congr
    intro i hi
    have hlt := where_lt hi
    have hget : m.posts.arena[i]? = some ⟨J.recs[i].trn, J.recs[i].post⟩ := by
      rw [hR.arena, List.getElem?_map, List.getElem?_eq_getElem hlt]; rfl
    simp only [Function.comp, hP, hget, List.getElem?_eq_getElem hlt, Option.map_some, Option.getD_some]
  · rw [List.getElem?_eq_none (by omega), List.getElem?_eq_none (by omega)]; rfl

end Verif
