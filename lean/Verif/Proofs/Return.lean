import Verif.Spec.Return
import Verif.Props.Edits

/-!
# Proofs for C103: books and files of which they have some transactions and miss others
-/

namespace Verif
open Spec Spec.Book

theorem inOrder_filter {g : List TransactionPostings} (hg : InOrder g) (P : TransactionPostings → Bool) : InOrder (g.filter P) := by
  have hs : (allPosts (g.filter P)).Sublist (allPosts g) := by
    unfold allPosts
    exact sublist_flatMap _ List.filter_sublist
  exact ⟨fun t ht => hg.nonempty t (List.mem_filter.1 ht).1, fun p hp => hg.clean p (hs.subset hp), fun p hp => hg.marked p (hs.subset hp),
    hg.distinct.sublist hs⟩

/-- A file, some transactions of which the book has, and the others are new to it. -/
structure Mixed (J : Book) (P : TransactionPostings → Bool) (g : List TransactionPostings) : Prop where
  inOrder : InOrder g
  old : Matched J (g.filter P)
  new : ∀ t ∈ g, P t = false → ∀ p ∈ t.posts, J.verdict (dateOf t) p = .new

namespace Mixed
variable {J : Book} {P : TransactionPostings → Bool} {g : List TransactionPostings} (h : Mixed J P g)
include h

theorem hits_eq (i : Nat) : J.hits g i = J.hits (g.filter P) i := by
  have key : ∀ l : List TransactionPostings, (∀ t ∈ l, t ∈ g) → J.hits l i = J.hits (l.filter P) i := by
    intro l
    induction l with
    | nil => exact fun _ => rfl
    | cons t l ih =>
      intro hl
      have h1 : ∀ (t : TransactionPostings) l, J.hits (t :: l) i = J.trnHits t i ++ J.hits l i := fun t l => by simp [hits]
      rw [h1, ih fun t' ht' => hl t' (List.mem_cons_of_mem _ ht')]
      cases hP : P t with
      | true => rw [List.filter_cons_of_pos hP, h1]
      | false =>
        rw [List.filter_cons_of_neg (by simp [hP])]
        have : J.trnHits t i = [] := by
          apply List.eq_nil_iff_forall_not_mem.2
          intro p hp
          have : p ∈ J.hits [t] i := by rw [h1]; exact List.mem_append_left _ hp
          obtain ⟨t', ht', _, hpt, hv⟩ := mem_hits.1 this
          rw [List.mem_singleton] at ht'
          subst ht'
          rw [h.new t' (hl t' List.mem_cons_self) hP p hpt] at hv
          cases hv
        rw [this, List.nil_append]
  exact key g fun _ ht => ht

theorem oldOrder : InOrder (g.filter P) := inOrder_filter h.inOrder P

theorem good : Good J g where
  ok := fun p hp => ⟨h.inOrder.clean p hp, h.inOrder.marked p hp⟩
  disjoint := h.inOrder.distinct
  noConflict := by
    rintro ⟨t, ht, hc⟩
    cases hP : P t with
    | true => exact (h.old.good h.oldOrder).noConflict ⟨t, List.mem_filter.2 ⟨ht, hP⟩, hc⟩
    | false =>
      obtain ⟨p, hp, he⟩ := List.mem_map.1 hc
      rw [h.new t ht hP p hp] at he
      cases he
  noSplit := by
    rintro ⟨t, ht, hu, i, hi, hj⟩
    cases hP : P t with
    | true => exact (h.old.good h.oldOrder).noSplit ⟨t, List.mem_filter.2 ⟨ht, hP⟩, hu, i, hi, hj⟩
    | false =>
      rw [new_dests (h.new t ht hP)] at hi
      cases hi
  noSame := by
    rw [List.nodup_iff_count_le_one]
    intro i
    rw [count_allDests, h.hits_eq, ← count_allDests]
    exact List.nodup_iff_count_le_one.1 (h.old.good h.oldOrder).noSame i

theorem decided {t : TransactionPostings} (ht : t ∈ g) : ¬ Undecided J t := by
  cases hP : P t with
  | true => exact h.old.decided h.oldOrder (List.mem_filter.2 ⟨ht, hP⟩)
  | false =>
    rw [new_undecided (h.new t ht hP)]
    exact h.inOrder.nonempty t ht

theorem fresh_iff {t : TransactionPostings} (ht : t ∈ g) : J.Fresh t ↔ P t = false := by
  constructor
  · rintro ⟨_, hd⟩
    cases hP : P t with
    | false => rfl
    | true =>
      obtain ⟨p, hp⟩ := List.exists_mem_of_ne_nil _ (h.inOrder.nonempty t ht)
      obtain ⟨i, _, _, _, hv⟩ := h.old.found (mem_allPosts.2 ⟨t, List.mem_filter.2 ⟨ht, hP⟩, hp⟩)
      have : i ∈ J.dests t := mem_dests.2 ⟨p, hp, hv _⟩
      rw [hd] at this
      cases this
  · exact fun hP => ⟨h.decided ht, new_dests (h.new t ht hP)⟩

theorem recs : (J.after g).recs = (J.after (g.filter P)).recs ++ J.news J.hdrs.length g := by
  have hn : J.news J.hdrs.length (g.filter P) = [] := by
    apply List.eq_nil_iff_forall_not_mem.2
    intro r hr
    obtain ⟨t, ht, _, hp, hv, _⟩ := mem_news hr
    obtain ⟨i, _, _, _, hvi⟩ := h.old.found (mem_allPosts.2 ⟨t, ht, hp⟩)
    rw [hvi] at hv
    cases hv
  rw [after_recs, after_recs, hn, List.append_nil]
  simp only [h.hits_eq]

theorem news_trn {r : Rec} (hr : r ∈ J.news J.hdrs.length g) : J.hdrs.length ≤ r.trn := by
  obtain ⟨t, ht, _, hp, hv, _, c', hc', hh⟩ := mem_news hr
  cases hP : P t with
  | true =>
    obtain ⟨i, _, _, _, hvi⟩ := h.old.found (mem_allPosts.2 ⟨t, List.mem_filter.2 ⟨ht, hP⟩, hp⟩)
    rw [hvi] at hv
    cases hv
  | false =>
    rw [home_fresh (new_dests (h.new t ht hP))] at hh
    omega

theorem after_entries (hw : J.WF) : (J.after g).entries = broughtInto J.entries (g.filter P) ++ g.filter (fun t => !P t) := by
  obtain ⟨old, ho, hf⟩ := entries_after hw g
  have hfr : g.filter (J.Fresh ·) = g.filter (fun t => !P t) := by
    apply List.filter_congr
    intro t ht
    rw [Bool.eq_iff_iff, decide_eq_true_iff, h.fresh_iff ht]
    simp
  rw [ho, hfr, ← h.old.after_entries h.oldOrder]
  congr 1
  have hl : J.entries.length = J.hdrs.length := by simp [Spec.Book.entries]
  have hlen : old.length = J.hdrs.length := hf.length_eq.symm.trans hl
  have h1 : old = (J.after g).entries.take J.hdrs.length := by rw [ho, ← hlen]; simp
  have hh : (J.after (g.filter P)).hdrs = J.hdrs := by
    rw [after_hdrs, List.filter_filter]
    have : g.filter (fun t => decide (J.Fresh t) && P t) = [] := by
      rw [List.filter_eq_nil_iff]
      intro t ht hx
      simp only [Bool.and_eq_true, decide_eq_true_iff] at hx
      rw [h.fresh_iff ht] at hx
      rw [hx.1] at hx
      cases hx.2
    rw [this]
    simp
  rw [h1]
  apply List.ext_getElem?
  intro j
  rw [List.getElem?_take]
  unfold Spec.Book.entries
  split
  · rename_i hj
    rw [List.getElem?_mapIdx, List.getElem?_mapIdx, hh, after_hdrs, List.getElem?_append_left hj]
    cases J.hdrs[j]? with
    | none => rfl
    | some hd =>
      simp only [Option.map_some, Option.some.injEq]
      congr 1
      rw [h.recs, List.filter_append]
      have : (J.news J.hdrs.length g).filter (·.trn = j) = [] := by
        rw [List.filter_eq_nil_iff]
        intro r hr
        have := h.news_trn hr
        simp; omega
      rw [this, List.append_nil]
  · rename_i hj
    rw [List.getElem?_eq_none (by rw [List.length_mapIdx, hh]; omega)]

end Mixed

/-- A book that lists a journal, and a file that fits to the journal. -/
theorem ListsAll.mixed {J : Book} {js g : List TransactionPostings} (hJ : ListsAll J js) (hf : Fits js g) :
    Mixed J (fun t => decide (Known js t)) g where
  inOrder := hf.inOrder
  old := (matched_iff hJ.reached.wf fun t ht => hf.inOrder.nonempty t (List.mem_filter.1 ht).1).2 (hJ.entries.symm ▸ hf.recognised)
  new := fun t ht hk p hp => hJ.new_iff.2 hf.separate t (List.mem_filter.2 ⟨ht, by
    rw [decide_eq_true_iff]
    exact of_decide_eq_false hk⟩) p hp

theorem ListsAll.grown {J : Book} {js g : List TransactionPostings} (hJ : ListsAll J js) (hf : Fits js g) :
    ListsAll (J.after g) (Spec.grown js g) ∧ ¬ J.Bad g ∧ ∀ t ∈ g, ¬ Undecided J t := by
  have hm := hJ.mixed hf
  have hb := good_iff.1 hm.good
  have hmiss : g.filter (fun t => !decide (Known js t)) = missingIn js g := by
    unfold missingIn
    apply List.filter_congr
    intro t _
    simp
  have hrecs : (J.after (knownIn js g)).recs = J.recs.map fun r => { r with post := broughtIn (knownIn js g) r.post } := by
    rw [after_recs]
    have : J.news J.hdrs.length (knownIn js g) = [] := by
      apply List.eq_nil_iff_forall_not_mem.2
      intro r hr
      obtain ⟨t, ht, _, hp, hv, _⟩ := mem_news hr
      obtain ⟨i, _, _, _, hvi⟩ := hm.old.found (mem_allPosts.2 ⟨t, ht, hp⟩)
      rw [hvi] at hv
      cases hv
    rw [this, List.append_nil]
    apply List.ext_getElem?
    intro i
    rw [List.getElem?_mapIdx, List.getElem?_map]
    cases hr : J.recs[i]? with
    | none => rfl
    | some r =>
      simp only [Option.map_some, Option.some.injEq]
      rw [show J.hits (knownIn js g) i = _ from hm.old.hits_eq hm.oldOrder hr]
      rfl
  refine ⟨⟨⟨hJ.reached.after hb, ?_, ?_⟩, ?_⟩, hb, fun t ht => hm.decided ht⟩
  · rw [hm.after_entries hJ.reached.wf, hJ.entries, hmiss]
    rfl
  · intro r hr
    rw [hm.recs, show J.after (g.filter _) = J.after (knownIn js g) from rfl, hrecs] at hr
    rcases List.mem_append.1 hr with hr | hr
    · obtain ⟨r0, hr0, rfl⟩ := List.mem_map.1 hr
      obtain ⟨t, ht, hp, hd⟩ := hJ.recs r0 hr0
      exact ⟨_, List.mem_append_left _ (List.mem_map.2 ⟨t, ht, rfl⟩), List.mem_map.2 ⟨_, hp, rfl⟩, hd⟩
    · obtain ⟨t, ht, _, hp, hv, hd, _⟩ := mem_news hr
      refine ⟨t, List.mem_append_right _ ?_, hp, hd⟩
      rw [← hmiss]
      refine List.mem_filter.2 ⟨ht, ?_⟩
      rw [Bool.not_eq_true', decide_eq_false_iff_not]
      intro hk
      obtain ⟨i, _, _, _, hvi⟩ := hm.old.found (mem_allPosts.2 ⟨t, List.mem_filter.2 ⟨ht, decide_eq_true hk⟩, hp⟩)
      rw [hvi] at hv
      cases hv
  · intro t ht p hp
    rw [hm.recs, show J.after (g.filter _) = J.after (knownIn js g) from rfl, hrecs]
    rcases List.mem_append.1 ht with ht | ht
    · obtain ⟨u, hu, rfl⟩ := List.mem_map.1 ht
      obtain ⟨q, hq, rfl⟩ := List.mem_map.1 hp
      obtain ⟨r, hr, hrp, hd⟩ := hJ.back u hu q hq
      exact ⟨_, List.mem_append_left _ (List.mem_map.2 ⟨r, hr, rfl⟩), by rw [← hrp], hd⟩
    · obtain ⟨htg, hk⟩ := List.mem_filter.1 ht
      obtain ⟨c, hc⟩ := news_of_mem (J := J) J.hdrs.length htg (hm.decided htg)
      refine ⟨_, List.mem_append_right _ (hc p hp ?_), rfl, rfl⟩
      rw [hm.new t htg (by rw [decide_eq_false_iff_not]; exact of_decide_eq_true hk) p hp]
      rfl

/-- Files that fit, merged one after the other. -/
theorem ListsAll.grownAll {J : Book} {js : List TransactionPostings} (hJ : ListsAll J js) {gs : List (List TransactionPostings)} (hf : FitsAll js gs) :
    ¬ Refused J gs ∧ leftOver J gs = [] ∧ (gs.foldl Book.after J).entries = gs.foldl Spec.grown js := by
  induction gs generalizing J js with
  | nil => exact ⟨id, rfl, hJ.entries⟩
  | cons g gs ih =>
    obtain ⟨h1, h2, h3⟩ := hJ.grown hf.1
    obtain ⟨k1, k2, k3⟩ := ih h1 hf.2
    exact ⟨fun hx => hx.elim h2 k1, leftOver_cons_nil.2 ⟨h3, k2⟩, k3⟩

end Verif
