import Verif.Proofs.Journal

/-!
# The transactions of the book after a merge call
-/

namespace Verif
open Spec Spec.Book

theorem dests_nil_iff {J : Book} {t : TransactionPostings} :
    J.dests t = [] ↔ ∀ p ∈ t.posts, (J.verdict (dateOf t) p).dest? = none := by
  unfold dests verdicts
  rw [List.filterMap_eq_nil_iff]
  simp

/-- The home of a decided transaction that is not fresh is an old transaction. -/
theorem home_lt {J : Book} (hw : J.WF) {t : TransactionPostings} (hd : J.dests t ≠ []) (c : Nat) :
    J.home c t < J.hdrs.length := by
  cases hl : J.dests t with
  | nil => exact absurd hl hd
  | cons i l =>
    have hi : i < J.recs.length := dests_lt (t := t) (by rw [hl]; simp)
    unfold Spec.Book.home
    rw [hl]
    simp only [List.head?_cons, Option.bind_some, trnOf, List.getElem?_eq_getElem hi, Option.map_some, Option.getD_some]
    exact hw.owner _ (List.getElem_mem hi)

theorem home_fresh {J : Book} {t : TransactionPostings} (hd : J.dests t = []) (c : Nat) : J.home c t = c := by
  unfold Spec.Book.home; rw [hd]; rfl

/-- The new records of a new transaction are the postings of the input transaction. -/
theorem news_fresh {J : Book} (hw : J.WF) (ts : List TransactionPostings) (c : Nat) (hc : J.hdrs.length ≤ c) (k : Nat) (hk : c ≤ k) :
    ((J.news c ts).filter (·.trn = k)).map (·.post) = (((ts.filter (J.Fresh ·))[k - c]?).map (·.posts)).getD [] := by
  induction ts generalizing c with
  | nil => rfl
  | cons t ts ih =>
    unfold news
    rw [List.filter_append, List.map_append]
    by_cases hu : Undecided J t
    · have hf : ¬ J.Fresh t := fun h => h.1 hu
      rw [if_pos hu, if_neg hf, ih c hc hk, List.filter_cons_of_neg (by simpa using hf)]; rfl
    rw [if_neg hu]
    by_cases hd : J.dests t = []
    · have hf : J.Fresh t := ⟨hu, hd⟩
      rw [if_pos hf, List.filter_cons_of_pos (by simpa using hf)]
      have hall : t.posts.filter (fun p => (J.verdict (dateOf t) p).dest? = none) = t.posts := by
        rw [List.filter_eq_self]; intro p hp; simpa using dests_nil_iff.1 hd p hp
      rw [hall, home_fresh hd]
      by_cases hkc : k = c
      · subst hkc
        have h2 : ((J.news (k + 1) ts).filter (·.trn = k)) = [] := by
          rw [List.filter_eq_nil_iff]
          intro r hr
          obtain ⟨t', _, _, _, _, _, c', hc', hh⟩ := mem_news hr
          by_cases hd' : J.dests t' = []
          · rw [home_fresh hd'] at hh; simp; omega
          · have := home_lt hw hd' c'; simp; omega
        rw [h2]
        simp [List.filter_map, Function.comp_def]
      · have h1 : ((t.posts.map (fun p => (⟨c, dateOf t, p⟩ : Rec))).filter (·.trn = k)) = [] := by
          rw [List.filter_eq_nil_iff]
          intro r hr
          obtain ⟨p, _, rfl⟩ := List.mem_map.1 hr
          simp; omega
        rw [h1, ih (c + 1) (by omega) (by omega)]
        have : k - c = (k - (c + 1)) + 1 := by omega
        rw [this, List.getElem?_cons_succ]; rfl
    · have hf : ¬ J.Fresh t := fun h => hd h.2
      rw [if_neg hf, List.filter_cons_of_neg (by simpa using hf), ih c hc hk]
      have h1 : (((t.posts.filter (fun p => (J.verdict (dateOf t) p).dest? = none)).map
          (fun p => (⟨J.home c t, dateOf t, p⟩ : Rec))).filter (·.trn = k)) = [] := by
        rw [List.filter_eq_nil_iff]
        intro r hr
        obtain ⟨p, _, rfl⟩ := List.mem_map.1 hr
        have := home_lt hw hd c
        simp; omega
      rw [h1]; rfl

/-- The transactions after a merge call: the old ones, possibly extended, and then the fresh ones of the input, as they
are. -/
theorem entries_after {J : Book} (hw : J.WF) (ts : List TransactionPostings) :
    ∃ old, (J.after ts).entries = old ++ ts.filter (J.Fresh ·) ∧ List.Forall₂ Extended J.entries old := by
  obtain ⟨old, new, h1, h2⟩ := (ext_after J ts).entries
  refine ⟨old, ?_, h2⟩
  rw [h1]
  congr 1
  have hlen : old.length = J.hdrs.length := by rw [← h2.length_eq]; simp [Spec.Book.entries]
  have hnew : new = (J.after ts).entries.drop J.hdrs.length := by rw [h1, ← hlen]; simp
  rw [hnew]
  apply List.ext_getElem?
  intro j
  rw [List.getElem?_drop]
  unfold Spec.Book.entries
  rw [List.getElem?_mapIdx, after_hdrs, List.getElem?_append_right (by omega)]
  have : J.hdrs.length + j - J.hdrs.length = j := by omega
  rw [this, List.getElem?_map]
  cases hf : (ts.filter (J.Fresh ·))[j]? with
  | none => rfl
  | some t =>
    simp only [Option.map_some, Option.some.injEq]
    have hrecs : ((J.after ts).recs.filter (·.trn = J.hdrs.length + j)).map (·.post) = t.posts := by
      rw [after_recs, List.filter_append, List.map_append]
      have h1 : (J.recs.mapIdx (fun i r => { r with post := (J.hits ts i).foldl absorb r.post })).filter
          (·.trn = J.hdrs.length + j) = [] := by
        rw [List.filter_eq_nil_iff]
        intro r hr
        rw [List.mem_mapIdx] at hr
        obtain ⟨i, hi, rfl⟩ := hr
        have := hw.owner _ (List.getElem_mem hi)
        simp; omega
      rw [h1, news_fresh hw ts _ (le_refl _) _ (by omega), this, hf]
      rfl
    rw [hrecs]

/-! ### Every transaction of a reachable book has a posting -/

/-- No transaction without postings. -/
def Populated (J : Book) : Prop := ∀ t ∈ J.entries, t.posts ≠ []

theorem populated_after {J : Book} (hw : J.WF) (hp : Populated J) (ts : List TransactionPostings) : Populated (J.after ts) := by
  obtain ⟨old, h1, h2⟩ := entries_after hw ts
  intro t ht
  rw [h1, List.mem_append] at ht
  rcases ht with ht | ht
  · obtain ⟨i, hi, rfl⟩ := List.getElem_of_mem ht
    have hi' : i < J.entries.length := by rw [h2.length_eq]; exact hi
    obtain ⟨_, o, n, hon, hf⟩ := (List.forall₂_iff_get.1 h2).2 i hi' hi
    have := hp _ (List.getElem_mem hi')
    simp only [List.get_eq_getElem] at hon hf
    rw [hon]
    intro he
    have ho := (List.append_eq_nil_iff.1 he).1
    rw [ho] at hf
    cases hl : J.entries[i].posts with
    | nil => exact this hl
    | cons a b => rw [hl] at hf; cases hf
  · rw [List.mem_filter, decide_eq_true_iff] at ht
    exact fun he => ht.2.1 (Or.inl he)

theorem wf_steps (hist : List (List TransactionPostings)) : (ofHistory hist).WF := by
  have := (run_refines (hist.map (fun ts => (HashOrder.sorted, ts)))).wf
  unfold inputs at this
  rw [List.map_map] at this
  simpa [Function.comp_def] using this

theorem populated_ofHistory (hist : List (List TransactionPostings)) : Populated (ofHistory hist) := by
  induction hist using List.reverseRecOn with
  | nil => intro t ht; simp [ofHistory, Spec.Book.entries, Spec.Book.empty] at ht
  | append_singleton hist ts ih =>
    unfold ofHistory at *
    rw [List.foldl_append, List.foldl_cons, List.foldl_nil]
    unfold Book.step
    split
    · exact ih
    · exact populated_after (wf_steps hist) ih ts

end Verif
