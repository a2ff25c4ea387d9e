import Verif.Props.Matching4
import Verif.Props.Matching3
import Verif.Props.Convergence

/-!
# Two postings that go into the two postings of one transaction
-/

namespace Verif
open Spec Spec.Book

/-- A list without duplicates whose only member is `a`. -/
theorem eq_singleton_of_nodup {α : Type} {l : List α} {a : α} (hn : l.Nodup) (ha : a ∈ l) (h : ∀ b ∈ l, b = a) : l = [a] := by
  cases l with
  | nil => cases ha
  | cons b l =>
    have hb := h b (by simp)
    subst hb
    cases l with
    | nil => rfl
    | cons c l =>
      have hc := h c (by simp)
      subst hc
      simp at hn

theorem where_nodup (J : Book) (P : Rec → Bool) : (J.where_ P).Nodup := List.nodup_range.filter _

/-- The verdict on a posting without known fingerprint and with one soft match. -/
theorem verdict_of_soft {J : Book} {d : Date} {p : PostingInternal} {i : Nat} (hf : ∀ r ∈ J.recs, ¬ SharesFp r.post p)
    (hi : i ∈ J.softHits d p) (ho : ∀ j ∈ J.softHits d p, j = i) : J.verdict d p = .into i := by
  unfold verdict
  have h : J.softHits d p = [i] := eq_singleton_of_nodup (where_nodup J _) hi ho
  rw [fpHits_nil_iff.2 hf, h]

/-- The hits of a record that one posting goes into. -/
theorem Good.hits_one {J : Book} {ts : List TransactionPostings} (hg : Good J ts) {i : Nat} {p : PostingInternal}
    (hp : p ∈ J.hits ts i) : J.hits ts i = [p] := by
  have := hg.hits_le_one i
  match hl : J.hits ts i, this with
  | [], _ => rw [hl] at hp; cases hp
  | [a], _ => rw [hl] at hp; simp at hp; rw [hp]
  | _ :: _ :: _, h => simp at h

/-- Both postings of the input transaction `u` go into the two postings of transaction `k`, which gets nothing else. -/
theorem pair_after {J : Book} {ts : List TransactionPostings} (hg : Good J ts) {u : TransactionPostings} (hu : u ∈ ts)
    {p' q' : PostingInternal} (hposts : u.posts = [p', q']) {k i j : Nat} {rp rq : Rec} (hk : k < J.hdrs.length)
    {A B C : List Rec} (hrecs : J.recs = A ++ rp :: (B ++ rq :: C)) (hA : ∀ r ∈ A, r.trn ≠ k) (hB : ∀ r ∈ B, r.trn ≠ k)
    (hC : ∀ r ∈ C, r.trn ≠ k) (hrp : rp.trn = k) (hrq : rq.trn = k) (hi : i = A.length) (hj : j = A.length + 1 + B.length)
    (hv : J.verdict (dateOf u) q' = .into i) (hv' : J.verdict (dateOf u) p' = .into j) :
    ¬ Undecided J u ∧ ((J.after ts).recs.filter (·.trn = k)).map (·.post) = [absorb rp.post q', absorb rq.post p'] := by
  have hnu : ¬ Undecided J u := by
    rintro (h | ⟨v, hv1, hv2⟩)
    · rw [hposts] at h; cases h
    · unfold verdicts at hv1
      rw [hposts] at hv1
      simp only [List.map_cons, List.map_nil, List.mem_cons, List.not_mem_nil, or_false] at hv1
      rcases hv1 with rfl | rfl
      · rw [hv'] at hv2; cases hv2
      · rw [hv] at hv2; cases hv2
  refine ⟨hnu, ?_⟩
  have hhi : J.hits ts i = [q'] := hg.hits_one (mem_hits.2 ⟨u, hu, hnu, by rw [hposts]; simp, hv⟩)
  have hhj : J.hits ts j = [p'] := hg.hits_one (mem_hits.2 ⟨u, hu, hnu, by rw [hposts]; simp, hv'⟩)
  have hnews : (J.news J.hdrs.length ts).filter (·.trn = k) = [] := by
    rw [List.filter_eq_nil_iff]
    intro r hr
    obtain ⟨t', ht', hu', hp', hdest, _, c', hc', hh⟩ := mem_news hr
    rw [decide_eq_true_iff]
    intro hrk
    by_cases hd : J.dests t' = []
    · rw [home_fresh hd] at hh; omega
    · obtain ⟨x, hx⟩ := List.exists_mem_of_ne_nil _ hd
      have h1 := hg.home_eq ht' hu' hx c'
      rw [← hh, hrk] at h1
      have hxl := dests_lt hx
      obtain ⟨s, hs, hvs⟩ := mem_dests.1 hx
      have hsx : s ∈ J.hits ts x := mem_hits.2 ⟨t', ht', hu', hs, hvs⟩
      have hxij : x = i ∨ x = j := by
        unfold trnOf at h1
        rw [hrecs] at h1
        by_contra hne
        rw [not_or] at hne
        rw [List.getElem?_append] at h1
        split at h1
        · rename_i hlt
          rw [List.getElem?_eq_getElem hlt] at h1
          exact hA _ (List.getElem_mem hlt) (by simpa using h1)
        · rename_i hge
          obtain ⟨y, hy⟩ : ∃ y, x - A.length = y + 1 := ⟨x - A.length - 1, by omega⟩
          rw [hy, List.getElem?_cons_succ, List.getElem?_append] at h1
          split at h1
          · rename_i hlt
            rw [List.getElem?_eq_getElem hlt] at h1
            exact hB _ (List.getElem_mem hlt) (by simpa using h1)
          · rename_i hge2
            obtain ⟨z, hz⟩ : ∃ z, y - B.length = z + 1 := ⟨y - B.length - 1, by omega⟩
            rw [hz, List.getElem?_cons_succ] at h1
            cases hcz : C[z]? with
            | none => rw [hcz] at h1; cases h1
            | some c =>
              rw [hcz] at h1
              exact hC _ (List.mem_of_getElem? hcz) (by simpa using h1)
      have hsu : s ∈ u.posts := by
        rw [hposts]
        rcases hxij with rfl | rfl
        · rw [hhi] at hsx; simp at hsx; simp [hsx]
        · rw [hhj] at hsx; simp at hsx; simp [hsx]
      have := hg.trn_eq hu ht' hsu hs
      subst this
      rw [hposts] at hp'
      simp only [List.mem_cons, List.not_mem_nil, or_false] at hp'
      rcases hp' with e | e
      · rw [e, hv'] at hdest; cases hdest
      · rw [e, hv] at hdest; cases hdest
  have none_of : ∀ (l : List Rec) (g : Nat → List PostingInternal), (∀ r ∈ l, r.trn ≠ k) →
      (l.mapIdx (fun n r => { r with post := (g n).foldl absorb r.post })).filter (·.trn = k) = [] := by
    intro l g hl
    rw [List.filter_eq_nil_iff]
    intro r hr
    rw [List.mem_mapIdx] at hr
    obtain ⟨n, hn, rfl⟩ := hr
    rw [decide_eq_true_iff]
    exact hl l[n] (List.getElem_mem hn)
  rw [after_recs, List.filter_append, hnews, List.append_nil, hrecs, List.mapIdx_append, List.mapIdx_cons, List.mapIdx_append,
    List.mapIdx_cons, List.filter_append, none_of A _ hA, List.nil_append,
    List.filter_cons_of_pos (by simpa using hrp), List.filter_append, none_of B (fun n => J.hits ts (n + 1 + A.length)) hB, List.nil_append,
    List.filter_cons_of_pos (by simpa using hrq), none_of C (fun n => J.hits ts (n + 1 + B.length + 1 + A.length)) hC]
  have e1 : 0 + A.length = i := by omega
  have e2 : 0 + B.length + 1 + A.length = j := by omega
  simp only [e1, e2, hhi, hhj, List.map_cons, List.map_nil, List.foldl_cons, List.foldl_nil]

/-- A book read from a journal has its transactions. -/
theorem mem_entries_empty_after {ts : List TransactionPostings} {t : TransactionPostings} (ht : t ∈ ts) (hne : t.posts ≠ []) :
    t ∈ (Book.empty.after ts).entries := by
  obtain ⟨old, ho, _⟩ := entries_after empty_wf ts
  rw [ho]
  apply List.mem_append_right
  rw [List.mem_filter, decide_eq_true_iff]
  exact ⟨ht, fun hu => hne (empty_undecided.1 hu), empty_dests t⟩

/-- The postings of a book read from a journal. -/
theorem mem_recs_empty_after {ts : List TransactionPostings} {r : Rec} (hr : r ∈ (Book.empty.after ts).recs) :
    ∃ t ∈ ts, r.post ∈ t.posts ∧ r.date = dateOf t := by
  rcases mem_after.1 hr with ⟨i, hi, _⟩ | hr
  · cases hi
  · obtain ⟨t, ht, _, h1, _, h2, _⟩ := mem_news hr
    exact ⟨t, ht, h1, h2⟩

end Verif
