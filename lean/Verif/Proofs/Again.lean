import Verif.Spec.Again
import Verif.Proofs.MergeAgain

/-!
# Running `merge` again: what was merged stays merged
-/

namespace Verif
open Spec Spec.Book

/-- The transactions that the merge calls do not leave over. -/
def decidedOf : Book → List (List TransactionPostings) → List (List TransactionPostings)
  | _, [] => []
  | J, g :: gs => g.filter (fun t => ¬ Undecided J t) :: decidedOf (J.after g) gs

theorem decided_calls {J : Book} {gs : List (List TransactionPostings)} (hb : ¬ Refused J gs) :
    ¬ Refused J (decidedOf J gs) ∧ leftOver J (decidedOf J gs) = [] ∧ (decidedOf J gs).foldl Book.after J = gs.foldl Book.after J := by
  induction gs generalizing J with
  | nil => exact ⟨id, rfl, rfl⟩
  | cons g gs ih =>
    obtain ⟨h1, h2, h3⟩ := ih fun h => hb (.inr h)
    have he : J.after (g.filter fun t => ¬ Undecided J t) = J.after g := after_filter J g
    have hg : Good J (g.filter fun t => ¬ Undecided J t) := good_sublist List.filter_sublist (good_iff.2 fun h => hb (.inl h))
    refine ⟨?_, ?_, ?_⟩
    · rintro (h | h)
      · exact good_iff.1 hg h
      · rw [he] at h; exact h1 h
    · rw [decidedOf, leftOver_cons_nil, he]
      exact ⟨fun t ht => of_decide_eq_true (List.mem_filter.1 ht).2, h2⟩
    · rw [decidedOf, List.foldl_cons, he, h3]
      rfl

theorem leftOver_sublist (J : Book) (gs : List (List TransactionPostings)) : (leftOver J gs).Sublist gs.flatten := by
  induction gs generalizing J with
  | nil => exact List.Sublist.slnil
  | cons g gs ih => rw [List.flatten_cons]; exact List.filter_sublist.append (ih _)

theorem filter_sublist_filter {α : Type} {P Q : α → Bool} {l : List α} (h : ∀ a ∈ l, P a = true → Q a = true) :
    (l.filter P).Sublist (l.filter Q) := by
  induction l with
  | nil => exact List.Sublist.slnil
  | cons a l ih =>
    have ih := ih fun b hb => h b (by simp [hb])
    by_cases hp : P a = true
    · rw [List.filter_cons_of_pos hp, List.filter_cons_of_pos (h a (by simp) hp)]
      exact ih.cons_cons a
    · rw [List.filter_cons_of_neg hp]
      by_cases hq : Q a = true
      · rw [List.filter_cons_of_pos hq]; exact ih.cons a
      · rw [List.filter_cons_of_neg hq]; exact ih

/-- What a book knows to be merged is not left over by any later book; and if not less is left over, the same is decided. -/
theorem leftOver_less {K : Book} {gs : List (List TransactionPostings)} {J K' : Book} (hr : Reached K') (he : Ext K K')
    (hb : ¬ Refused K' gs) (hs : ∀ d ∈ decidedOf J gs, Settled K d) :
    (leftOver K' gs).Sublist (leftOver J gs) ∧ ((leftOver K' gs).length = (leftOver J gs).length → decidedOf K' gs = decidedOf J gs) := by
  induction gs generalizing J K' with
  | nil => exact ⟨List.Sublist.slnil, fun _ => rfl⟩
  | cons g gs ih =>
    have hb1 : ¬ K'.Bad g := fun h => hb (.inl h)
    obtain ⟨h1, h2⟩ := ih (hr.after hb1) (he.trans (ext_after K' g)) (fun h => hb (.inr h)) fun d hd => hs d (List.mem_cons_of_mem _ hd)
    have hset : Settled K' (g.filter fun t => ¬ Undecided J t) := (hs _ (List.mem_cons_self ..)).mono he hr.wf
    have himp : ∀ t ∈ g, Undecided K' t → Undecided J t := by
      intro t ht hu
      by_contra hx
      exact hset.decided hr.wf (List.mem_filter.2 ⟨ht, decide_eq_true hx⟩) hu
    have hsub : (g.filter fun t => Undecided K' t).Sublist (g.filter fun t => Undecided J t) :=
      filter_sublist_filter fun t ht h => decide_eq_true (himp t ht (of_decide_eq_true h))
    refine ⟨hsub.append h1, ?_⟩
    intro hlen
    have hlen : ((g.filter fun t => Undecided K' t) ++ leftOver (K'.after g) gs).length =
      ((g.filter fun t => Undecided J t) ++ leftOver (J.after g) gs).length := hlen
    rw [List.length_append, List.length_append] at hlen
    have l1 := hsub.length_le
    have l2 := h1.length_le
    have e1 := hsub.eq_of_length (by omega)
    rw [decidedOf, decidedOf, h2 (by omega)]
    congr 1
    apply List.filter_congr
    intro t ht
    rw [decide_eq_decide]
    constructor
    · intro hn hx
      have : t ∈ g.filter fun t => decide (Undecided K' t) := by
        rw [e1]; exact List.mem_filter.2 ⟨ht, decide_eq_true hx⟩
      exact hn (of_decide_eq_true (List.mem_filter.1 this).2)
    · exact fun hn hx => hn (himp t ht hx)

/-- Two runs, the second with the journal of the first: the second leaves nothing over that the first did not, and nothing of the journal.
If it leaves over as much as the first, then it makes the same journal. -/
theorem second_run {js : List TransactionPostings} {gs : List (List TransactionPostings)} (hb : ¬ Refused Book.empty (js :: gs))
    (hb' : ¬ Refused Book.empty ((bookAfter (js :: gs)).journal :: gs)) :
    (∀ t ∈ (bookAfter (js :: gs)).journal, ¬ Undecided Book.empty t) ∧
    (leftOver (Book.empty.after (bookAfter (js :: gs)).journal) gs).Sublist (leftOver (Book.empty.after js) gs) ∧
    ((leftOver (Book.empty.after (bookAfter (js :: gs)).journal) gs).length = (leftOver (Book.empty.after js) gs).length →
      (bookAfter ((bookAfter (js :: gs)).journal :: gs)).journal = (bookAfter (js :: gs)).journal) := by
  obtain ⟨d1, d2, d3⟩ := decided_calls hb
  obtain ⟨hr, hm⟩ := made_of_calls reached_empty made_empty d1 d2
  have hJ : bookAfter (decidedOf Book.empty (js :: gs)) = bookAfter (js :: gs) := d3
  rw [List.nil_append] at hm
  change Reached (bookAfter _) at hr
  change Made (bookAfter _) _ at hm
  have ha := merge_again (gs := [js.filter fun t => ¬ Undecided Book.empty t]) (late := decidedOf (Book.empty.after js) gs) d1 d2
    (f := id) (fun t => ⟨rfl, rfl⟩)
  rw [List.map_id] at ha
  obtain ⟨a1, a2, a3⟩ := ha
  change leftOver Book.empty ((bookAfter (decidedOf Book.empty (js :: gs))).journal :: _) = [] at a2
  change (bookAfter ((bookAfter (decidedOf Book.empty (js :: gs))).journal :: _)).journal = (bookAfter (decidedOf Book.empty (js :: gs))).journal at a3
  rw [hJ] at a2 a3 hr hm
  have hp : Populated (bookAfter (js :: gs)) :=
    populated_of_calls reached_empty (by intro t ht; simp [Spec.Book.entries, Spec.Book.empty] at ht) hb
  set J := bookAfter (js :: gs)
  have hK : Reached (Book.empty.after J.journal) := reached_empty.after fun h => hb' (.inl h)
  have hKj : (Book.empty.after J.journal).journal = J.journal := journal_of_journal hp
  have hset : ∀ d ∈ decidedOf (Book.empty.after js) gs, Settled (Book.empty.after J.journal) d := by
    intro d hd
    have := (hm.settled d (List.mem_cons_of_mem _ hd)).contains hr.wf
    rw [← hKj] at this
    exact this.settled hK.wf
  obtain ⟨h1, h2⟩ := leftOver_less hK (ext_refl _) (fun h => hb' (.inr h)) hset
  refine ⟨(leftOver_cons_nil.1 a2).1, h1, fun hlen => ?_⟩
  have hd := h2 hlen
  obtain ⟨_, _, e3⟩ := decided_calls (J := Book.empty.after J.journal) (gs := gs) fun h => hb' (.inr h)
  rw [hd] at e3
  show (gs.foldl Book.after (Book.empty.after J.journal)).journal = _
  rw [← e3]
  exact a3

end Verif
