import Verif.Props.Matching4

/-!
# C16: exactly when the transactions handed back are the same on every run
-/

namespace Verif
open Spec Spec.Book Ex

/-- Every candidate for an unclear posting of the input has exactly one fingerprint. -/
def OneNameEach (J : Book) (ts : List TransactionPostings) : Prop :=
  ∀ t ∈ ts, ∀ p ∈ t.posts, J.Unclear (dateOf t) p → ∀ c ∈ J.softMatches (dateOf t) p, (fps c).length = 1
instance (J ts) : Decidable (OneNameEach J ts) := by unfold OneNameEach; infer_instance

theorem pickFp_sorted {J : Book} {i : Nat} {r : Rec} (hr : J.recs[i]? = some r) : pickFp HashOrder.sorted J i = (fps r.post).head?.getD [] := by
  unfold pickFp fingerprintsFromComment fps
  have : isFingerprint = fun t => decide (IsFp t) := funext isFingerprint_eq
  rw [hr, this]
  rfl

theorem pickFp_rev {J : Book} {i : Nat} {r : Rec} (hr : J.recs[i]? = some r) : pickFp HashOrder.rev J i = (fps r.post).getLast?.getD [] := by
  unfold pickFp fingerprintsFromComment fps
  have : isFingerprint = fun t => decide (IsFp t) := funext isFingerprint_eq
  rw [hr, this]
  show (((tagsOf r.post).toList.reverse.filter _).head?).getD [] = _
  rw [List.filter_reverse, List.head?_reverse]

theorem head_ne_last {l : List Str} (hn : l.Nodup) (h2 : 2 ≤ l.length) : l.head?.getD [] ≠ l.getLast?.getD [] := by
  match l, hn, h2 with
  | a :: b :: l, hn, _ =>
    rw [List.getLast?_cons_cons, List.getLast?_eq_getLast_of_ne_nil (List.cons_ne_nil b l)]
    simp only [List.head?_cons, Option.getD_some]
    intro e
    exact (List.nodup_cons.1 hn).1 (e ▸ List.getLast_mem _)

/-- C16: the transactions handed back are the same for all iteration orders exactly if every candidate for an unclear posting of the input
has only one fingerprint. -/
theorem C16_exact (calls : History) (ts : List TransactionPostings) (hacc : ∃ h u, ((run calls).merge h ts).1 = .ok u) :
    (∀ h h' : HashOrder, ((run calls).merge h ts).1 = ((run calls).merge h' ts).1) ↔ OneNameEach (ofHistory (inputs calls)) ts := by
  constructor
  swap
  · exact fun hone h h' => C16_partial calls calls rfl h h' ts hone
  intro hall t ht p hp hu c hc
  have hR := run_refines calls
  obtain ⟨h₀, u, hm₀⟩ := hacc
  have hnb := (merge_ok_iff hR h₀ ts).1 ⟨u, hm₀⟩
  obtain ⟨m₁, hm₁, _⟩ := merge_of_not_bad hR HashOrder.sorted hnb
  obtain ⟨m₂, hm₂, _⟩ := merge_of_not_bad hR HashOrder.rev hnb
  have e := hall HashOrder.sorted HashOrder.rev
  rw [hm₁, hm₂] at e
  have e := Except.ok.inj e
  set J := ofHistory (inputs calls)
  have hv := verdict_unclear hu
  have hund : Undecided J t := .inr ⟨_, List.mem_map_of_mem hp, by rw [hv]; rfl⟩
  have ht' : t ∈ ts.filter (fun t => Undecided J t) := List.mem_filter.2 ⟨ht, by simpa using hund⟩
  have e := congrArg TransactionPostings.posts (List.map_inj_left.1 e t ht')
  have e := List.map_inj_left.1 e p hp
  unfold handBackPost at e
  rw [hv] at e
  simp only at e
  rw [← softHits_posts] at hc
  obtain ⟨i, hi, r, hr, rfl⟩ := mem_postsAt.1 hc
  have hne := hR.wf.hasFp r (List.mem_of_getElem? hr)
  by_contra hlen
  have h2 : 2 ≤ (fps r.post).length := by
    have := List.length_pos_of_ne_nil hne
    omega
  have hm : candPrefix ++ pickFp HashOrder.sorted J i ∈ tagsOf (annotate (pickFp HashOrder.sorted J) (J.softHits (dateOf t) p) p) :=
    mem_annotate.2 (.inr ⟨i, hi, rfl⟩)
  rw [e] at hm
  rcases mem_annotate.1 hm with hm | ⟨j, hj, hm⟩
  · exact ((good_iff.2 hnb).ok p (mem_allPosts.2 ⟨t, ht, hp⟩)).1 _ hm (List.prefix_append ..)
  · have hm := List.append_cancel_left hm
    have hrj := List.getElem?_eq_getElem (where_lt hj)
    have a1 := pickFp_ok (h := HashOrder.sorted) hR.wf i _ hr
    have a2 := pickFp_ok (h := HashOrder.rev) hR.wf j _ hrj
    have := hR.wf.unique i j _ _ hr hrj ⟨_, a1, hm ▸ a2⟩
    subst this
    rw [pickFp_sorted hr, pickFp_rev hr] at hm
    exact head_ne_last (fps_nodup _) h2 hm

set_option maxRecDepth 100000 in
/-- With the candidates of one fingerprint the claim holds, with those of two it does not. -/
example : (∃ u, ((run hist).merge HashOrder.sorted unclear).1 = .ok u) ∧ OneNameEach (ofHistory (inputs hist)) unclear ∧
    (∃ u, ((run [(HashOrder.sorted, doubles)]).merge HashOrder.sorted unclear).1 = .ok u) ∧
    ¬ OneNameEach (ofHistory (inputs [(HashOrder.sorted, doubles)])) unclear := by
  refine ⟨⟨_, rfl⟩, ?_, ⟨_, rfl⟩, ?_⟩
  · rw [ofHistory_eval]; decide +kernel
  · rw [ofHistory_eval]; decide +kernel

end Verif
