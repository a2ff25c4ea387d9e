import Verif.Proofs.Entries
import Verif.Proofs.FirstError
import Verif.Spec.Outcome

/-!
# What is handed back
-/

namespace Verif
open Spec Spec.Book

theorem annotated_self (p : PostingInternal) : Annotated [] p p :=
  ⟨rfl, rfl, rfl, [], List.Forall₂.nil, by simp⟩

/-- The postings at the given records. -/
def Spec.Book.postsAt (J : Book) (is : List Nat) : List PostingInternal := is.filterMap (fun i => (J.recs[i]?).map (·.post))

theorem mem_postsAt {J : Book} {is : List Nat} {p : PostingInternal} :
    p ∈ J.postsAt is ↔ ∃ i ∈ is, ∃ r, J.recs[i]? = some r ∧ r.post = p := by
  unfold Spec.Book.postsAt
  simp only [List.mem_filterMap, Option.map_eq_some_iff]

theorem annotate_annotated {J : Book} {pick : Nat → Str} (hpick : ∀ i r, J.recs[i]? = some r → pick i ∈ fps r.post)
    (is : List Nat) (his : ∀ i ∈ is, i < J.recs.length) (p : PostingInternal) :
    Annotated (J.postsAt is) p (annotate pick is p) := by
  refine ⟨rfl, rfl, rfl, is.map pick, ?_, ?_⟩
  · unfold Spec.Book.postsAt
    induction is with
    | nil => exact List.Forall₂.nil
    | cons i is ih =>
      have hi := his i (by simp)
      rw [List.filterMap_cons, List.getElem?_eq_getElem hi]
      exact List.Forall₂.cons (hpick i _ (List.getElem?_eq_getElem hi)) (ih (fun j hj => his j (by simp [hj])))
  · intro t
    rw [mem_annotate]
    simp

theorem ambiguous_softHits {J : Book} {d : Date} {p : PostingInternal} {is : List Nat} (hv : J.verdict d p = .ambiguous is) :
    J.fpHits p = [] ∧ is = J.softHits d p ∧ 2 ≤ is.length := by
  unfold verdict at hv
  split at hv
  · cases hv
  · cases hv
  · rename_i h0
    refine ⟨h0, ?_⟩
    split at hv
    · cases hv
    · cases hv
    · rename_i h1 h2
      cases hv
      refine ⟨rfl, ?_⟩
      match hl : J.softHits d p with
      | [] => exact absurd hl h1
      | [a] => exact absurd hl (h2 a)
      | _ :: _ :: _ => simp

/-- The postings that an ambiguous posting could be. -/
def Spec.Book.candidates (J : Book) (d : Date) (p : PostingInternal) : List PostingInternal :=
  match J.verdict d p with
  | .ambiguous is => J.postsAt is
  | _ => []

theorem handBackPost_annotated {J : Book} {pick : Nat → Str} (hpick : ∀ i r, J.recs[i]? = some r → pick i ∈ fps r.post)
    (d : Date) (p : PostingInternal) : Annotated (J.candidates d p) p (J.handBackPost pick d p) := by
  unfold handBackPost Spec.Book.candidates
  cases hv : J.verdict d p with
  | ambiguous is =>
    apply annotate_annotated hpick
    intro i hi
    rw [(ambiguous_softHits hv).2.1] at hi
    exact where_lt hi
  | new => exact annotated_self p
  | into i => exact annotated_self p
  | conflict => exact annotated_self p

theorem pickFp_ok {h : HashOrder} {J : Book} (hJ : J.WF) : ∀ i r, J.recs[i]? = some r → pickFp h J i ∈ fps r.post :=
  fun _ _ hr => pickFp_mem hJ hr

theorem candidates_mem {J : Book} (hw : J.WF) {d : Date} {p c : PostingInternal} (hc : c ∈ J.candidates d p) :
    c ∈ postingsOf J.journal := by
  unfold Spec.Book.candidates at hc
  split at hc
  · obtain ⟨i, _, r, hr, rfl⟩ := mem_postsAt.1 hc
    exact (mem_journal_posts hw).2 ⟨i, r, hr, rfl⟩
  · cases hc

theorem handBack_handedBack {J : Book} (hw : J.WF) {pick : Nat → Str}
    (hpick : ∀ i r, J.recs[i]? = some r → pick i ∈ fps r.post) (t : TransactionPostings) :
    HandedBack J.journal t (J.handBack pick t) := by
  refine ⟨rfl, ?_⟩
  unfold handBack
  rw [List.forall₂_map_right_iff, List.forall₂_same]
  intro p _
  exact ⟨J.candidates (dateOf t) p, fun c hc => candidates_mem hw hc, handBackPost_annotated hpick _ p⟩

theorem forall₂_mem_left {α β : Type} {Rel : α → β → Prop} {l : List α} {l' : List β} (h : List.Forall₂ Rel l l') {a : α}
    (ha : a ∈ l) : ∃ b ∈ l', Rel a b := by
  induction h with
  | nil => cases ha
  | cons hab _ ih =>
    rcases List.mem_cons.1 ha with rfl | ha
    · exact ⟨_, by simp, hab⟩
    · obtain ⟨b, hb, hr⟩ := ih ha
      exact ⟨b, by simp [hb], hr⟩

theorem forall₂_imp_mem {α β : Type} {R S : α → β → Prop} {l : List α} {m : List β} (h : List.Forall₂ R l m)
    (hS : ∀ a b, a ∈ l → b ∈ m → R a b → S a b) : List.Forall₂ S l m := by
  induction h with
  | nil => exact .nil
  | cons r _ ih =>
    exact .cons (hS _ _ (by simp) (by simp) r) (ih fun a b ha hb => hS a b (List.mem_cons_of_mem _ ha) (List.mem_cons_of_mem _ hb))

end Verif
