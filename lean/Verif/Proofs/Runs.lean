import Verif.Spec.Runs
import Mathlib.Data.List.Forall2

/-!
# Runs of elements with equal keys, and loops that can fail
-/

namespace Verif
open Spec

/-- The runs of a list. -/
def runsOf {α κ : Type} [DecidableEq κ] (key : α → κ) : List α → List (List α)
  | [] => []
  | x :: xs =>
    match runsOf key xs with
    | (y :: g) :: rest => if key x = key y then (x :: y :: g) :: rest else [x] :: (y :: g) :: rest
    | _ => [[x]]

theorem runsOf_runs {α κ : Type} [DecidableEq κ] (key : α → κ) (l : List α) : Runs key l (runsOf key l) := by
  induction l with
  | nil => exact ⟨rfl, by simp [runsOf], by simp [runsOf], by simp [runsOf]⟩
  | cons x xs ih =>
    obtain ⟨h1, h2, h3, h4⟩ := ih
    unfold runsOf
    split
    · rename_i y g rest e
      rw [e] at h1 h2 h3 h4
      have hy := h3 (y :: g) List.mem_cons_self
      by_cases hk : key x = key y
      · rw [if_pos hk]
        refine ⟨?_, ?_, ?_, ?_⟩
        · rw [← h1]; simp
        · intro g' hg'
          rcases List.mem_cons.1 hg' with rfl | hg'
          · simp
          · exact h2 g' (List.mem_cons_of_mem _ hg')
        · intro g' hg'
          rcases List.mem_cons.1 hg' with rfl | hg'
          · intro a ha b hb
            have : ∀ c ∈ x :: y :: g, key c = key y := by
              intro c hc
              rcases List.mem_cons.1 hc with rfl | hc
              · exact hk
              · exact hy c hc y List.mem_cons_self
            rw [this a ha, this b hb]
          · exact h3 g' (List.mem_cons_of_mem _ hg')
        · intro i g1 g2 e1 e2 a ha b hb
          cases i with
          | zero =>
            cases e1
            rcases List.mem_cons.1 ha with rfl | ha
            · rw [hk]; exact h4 0 (y :: g) g2 rfl e2 y List.mem_cons_self b hb
            · exact h4 0 (y :: g) g2 rfl e2 a ha b hb
          | succ i => exact h4 (i + 1) g1 g2 e1 e2 a ha b hb
      · rw [if_neg hk]
        refine ⟨?_, ?_, ?_, ?_⟩
        · rw [← h1]; simp
        · intro g' hg'
          rcases List.mem_cons.1 hg' with rfl | hg'
          · simp
          · exact h2 g' hg'
        · intro g' hg'
          rcases List.mem_cons.1 hg' with rfl | hg'
          · intro a ha b hb
            rw [List.mem_singleton.1 ha, List.mem_singleton.1 hb]
          · exact h3 g' hg'
        · intro i g1 g2 e1 e2 a ha b hb
          cases i with
          | zero =>
            cases e1
            cases e2
            rw [List.mem_singleton.1 ha, hy b hb y List.mem_cons_self]
            exact hk
          | succ i => exact h4 i g1 g2 e1 e2 a ha b hb
    · rename_i hne
      have hnil : runsOf key xs = [] := by
        cases e : runsOf key xs with
        | nil => rfl
        | cons g rest =>
          cases g with
          | nil => exact absurd rfl (h2 [] (by rw [e]; exact List.mem_cons_self))
          | cons y g => exact absurd e (hne y g rest)
      rw [hnil] at h1
      refine ⟨?_, ?_, ?_, ?_⟩
      · rw [← h1]; rfl
      · simp
      · intro g hg a ha b hb
        obtain rfl := List.mem_singleton.1 hg
        rw [List.mem_singleton.1 ha, List.mem_singleton.1 hb]
      · intro i g1 g2 e1 e2
        cases i <;> cases e2

theorem Spec.Runs.head {α κ : Type} {key : α → κ} {l : List α} {g : List α} {gs : List (List α)} (h : Runs key l (g :: gs)) :
    ∃ x g' , g = x :: g' ∧ ∀ y ∈ g, key y = key x := by
  cases g with
  | nil => exact absurd rfl (h.nonempty [] List.mem_cons_self)
  | cons x g' => exact ⟨x, g', rfl, fun y hy => h.same _ List.mem_cons_self y hy x List.mem_cons_self⟩

theorem Spec.Runs.tail {α κ : Type} {key : α → κ} {l : List α} {g : List α} {gs : List (List α)} (h : Runs key l (g :: gs)) :
    Runs key gs.flatten gs :=
  ⟨rfl, fun x hx => h.nonempty x (List.mem_cons_of_mem _ hx), fun x hx => h.same x (List.mem_cons_of_mem _ hx),
    fun i g1 g2 e1 e2 => h.differ (i + 1) g1 g2 e1 e2⟩

/-- A list has only one division into runs. -/
theorem Spec.Runs.unique {α κ : Type} {key : α → κ} : ∀ {gs gs' : List (List α)} {l : List α}, Runs key l gs → Runs key l gs' → gs = gs'
  | [], [], _, _, _ => rfl
  | [], g :: gs, l, h, h' => by
    have e := h.flatten.trans h'.flatten.symm
    obtain ⟨x, g', rfl, _⟩ := h'.head
    simp at e
  | g :: gs, [], l, h, h' => by
    have e := h.flatten.trans h'.flatten.symm
    obtain ⟨x, g', rfl, _⟩ := h.head
    simp at e
  | g :: gs, g' :: gs', l, h, h' => by
    have e := h.flatten.trans h'.flatten.symm
    rw [List.flatten_cons, List.flatten_cons] at e
    have hg : g = g' := by
      rcases List.append_eq_append_iff.1 e with ⟨as, e1, e2⟩ | ⟨as, e1, e2⟩
      · -- g' = g ++ as, gs.flatten = as ++ gs'.flatten
        cases as with
        | nil => rw [e1, List.append_nil]
        | cons a as =>
          exfalso
          cases gs with
          | nil => simp at e2
          | cons k gs =>
            obtain ⟨y, k', rfl, _⟩ := h.tail.head
            rw [List.flatten_cons, List.cons_append, List.cons_append] at e2
            obtain ⟨rfl, _⟩ := List.cons.inj e2
            obtain ⟨x, g1, rfl, _⟩ := h.head
            refine h.differ 0 _ _ rfl rfl x List.mem_cons_self y List.mem_cons_self ?_
            exact h'.same _ List.mem_cons_self _ (by rw [e1]; simp) _ (by rw [e1]; simp)
      · cases as with
        | nil => rw [e1, List.append_nil]
        | cons a as =>
          exfalso
          cases gs' with
          | nil => simp at e2
          | cons k gs' =>
            obtain ⟨y, k', rfl, _⟩ := h'.tail.head
            rw [List.flatten_cons, List.cons_append, List.cons_append] at e2
            obtain ⟨rfl, _⟩ := List.cons.inj e2
            obtain ⟨x, g1, rfl, _⟩ := h'.head
            refine h'.differ 0 _ _ rfl rfl x List.mem_cons_self y List.mem_cons_self ?_
            exact h.same _ List.mem_cons_self _ (by rw [e1]; simp) _ (by rw [e1]; simp)
    subst hg
    have e' := List.append_cancel_left e
    rw [Spec.Runs.unique h.tail (by rw [e']; exact h'.tail)]

theorem mapM_ok {α β ε : Type} {f : α → Except ε β} : ∀ {l : List α} {r : List β},
    l.mapM f = .ok r ↔ List.Forall₂ (fun a b => f a = .ok b) l r
  | [], r => by
    rw [List.mapM_nil]
    constructor
    · intro h; cases h; exact .nil
    · intro h; cases h; rfl
  | a :: l, r => by
    rw [List.mapM_cons]
    constructor
    · intro h
      cases hb : f a with
      | error e => rw [hb] at h; cases h
      | ok b =>
        rw [hb] at h
        cases hr : l.mapM f with
        | error e =>
          change (do let bs ← l.mapM f; pure (b :: bs)) = _ at h
          rw [hr] at h; cases h
        | ok bs =>
          change (do let bs ← l.mapM f; pure (b :: bs)) = _ at h
          rw [hr] at h
          cases h
          exact .cons hb (mapM_ok.1 hr)
    · intro h
      cases h with
      | cons h1 h2 =>
        rw [h1]
        show (do let bs ← l.mapM f; pure (_ :: bs)) = _
        rw [mapM_ok.2 h2]
        rfl

end Verif
