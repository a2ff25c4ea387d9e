import Verif.Proofs.MatchSet
import Verif.Spec.Containers
import Verif.Base.Str

/-!
# Containers (C61, C64)
-/

namespace Verif
open Spec

namespace MatchSet
variable {α : Type} [DecidableEq α]

theorem mem_distinct {l : List α} {x : α} : x ∈ distinct l ↔ x ∈ l := by
  induction l with
  | nil => simp [distinct]
  | cons a l ih =>
    rw [distinct, List.mem_cons, List.mem_cons, List.mem_filter, ih]
    by_cases h : x = a <;> simp [h]

/-- The distinct elements are distinct. -/
theorem distinct_nodup (l : List α) : (distinct l).Nodup := by
  induction l with
  | nil => simp [distinct]
  | cons a l ih =>
    rw [distinct, List.nodup_cons]
    exact ⟨by simp, ih.filter _⟩

theorem distinct_snoc (l : List α) (v : α) : distinct (l ++ [v]) = if v ∈ l then distinct l else distinct l ++ [v] := by
  induction l with
  | nil => simp [distinct]
  | cons a l ih =>
    rw [List.cons_append, distinct, ih, distinct]
    by_cases hv : v ∈ l
    · rw [if_pos hv, if_pos (List.mem_cons_of_mem _ hv)]
    · rw [if_neg hv, List.filter_append]
      by_cases ha : v = a
      · subst ha; simp
      · rw [if_neg (by simp [ha, hv])]
        simp [ha]

theorem elems_fromIter (l : List α) : (fromIter l).elems = distinct l := by
  suffices h : ∀ (p l : List α) (m : MatchSet α), m.elems = distinct p → (l.foldl insert m).elems = distinct (p ++ l) by
    have := h [] l .zero rfl
    rwa [List.nil_append] at this
  intro p l
  induction l generalizing p with
  | nil => intro m hm; simpa using hm
  | cons a l ih =>
    intro m hm
    rw [List.foldl_cons, show p ++ a :: l = (p ++ [a]) ++ l by simp]
    apply ih
    rw [elems_insert, hm, distinct_snoc]
    simp only [mem_distinct]

omit [DecidableEq α] in
theorem yields_many (vs : List α) : Yields (.many vs) vs := by
  induction vs with
  | nil => exact .done rfl rfl
  | cons a vs ih => exact .step rfl rfl ih

omit [DecidableEq α] in
theorem yields_elems (m : MatchSet α) : Yields m.intoIter m.elems := by
  cases m with
  | zero => exact .done rfl rfl
  | one a => exact .step rfl rfl (.done rfl rfl)
  | many vs => exact yields_many vs

/-- C61: a set collected from a sequence iterates over the distinct elements in the order of their first occurrences, and the
iterator always announces the right number. -/
theorem C61_iteration (l : List α) : Yields (fromIter l).intoIter (distinct l) := by
  rw [← elems_fromIter]; exact yields_elems _

omit [DecidableEq α] in
/-- C61: an iterator gives only one sequence, so `C61_iteration` says it all. -/
theorem C61_unique {it : Iter α} {l l' : List α} (h : Yields it l) (h' : Yields it l') : l = l' := by
  induction h generalizing l' with
  | done h1 _ =>
    cases h' with
    | done => rfl
    | step h2 _ _ => rw [h1] at h2; cases h2
  | step h1 _ _ ih =>
    cases h' with
    | done h2 => rw [h1] at h2; cases h2
    | step h2 _ h3 =>
      rw [h1] at h2
      cases h2
      rw [ih h3]

/-- C61: the three cases stand for no, one, and two or more distinct elements, and `len` is their number. -/
theorem C61_cases (l : List α) :
    (fromIter l = .zero ↔ distinct l = []) ∧ (∀ a, fromIter l = .one a ↔ distinct l = [a]) ∧
    (∀ vs, fromIter l = .many vs ↔ distinct l = vs ∧ 2 ≤ vs.length) ∧ (fromIter l).len = (distinct l).length := by
  have he := elems_fromIter l
  have hw := (wf_fromIter l).2
  cases hm : fromIter l with
  | zero =>
    rw [hm] at he
    rw [← he]
    refine ⟨by simp [elems], by simp [elems], ?_, rfl⟩
    intro vs
    simp only [elems, reduceCtorEq, false_iff, not_and]
    rintro rfl; simp
  | one b =>
    rw [hm] at he
    rw [← he]
    refine ⟨by simp [elems], by simp [elems], ?_, rfl⟩
    intro vs
    simp only [elems, reduceCtorEq, false_iff, not_and]
    rintro rfl; simp
  | many ws =>
    rw [hm] at he
    rw [← he]
    have h2 := hw ws hm
    refine ⟨?_, ?_, ?_, rfl⟩
    · simp only [elems, reduceCtorEq, false_iff]; rintro rfl; simp at h2
    · intro a; simp only [elems, reduceCtorEq, false_iff]; rintro rfl; simp at h2
    · intro vs
      simp only [elems, many.injEq]
      constructor
      · rintro rfl; exact ⟨rfl, h2⟩
      · rintro ⟨rfl, _⟩; rfl

/-- The cases of the tests of the code, and their order. -/
example : distinct [1, 2, 1, 2] = [1, 2] ∧ distinct [3, 1, 3, 2, 1] = [3, 1, 2] ∧ fromIter [1, 2, 1, 2] = .many [1, 2] ∧
    fromIter [1, 1, 1, 1] = .one 1 ∧ fromIter ([] : List Nat) = .zero := by decide

end MatchSet

namespace MutCell
variable {α : Type}

theorem runCell_poisoned (ops : List (CellOp α)) :
    runCell .poisoned ops = (ops.map fun _ => .error .poisoned, .poisoned) := by
  induction ops with
  | nil => rfl
  | cons op ops ih => cases op <;> simp [runCell, ih, mapValue, asMut, intoInner, clone, Except.map]

/-- C64: as long as the functions return normally, no access panics, and the cell holds what the updates make of the value, one after
the other. -/
theorem C64_value (v w : α) (ops : List (CellOp α)) (h : ops.foldlM (fun x op => op.effect x) v = .ok w) :
    runCell (.new v) ops = (ops.map fun _ => .ok (), .value w) ∧ (runCell (.new v) ops).2.isPoisoned = false := by
  have : runCell (.new v) ops = (ops.map fun _ => .ok (), .value w) := by
    induction ops generalizing v with
    | nil => cases h; rfl
    | cons op ops ih =>
      rw [List.foldlM_cons] at h
      cases hx : op.effect v with
      | error e => rw [hx] at h; cases h
      | ok x =>
        rw [hx] at h
        have ih := ih x h
        unfold new at ih ⊢
        cases op <;> simp only [CellOp.effect] at hx
        · simp only [runCell, mapValue, hx, ih, List.map_cons]
        all_goals
          cases hx
          simp only [runCell, asMut, intoInner, clone, Except.map, ih, List.map_cons]
  exact ⟨this, by rw [this]; rfl⟩

/-- C64: when a function panics, that access panics with the same cause, the cell is poisoned, and every later access panics. -/
theorem C64_poisoned (v w : α) (before after : List (CellOp α)) (f : α → Except Panic α) (p : Panic)
    (hb : before.foldlM (fun x op => op.effect x) v = .ok w) (hf : f w = .error p) :
    runCell (.new v) (before ++ .map f :: after) =
      ((before.map fun _ => .ok ()) ++ .error p :: (after.map fun _ => .error .poisoned), .poisoned) ∧
    (runCell (.new v) (before ++ .map f :: after)).2.isPoisoned = true := by
  have : runCell (.new v) (before ++ .map f :: after) =
      ((before.map fun _ => .ok ()) ++ .error p :: (after.map fun _ => .error .poisoned), .poisoned) := by
    induction before generalizing v with
    | nil =>
      cases hb
      simp only [List.nil_append, List.map_nil, runCell, new, mapValue, hf, runCell_poisoned]
    | cons op ops ih =>
      rw [List.foldlM_cons] at hb
      cases hx : op.effect v with
      | error e => rw [hx] at hb; cases hb
      | ok x =>
        rw [hx] at hb
        have ih := ih x hb
        unfold new at ih ⊢
        cases op <;> simp only [CellOp.effect] at hx
        · simp only [List.cons_append, runCell, mapValue, hx, ih, List.map_cons]
        all_goals
          cases hx
          simp only [List.cons_append, runCell, asMut, intoInner, clone, Except.map, ih, List.map_cons]
  exact ⟨this, by rw [this]; rfl⟩

/-- C64: these are all cases: either every function returns normally, or there is a first one that panics. -/
theorem C64_cases (v : α) (ops : List (CellOp α)) : (∃ w, ops.foldlM (fun x op => op.effect x) v = .ok w) ∨
    ∃ before f after w p, ops = before ++ .map f :: after ∧ before.foldlM (fun x op => op.effect x) v = .ok w ∧ f w = .error p := by
  induction ops generalizing v with
  | nil => exact Or.inl ⟨v, rfl⟩
  | cons op ops ih =>
    cases hx : op.effect v with
    | error e =>
      cases op with
      | map f => exact Or.inr ⟨[], f, ops, v, e, rfl, rfl, hx⟩
      | modify f => cases hx
      | read => cases hx
      | clone => cases hx
      | inner => cases hx
    | ok x =>
      rcases ih x with ⟨w, h⟩ | ⟨before, f, after, w, p, rfl, h1, h2⟩
      · exact Or.inl ⟨w, by rw [List.foldlM_cons, hx]; exact h⟩
      · exact Or.inr ⟨op :: before, f, after, w, p, rfl, by rw [List.foldlM_cons, hx]; exact h1, h2⟩

/-- C64: comparing cells panics exactly if one of them is poisoned, and compares the values otherwise. -/
theorem C64_eq [DecidableEq α] (a b : MutCell α) :
    a.eq b = if a.isPoisoned || b.isPoisoned then .error .poisoned else .ok (decide (a = b)) := by
  cases a <;> cases b <;> simp [MutCell.eq, intoInner, isPoisoned, bind, Except.bind, pure, Except.pure]

/-- As in the test of the code, then with a function that panics. -/
example :
    runCell (.new 5) [.read, .map fun x => .ok (x * 2), .modify (· + 1), .read] = ([.ok (), .ok (), .ok (), .ok ()], .value 11) ∧
    runCell (.new 5) [.modify (· + 1), .map fun x => if x = 6 then .error .other else .ok x, .read] =
      ([.ok (), .error .other, .error .poisoned], .poisoned) := by decide

end MutCell
end Verif
