import Verif.Model.MatchSet

namespace Verif.MatchSet
variable {α : Type} [DecidableEq α]

/-- The elements of a match set, in order. -/
def elems : MatchSet α → List α
  | .zero => []
  | .one a => [a]
  | .many vs => vs

/-- The constructor tells the number of elements, and elements are distinct. -/
def WF (m : MatchSet α) : Prop := m.elems.Nodup ∧ ∀ vs, m = .many vs → 2 ≤ vs.length

omit [DecidableEq α] in
theorem wf_zero : WF (.zero : MatchSet α) := ⟨by simp [elems], by simp⟩

theorem elems_insert {m : MatchSet α} (v : α) :
    (m.insert v).elems = if v ∈ m.elems then m.elems else m.elems ++ [v] := by
  cases m with
  | zero => simp [insert, elems]
  | one e => 
    by_cases h : e = v
    · simp [insert, elems, h]
    · simp [insert, elems, h, Ne.symm h]
  | many vs => by_cases h : v ∈ vs <;> simp [insert, elems, h]

theorem wf_insert {m : MatchSet α} (h : m.WF) (v : α) : (m.insert v).WF := by
  refine ⟨?_, ?_⟩
  · rw [elems_insert]
    split
    · exact h.1
    · rename_i hv
      rw [List.nodup_append]
      refine ⟨h.1, by simp, ?_⟩
      simp only [List.mem_singleton]
      rintro a ha b rfl rfl
      exact hv ha
  · intro vs hvs
    cases m with
    | zero => simp [insert] at hvs
    | one e =>
      simp only [insert] at hvs
      split at hvs <;> simp at hvs
      subst hvs; simp
    | many ws =>
      have := h.2 ws rfl
      simp only [insert] at hvs
      split at hvs <;> simp at hvs <;> subst hvs
      · exact this
      · simp; omega

theorem foldl_insert (l : List α) (m : MatchSet α) (h : m.WF) :
    (l.foldl insert m).WF ∧ ∀ x, x ∈ (l.foldl insert m).elems ↔ x ∈ m.elems ∨ x ∈ l := by
  induction l generalizing m with
  | nil => simp [h]
  | cons a l ih =>
    have := ih (m.insert a) (wf_insert h a)
    refine ⟨this.1, fun x => ?_⟩
    rw [List.foldl_cons, this.2 x, elems_insert]
    split <;> simp <;> grind

theorem wf_fromIter (l : List α) : (fromIter l).WF := (foldl_insert l .zero wf_zero).1

theorem mem_elems_fromIter {l : List α} {x : α} : x ∈ (fromIter l).elems ↔ x ∈ l := by
  have := (foldl_insert l .zero wf_zero).2 x
  rw [fromIter, this]
  simp [elems]

theorem fromIter_zero {l : List α} (h : fromIter l = .zero) : l = [] := by
  apply List.eq_nil_iff_forall_not_mem.2
  intro x hx
  have := (mem_elems_fromIter (l := l)).2 hx
  simp [h, elems] at this

theorem fromIter_one {l : List α} {a : α} (h : fromIter l = .one a) : ∀ x, x ∈ l ↔ x = a := by
  intro x
  rw [← mem_elems_fromIter, h]; simp [elems]

theorem fromIter_many {l : List α} {vs : List α} (h : fromIter l = .many vs) :
    2 ≤ vs.length ∧ vs.Nodup ∧ ∀ x, x ∈ l ↔ x ∈ vs := by
  have hw := wf_fromIter l
  refine ⟨hw.2 vs h, ?_, fun x => ?_⟩
  · have := hw.1; rwa [h] at this
  · rw [← mem_elems_fromIter, h]; rfl

end Verif.MatchSet
