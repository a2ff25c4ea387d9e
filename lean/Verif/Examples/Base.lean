import Verif.Proofs.Journal

/-!
# Concrete journals for examples

Builders for the concrete cases shown beside the theorems, and a form of `build` that the kernel can evaluate.
-/

namespace Verif.Ex
open Spec

/-- Equality of results, in a form that the kernel can evaluate. -/
instance (priority := high) instDecEqExcept {ε α : Type} [DecidableEq ε] [DecidableEq α] : DecidableEq (Except ε α)
  | .ok a, .ok b => decidable_of_iff (a = b) (by simp)
  | .error a, .error b => decidable_of_iff (a = b) (by simp)
  | .ok _, .error _ => isFalse (by simp)
  | .error _, .ok _ => isFalse (by simp)

/-- A real posting of `q` pence with the given tags. -/
def post (acct : String) (q : Int) (tags : List String) : PostingInternal :=
  ⟨⟨acct.toList, .real, some ⟨⟨⟨q < 0, q.natAbs, 2⟩, ⟨"GBP".toList, .left⟩⟩, none, none⟩, none, none, none⟩,
   tags.foldl (fun c f => c.withTag f.toList) Comment.empty⟩

/-- A transaction on a day of January 2020. -/
def trn (d : Nat) (desc : String) (ps : List PostingInternal) : TransactionPostings :=
  ⟨⟨⟨none, ⟨2020, 1, d⟩, none, none, none, desc.toList, []⟩, Comment.empty⟩, ps⟩

/-- Insert by key, before later keys and after equal ones seen later in the list. -/
def ins {α : Type} (key : α → Date) (a : α) : List α → List α
  | [] => [a]
  | b :: l => if (compare (key a) (key b)).isLE then a :: b :: l else b :: ins key a l

/-- Stable insertion sort. -/
def insSort {α : Type} (key : α → Date) : List α → List α
  | [] => []
  | a :: l => ins key a (insSort key l)

theorem ins_mem {α : Type} {key : α → Date} {a x : α} {l : List α} : x ∈ ins key a l ↔ x = a ∨ x ∈ l := by
  induction l with
  | nil => simp [ins]
  | cons b l ih =>
    unfold ins
    split
    · simp
    · simp only [List.mem_cons, ih]; tauto

theorem ins_sorted {α : Type} {key : α → Date} (a : α) {l : List α}
    (h : l.Pairwise fun a b => (compare (key a) (key b)).isLE = true) :
    (ins key a l).Pairwise fun a b => (compare (key a) (key b)).isLE = true := by
  induction l with
  | nil => simp [ins]
  | cons b l ih =>
    rw [List.pairwise_cons] at h
    unfold ins
    split
    · rename_i hc
      rw [List.pairwise_cons, List.pairwise_cons]
      refine ⟨?_, h⟩
      intro x hx
      rcases List.mem_cons.1 hx with rfl | hx
      · exact hc
      · exact date_le_trans _ _ _ hc (h.1 x hx)
    · rename_i hc
      rw [List.pairwise_cons]
      refine ⟨?_, ih h.2⟩
      intro x hx
      rcases ins_mem.1 hx with rfl | hx
      · have := date_le_total (key x) (key b)
        rw [Bool.or_eq_true] at this
        exact this.resolve_left hc
      · exact h.1 x hx

theorem ins_filter {α : Type} {key : α → Date} (a : α) (l : List α) (d : Date) :
    (ins key a l).filter (fun x => key x = d) = (a :: l).filter (fun x => key x = d) := by
  induction l with
  | nil => rfl
  | cons b l ih =>
    unfold ins
    split
    · rfl
    · rename_i hc
      rw [List.filter_cons, ih]
      simp only [List.filter_cons]
      by_cases ha : key a = d <;> by_cases hb : key b = d
      · exfalso; apply hc; rw [ha, hb]; exact date_le_refl d
      · simp [ha, hb]
      · simp [ha, hb]
      · simp [ha, hb]

theorem mergeSort_eval {α : Type} (key : α → Date) (l : List α) :
    (l.mergeSort fun a b => (compare (key a) (key b)).isLE) = insSort key l := by
  apply eq_of_sorted_filter key
  · exact sorted_mergeSort key l
  · induction l with
    | nil => exact List.Pairwise.nil
    | cons a l ih => exact ins_sorted a ih
  · intro d
    rw [filter_mergeSort]
    induction l with
    | nil => rfl
    | cons a l ih =>
      show _ = (ins key a (insSort key l)).filter _
      rw [ins_filter, List.filter_cons, List.filter_cons, ih]

/-- `Merger.build` with the structurally recursive sort. -/
def buildEval (h : HashOrder) (m : Merger) : Except MergeErr (List TransactionPostings) := do
  let dateTrns ← IndexedTransactions.takeDates (h.iter .trnsByDate m.trns.byDate.toList) (m.trns.arena.map some)
  Merger.buildLoop ((insSort (fun e => e.1) dateTrns).flatMap (fun e => e.2)) m.posts.intoConsume

theorem build_eval (h : HashOrder) (m : Merger) : m.build h = buildEval h m := by
  unfold Merger.build buildEval IndexedTransactions.intoIter
  cases IndexedTransactions.takeDates (h.iter .trnsByDate m.trns.byDate.toList) (m.trns.arena.map some) with
  | error e => rfl
  | ok l =>
    simp only [bind, Except.bind, pure, Except.pure]
    rw [mergeSort_eval (fun e : Date × List TrnHolder => e.1)]

end Verif.Ex
