import Verif.Examples.Journals
import Verif.Proofs.Outcome

/-!
# Evaluating books in examples
-/

namespace Verif.Ex
open Spec Spec.Book

/-- Quantifying over the tags of a set is decidable. -/
instance decForallTag (s : TagSet) (P : Str → Prop) [DecidablePred P] : Decidable (∀ t ∈ s, P t) :=
  decidable_of_iff (∀ t ∈ s.toList, P t) (by simp)

/-- Quantifying over the tags of a set is decidable. -/
instance decExistsTag (s : TagSet) (P : Str → Prop) [DecidablePred P] : Decidable (∃ t ∈ s, P t) :=
  decidable_of_iff (∃ t ∈ s.toList, P t) (by simp)

/-- The book after a history, in a form that the kernel can evaluate. -/
def bookEval (hist : List (List TransactionPostings)) : Book :=
  hist.foldl (fun J ts => if J.error? ts = none then J.after ts else J) Book.empty

theorem ofHistory_eval (hist : List (List TransactionPostings)) : ofHistory hist = bookEval hist := by
  induction hist using List.reverseRecOn with
  | nil => rfl
  | append_singleton hist ts ih =>
    unfold ofHistory bookEval at ih ⊢
    rw [List.foldl_append, List.foldl_append, ← ih]
    show Book.step _ ts = _
    have hR := run_refines (hist.map (fun ts => (HashOrder.sorted, ts)))
    have hin : inputs (hist.map (fun ts => (HashOrder.sorted, ts))) = hist := by
      unfold inputs; rw [List.map_map]; exact List.map_id _
    rw [hin] at hR
    unfold ofHistory at hR
    have h1 := merge_ok_iff hR HashOrder.sorted ts
    have h2 := merge_error_iff hR HashOrder.sorted ts
    show _ = if _ then _ else _
    generalize List.foldl Book.step Book.empty hist = J at h1 h2 ⊢
    unfold Book.step
    by_cases hb : J.Bad ts
    · rw [if_pos hb, if_neg]
      intro hn
      cases hm : (Merger.merge HashOrder.sorted (run (hist.map (fun ts => (HashOrder.sorted, ts)))) ts).1 with
      | ok u => exact h1.1 ⟨u, hm⟩ hb
      | error e => rw [(h2 e).1 hm] at hn; cases hn
    · rw [if_neg hb, if_pos]
      obtain ⟨u, hu⟩ := h1.2 hb
      cases he : J.error? ts with
      | none => rfl
      | some e => rw [(h2 e).2 he] at hu; cases hu

end Verif.Ex
