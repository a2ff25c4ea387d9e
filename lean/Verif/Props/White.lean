import Verif.Proofs.CommentText

/-!
# C27: white space and `trim`
-/

namespace Verif.Spec
open Verif

/-- The numbers of the characters that are white space in Unicode. -/
def whiteNumbers : List Nat :=
  [0x0009, 0x000A, 0x000B, 0x000C, 0x000D, 0x0020, 0x0085, 0x00A0, 0x1680, 0x2000, 0x2001, 0x2002, 0x2003, 0x2004, 0x2005, 0x2006, 0x2007,
    0x2008, 0x2009, 0x200A, 0x2028, 0x2029, 0x202F, 0x205F, 0x3000]

/-- The character is white space. -/
def White (c : Char) : Prop := c.toNat ∈ whiteNumbers
instance (c) : Decidable (White c) := by unfold White; infer_instance

end Verif.Spec

namespace Verif
open Spec

/-- C27: what counts as white space in comments. -/
theorem C27_white (c : Char) : Str.isWs c = true ↔ White c := by
  unfold Str.isWs White whiteNumbers
  generalize c.toNat = n
  simp only [Bool.or_eq_true, Bool.and_eq_true, decide_eq_true_eq, beq_iff_eq, List.mem_cons, List.not_mem_nil, or_false]
  omega

theorem dropWhile_white {a : Str} (h : ∀ c ∈ a, Str.isWs c = true) (s : Str) : (a ++ s).dropWhile Str.isWs = s.dropWhile Str.isWs := by
  rw [List.dropWhile_append, List.dropWhile_eq_nil_iff.2 h]
  rfl

theorem trim_between {a s b : Str} (ha : ∀ c ∈ a, Str.isWs c = true) (hb : ∀ c ∈ b, Str.isWs c = true) : Str.trim (a ++ s ++ b) = s.trim := by
  unfold Str.trim Str.trimStart Str.trimEnd
  rw [List.append_assoc, dropWhile_white ha, List.dropWhile_append]
  split
  · rename_i h
    rw [List.dropWhile_eq_nil_iff.2 hb, List.isEmpty_iff.1 h]
  · rw [List.reverse_append, dropWhile_white (fun c hc => hb c (List.mem_reverse.1 hc))]

/-- C27: what `trim` leaves is what stands between white space: it neither starts nor ends with white space, and it is the only such text. -/
theorem C27_trim (s t : Str) : s.trim = t ↔ ∃ a b, s = a ++ t ++ b ∧ (∀ c ∈ a ++ b, White c) ∧ (∀ c ∈ t.head?, ¬ White c) ∧ ∀ c ∈ t.getLast?, ¬ White c := by
  constructor
  · rintro rfl
    refine ⟨s.takeWhile Str.isWs, (s.trimStart.reverse.takeWhile Str.isWs).reverse, ?_, ?_, ?_, ?_⟩
    · have h2 : s.trimStart = s.trim ++ (s.trimStart.reverse.takeWhile Str.isWs).reverse := by
        have h : s.trim = (s.trimStart.reverse.dropWhile Str.isWs).reverse := rfl
        rw [h, ← List.reverse_append, List.takeWhile_append_dropWhile, List.reverse_reverse]
      rw [List.append_assoc, ← h2]
      exact List.takeWhile_append_dropWhile.symm
    · intro c hc
      rw [← C27_white]
      rcases List.mem_append.1 hc with hc | hc
      · exact List.all_eq_true.1 (List.all_takeWhile) c hc
      · exact List.all_eq_true.1 (List.all_takeWhile) c (List.mem_reverse.1 hc)
    · intro c hc hw
      have := (trimmed_trim s).1 c hc
      rw [(C27_white c).2 hw] at this; cases this
    · intro c hc hw
      have := (trimmed_trim s).2 c hc
      rw [(C27_white c).2 hw] at this; cases this
  · rintro ⟨a, b, rfl, h1, h2, h3⟩
    rw [trim_between (fun c hc => (C27_white c).2 (h1 c (by simp [hc]))) (fun c hc => (C27_white c).2 (h1 c (by simp [hc])))]
    refine trim_trimmed ⟨fun c hc => ?_, fun c hc => ?_⟩
    · exact Bool.eq_false_iff.2 fun h => h2 c hc ((C27_white c).1 h)
    · exact Bool.eq_false_iff.2 fun h => h3 c hc ((C27_white c).1 h)

/-- A no-break space and a tabulator around a text with a space in it. -/
example : Str.trim "\u00a0 a b\t".toList = "a b".toList :=
  (C27_trim _ _).2 ⟨"\u00a0 ".toList, "\t".toList, by decide +kernel, by decide +kernel, by decide +kernel, by decide +kernel⟩

/-- A zero-width space is no white space. -/
example : ¬ White '\u200b' ∧ White '\u3000' ∧ Str.trim "\u200b ".toList = "\u200b".toList := by decide +kernel

end Verif
