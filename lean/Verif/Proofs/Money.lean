import Verif.Model.NationwideCsv
import Verif.Proofs.Rx
import Verif.Spec.Money
import Mathlib.Data.Rat.Lemmas
import Mathlib.Tactic.Push
import Mathlib.Tactic.Ring
import Mathlib.Tactic.Tauto

/-!
# Reading sums of money (/repo/src/importers/nationwide_csv.rs:479-519)
-/

namespace Verif
open Spec

theorem number_snoc_aux (s : Str) (acc : Nat) (h : ∀ c ∈ s, c.isDigit = true) :
    Nat.ofDigitChars 10 s acc = acc * 10 ^ s.length + number s := by
  induction s generalizing acc with
  | nil => simp [number]
  | cons c cs ih =>
    rw [Nat.ofDigitChars_cons, ih _ fun x hx => h x (List.mem_cons_of_mem _ hx), number, List.length_cons, Nat.pow_succ]
    ring

theorem ofDigitChars_number {s : Str} (h : ∀ c ∈ s, c.isDigit = true) : Nat.ofDigitChars 10 s 0 = number s := by
  rw [number_snoc_aux s 0 h]; omega

theorem isDigit_iff (c : Char) : c.isDigit = true ↔ '0' ≤ c ∧ c ≤ '9' := by
  unfold Char.isDigit
  rw [Bool.and_eq_true, decide_eq_true_iff, decide_eq_true_iff]
  rfl

theorem digits_all {s : Str} (h : Digits s) : ∀ c ∈ s, c.isDigit = true := fun c hc => (isDigit_iff c).2 (h.2 c hc)

namespace Rx

theorem plus_chr_head (p : Char → Bool) (pos : Nat) (rest : Str) (caps : List (Nat × Str)) :
    (run (plus (chr p)) ⟨pos, rest, caps⟩).head? =
      if rest.takeWhile p = [] then none else some ⟨pos + (rest.takeWhile p).length, rest.dropWhile p, caps⟩ := by
  have hstar : ∀ (rest : Str) (pos : Nat), (run (star (chr p)) ⟨pos, rest, caps⟩).head? =
      some ⟨pos + (rest.takeWhile p).length, rest.dropWhile p, caps⟩ := by
    intro rest
    induction rest with
    | nil => intro pos; rw [star_chr_nil]; rfl
    | cons c cs ih =>
      intro pos
      rw [star_chr_cons]
      by_cases h : p c = true
      · rw [if_pos h, List.head?_append, ih, List.takeWhile_cons, List.dropWhile_cons, if_pos h, if_pos h, List.length_cons, Nat.add_assoc,
          Nat.add_comm 1]
        rfl
      · rw [if_neg h, List.takeWhile_cons, List.dropWhile_cons, if_neg h, if_neg h]; rfl
  unfold plus
  rw [run]
  cases rest with
  | nil => rw [run_chr_nil]; rfl
  | cons c cs =>
    rw [run_chr_cons]
    by_cases h : p c = true
    · rw [if_pos h, List.flatMap_cons, List.flatMap_nil, List.append_nil, hstar, if_neg (by rw [List.takeWhile_cons, if_pos h]; simp),
        List.takeWhile_cons, List.dropWhile_cons, if_pos h, if_pos h, List.length_cons, Nat.add_assoc, Nat.add_comm 1]
    · rw [if_neg h, if_pos (by rw [List.takeWhile_cons, if_neg h])]; rfl

end Rx

namespace NationwideCsv
open Rx

/-- The digits before and after the point. -/
def gbpParts (D : Char → Bool) (r : Str) : Option (Str × Str) :=
  match r.dropWhile D with
  | '.' :: r2 => if r.takeWhile D = [] ∨ r2.takeWhile D = [] then none else some (r.takeWhile D, r2.takeWhile D)
  | _ => none

/-- Sign and digits after a pound sign. -/
def gbpMatch (D : Char → Bool) (s : Str) : Option (Str × Str × Str) :=
  match s with
  | '£' :: '-' :: r => (gbpParts D r).map (['-'], ·)
  | '£' :: r => (gbpParts D r).map ([], ·)
  | _ => none

/-- What the pattern does after the sign. -/
theorem run_tail (D : Char → Bool) (hdot : D '.' = false) (pos : Nat) (r : Str) (caps : List (Nat × Str)) :
    match gbpParts D r with
    | none => run (seq (grp 2 (plus (chr D))) (seq (lit '.') (grp 3 (plus (chr D))))) ⟨pos, r, caps⟩ = []
    | some (p, q) => ∃ st, (run (seq (grp 2 (plus (chr D))) (seq (lit '.') (grp 3 (plus (chr D))))) ⟨pos, r, caps⟩).head? = some st ∧
        st.caps = (3, q) :: (2, p) :: caps := by
  have hrun : run (seq (grp 2 (plus (chr D))) (seq (lit '.') (grp 3 (plus (chr D))))) ⟨pos, r, caps⟩ =
      if r.takeWhile D = [] then [] else
        run (seq (lit '.') (grp 3 (plus (chr D)))) ⟨pos + (r.takeWhile D).length, r.dropWhile D, (2, r.takeWhile D) :: caps⟩ := by
    rw [run, run_grp, plus_chr_max]
    · split
      · rfl
      · simp only [Nat.add_sub_cancel_left]
        congr 4
        exact (List.prefix_iff_eq_take.1 (List.takeWhile_prefix D)).symm
    · intro pos c cs caps hc
      simp only
      rw [run, run_lit_cons, if_neg]
      · rfl
      · rintro rfl; rw [hdot] at hc; cases hc
  rw [hrun]
  unfold gbpParts
  generalize r.takeWhile D = p
  cases hd : r.dropWhile D with
  | nil =>
    simp only
    split
    · rfl
    · rw [run, run_lit_nil]; rfl
  | cons c r2 =>
    by_cases hc : c = '.'
    · subst hc
      simp only
      have h3 : run (seq (lit '.') (grp 3 (plus (chr D)))) ⟨pos + p.length, '.' :: r2, (2, p) :: caps⟩ =
          run (grp 3 (plus (chr D))) ⟨pos + p.length + 1, r2, (2, p) :: caps⟩ := by
        rw [run, run_lit_cons, if_pos rfl]
        simp
      rw [h3, run]
      have hh := plus_chr_head D (pos + p.length + 1) r2 ((2, p) :: caps)
      by_cases hp : p = []
      · rw [if_pos (Or.inl hp), if_pos hp]
      · rw [if_neg hp]
        by_cases hq : r2.takeWhile D = []
        · rw [if_pos (Or.inr hq)]
          rw [if_pos hq] at hh
          rw [List.head?_eq_none_iff.1 hh]; rfl
        · rw [if_neg (by tauto)]
          rw [if_neg hq] at hh
          refine ⟨_, by rw [List.head?_map, hh]; rfl, ?_⟩
          simp only [Nat.add_sub_cancel_left]
          rw [← List.prefix_iff_eq_take.1 (List.takeWhile_prefix D)]
    · have : run (seq (lit '.') (grp 3 (plus (chr D)))) ⟨pos + p.length, c :: r2, (2, p) :: caps⟩ = [] := by
        rw [run, run_lit_cons, if_neg hc]; rfl
      rw [this]
      split
      · simp
      · rename_i heq
        exfalso
        revert heq
        split
        · rename_i h; exact absurd (List.cons.inj h).1 hc
        · simp

/-- What the whole pattern does at a place. -/
theorem run_gbp (D : Char → Bool) (hdot : D '.' = false) (hminus : D '-' = false) (pos : Nat) (s : Str) :
    match gbpMatch D s with
    | none => (run (gbpRx D) ⟨pos, s, []⟩).head? = none
    | some (sign, p, q) => ∃ st, (run (gbpRx D) ⟨pos, s, []⟩).head? = some st ∧ st.caps = [(3, q), (2, p), (1, sign)] := by
  cases s with
  | nil => simp only [gbpMatch]; rfl
  | cons c cs =>
    by_cases hc : c = '£'
    · subst hc
      have h1 : run (gbpRx D) ⟨pos, '£' :: cs, []⟩ =
          run (seq (grp 1 (opt (lit '-'))) (seq (grp 2 (plus (chr D))) (seq (lit '.') (grp 3 (plus (chr D)))))) ⟨pos + 1, cs, []⟩ := by
        unfold gbpRx cat
        rw [run, run_lit_cons, if_pos rfl]
        simp only [List.flatMap_cons, List.flatMap_nil, List.append_nil]
        rfl
      rw [h1, run, run_grp, run_opt]
      cases cs with
      | nil => rw [run_lit_nil]; simp only [gbpMatch]; rfl
      | cons d ds =>
        by_cases hd : d = '-'
        · subst hd
          rw [run_lit_cons, if_pos rfl]
          simp only [List.flatMap_cons, List.flatMap_nil, List.append_nil, gbpMatch]
          have hnone : gbpParts D ('-' :: ds) = none := by
            unfold gbpParts
            rw [List.dropWhile_cons, hminus]
            rfl
          have ht := run_tail D hdot (pos + 1) ('-' :: ds) [(1, [])]
          rw [hnone] at ht
          simp only at ht
          have ht' := run_tail D hdot (pos + 1 + 1) ds [(1, ['-'])]
          simp only [Nat.add_sub_cancel_left, Nat.sub_self, List.take_zero, List.take_succ_cons]
          rw [ht, List.append_nil]
          cases hg : gbpParts D ds with
          | none =>
            rw [hg] at ht'
            simp only at ht'
            simp only [Option.map_none]
            rw [ht']; rfl
          | some pq =>
            rw [hg] at ht'
            exact ht'
        · rw [run_lit_cons, if_neg hd]
          have ht := run_tail D hdot (pos + 1) (d :: ds) [(1, [])]
          have hm : gbpMatch D ('£' :: d :: ds) = (gbpParts D (d :: ds)).map ([], ·) := by
            unfold gbpMatch
            split
            · rename_i heq; injection heq with _ h; injection h with h; exact absurd h hd
            · rename_i heq; injection heq with _ h; subst h; rfl
            · rename_i h1 h2; exact absurd rfl (h2 _)
          rw [hm]
          simp only [List.flatMap_nil, List.nil_append, Nat.sub_self, List.take_zero]
          cases hg : gbpParts D (d :: ds) with
          | none =>
            rw [hg] at ht
            simp only at ht
            simp only [Option.map_none]
            rw [ht]; rfl
          | some pq =>
            rw [hg] at ht
            exact ht
    · have h1 : run (gbpRx D) ⟨pos, c :: cs, []⟩ = [] := by
        unfold gbpRx cat
        rw [run, run_lit_cons, if_neg hc]; rfl
      rw [h1]
      have hm : gbpMatch D (c :: cs) = none := by
        unfold gbpMatch
        split
        · rename_i heq; injection heq with h _; exact absurd h hc
        · rename_i heq; injection heq with h _; exact absurd h hc
        · rfl
      rw [hm]; rfl

/-- The leftmost match. -/
theorem find_gbp (D : Char → Bool) (hdot : D '.' = false) (hminus : D '-' = false) (pos : Nat) (s : Str) :
    (findFrom (gbpRx D) pos s = none ∧ ∀ pre suf, s = pre ++ suf → gbpMatch D suf = none) ∨
    ∃ m pre suf sign p q, findFrom (gbpRx D) pos s = some m ∧ s = pre ++ suf ∧ gbpMatch D suf = some (sign, p, q) ∧
      m.stop.caps = [(3, q), (2, p), (1, sign)] ∧ ∀ pre' suf', s = pre' ++ suf' → pre'.length < pre.length → gbpMatch D suf' = none := by
  induction s generalizing pos with
  | nil =>
    left
    have := run_gbp D hdot hminus pos []
    simp only [gbpMatch] at this
    refine ⟨by unfold findFrom; rw [this]; rfl, ?_⟩
    intro pre suf h
    obtain ⟨_, rfl⟩ := List.append_eq_nil_iff.1 h.symm
    rfl
  | cons c cs ih =>
    have hr := run_gbp D hdot hminus pos (c :: cs)
    cases hm : gbpMatch D (c :: cs) with
    | none =>
      rw [hm] at hr
      simp only at hr
      have hf : findFrom (gbpRx D) pos (c :: cs) = findFrom (gbpRx D) (pos + 1) cs := by
        rw [findFrom, hr]
      rw [hf]
      rcases ih (pos + 1) with ⟨h1, h2⟩ | ⟨m, pre, suf, sign, p, q, h1, h2, h3, h4, h5⟩
      · refine Or.inl ⟨h1, fun pre suf h => ?_⟩
        cases pre with
        | nil => rw [← show c :: cs = suf from h]; exact hm
        | cons a pre => exact h2 pre suf (List.cons.inj h).2
      · refine Or.inr ⟨m, c :: pre, suf, sign, p, q, h1, by rw [h2]; rfl, h3, h4, ?_⟩
        intro pre' suf' h hlt
        cases pre' with
        | nil => rw [← show c :: cs = suf' from h]; exact hm
        | cons a pre' => exact h5 pre' suf' (List.cons.inj h).2 (by simpa using hlt)
    | some x =>
      obtain ⟨sign, p, q⟩ := x
      rw [hm] at hr
      obtain ⟨st, h1, h2⟩ := hr
      refine Or.inr ⟨⟨pos, st⟩, [], c :: cs, sign, p, q, by rw [findFrom, h1], rfl, hm, h2, ?_⟩
      intro _ _ _ h; simp at h

end NationwideCsv
end Verif
