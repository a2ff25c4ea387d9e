import Verif.Model.Ocr
import Verif.Proofs.CommentFormat
import Verif.Props.ReadTsv

/-!
# The order of the pages of a statement (C76)
-/

namespace Verif
namespace Ocr
open Comment

theorem strLe_trans (a b c : Str) (h1 : strLe a b = true) (h2 : strLe b c = true) : strLe a c = true :=
  Std.TransCmp.isLE_trans h1 h2

theorem strLe_total (a b : Str) : (strLe a b || strLe b a) = true := by
  rw [Bool.or_eq_true, strLe, strLe, Std.OrientedCmp.eq_swap (cmp := compare) (a := b) (b := a)]
  cases compare a b <;> simp

theorem strLe_antisymm {a b : Str} (h1 : strLe a b = true) (h2 : strLe b a = true) : a = b := by
  rw [strLe] at h1 h2
  rw [Std.OrientedCmp.eq_swap (cmp := compare) (a := b) (b := a)] at h2
  refine Std.LawfulEqCmp.eq_of_compare (cmp := compare) ?_
  revert h1 h2
  cases compare a b <;> simp

/-- Names of neighbours among the first hundred pages. -/
theorem names_step : ∀ i < 99, strLe (pageName i) (pageName (i + 1)) = true := by decide +kernel

theorem names_le {i j : Nat} (h : i ≤ j) (hj : j < 100) : strLe (pageName i) (pageName j) = true := by
  induction j with
  | zero =>
    obtain rfl : i = 0 := by omega
    have := strLe_total (pageName 0) (pageName 0)
    rwa [Bool.or_self] at this
  | succ j ih =>
    by_cases he : i = j + 1
    · subst he
      have := strLe_total (pageName (j + 1)) (pageName (j + 1))
      rwa [Bool.or_self] at this
    · exact strLe_trans _ _ _ (ih (by omega) (by omega)) (names_step j (by omega))

/-- The image of page 101 comes before that of page 12. -/
theorem names_wrong : strLe (pageName 11) (pageName 100) = false := by decide +kernel

/-- Different pages have images with different names. -/
theorem twoDigits_number (i : Nat) : Nat.ofDigitChars 10 (twoDigits i) 0 = i := by
  rw [twoDigits]
  split
  · rw [Nat.ofDigitChars_cons]
    exact Nat.ofDigitChars_ten_toDigits
  · exact Nat.ofDigitChars_ten_toDigits

theorem pageName_inj {i j : Nat} (h : pageName i = pageName j) : i = j := by
  have h1 : twoDigits i = twoDigits j := List.append_cancel_left (List.append_cancel_right h)
  rw [← twoDigits_number i, h1, twoDigits_number]

/-- **C76.** The image of a page has a name that the pattern `page-*.png` finds: in place of the star it has the number of the page in
decimal digits, with a zero before a single one. -/
theorem C76_names (i : Nat) : ∃ ds : Str, pageName i = ['p', 'a', 'g', 'e', '-'] ++ ds ++ ['.', 'p', 'n', 'g'] ∧
    (∀ c ∈ ds, c.isDigit = true) ∧ Nat.ofDigitChars 10 ds 0 = i ∧ (i < 100 → ds.length = 2) ∧ (10 ≤ i → ds = Nat.toDigits 10 i) := by
  refine ⟨twoDigits i, rfl, ?_, twoDigits_number i, ?_, ?_⟩
  · have hd : ∀ c ∈ Nat.toDigits 10 i, c.isDigit = true := fun c hc => Nat.isDigit_of_mem_toDigits (by decide) (by decide) hc
    rw [twoDigits]
    split
    · rintro c (_ | ⟨_, hc⟩)
      · rfl
      · exact hd c hc
    · exact hd
  · have : ∀ i < 100, (twoDigits i).length = 2 := by decide +kernel
    exact this i
  · intro hi
    rw [twoDigits, if_neg (by omega)]

example : pageName 7 = "page-07.png".toList ∧ pageName 42 = "page-42.png".toList ∧ pageName 120 = "page-120.png".toList := by decide +kernel

/-- **C76.** Every image is given to Tesseract once, and images of different pages have different names. -/
theorem C76_once (pages : List Nat) : (listing pages).Perm (pages.map pageName) ∧ (pages.Nodup → (listing pages).Nodup) := by
  have hp : (listing pages).Perm (pages.map pageName) := sortBy_perm _ _
  refine ⟨hp, fun hn => hp.nodup_iff.2 ?_⟩
  exact List.Pairwise.map pageName (fun a b hab h => hab (pageName_inj h)) hn

/-- **C76, exactly.** The pages of a statement are recognised in their order if, and only if, there are at most a hundred of them. -/
theorem C76_exact (n : Nat) : listing (List.range n) = (List.range n).map pageName ↔ n ≤ 100 := by
  constructor
  · intro h
    by_contra hn
    have hs := pairwise_sortBy strLe_trans strLe_total ((List.range n).map pageName)
    rw [listing] at h
    rw [h, List.pairwise_iff_getElem] at hs
    have := hs 11 100 (by simp; omega) (by simp; omega) (by omega)
    simp only [List.getElem_map, List.getElem_range] at this
    rw [names_wrong] at this
    exact absurd this (by simp)
  · intro hn
    refine sort_unique strLe_trans strLe_total (List.Perm.refl _) ?_ fun a _ b _ h1 h2 => strLe_antisymm h1 h2
    rw [List.pairwise_map]
    refine List.Pairwise.imp_of_mem (R := (· < ·)) (fun {a b} _ hb hab => ?_) List.pairwise_lt_range
    exact names_le (Nat.le_of_lt hab) (by have := List.mem_range.1 hb; omega)

/-- **C76.** In every statement of more than a hundred pages, page 101 is recognised before page 12. -/
theorem C76_wrong_order (n : Nat) (hn : 100 < n) :
    ∃ i j : Nat, i < j ∧ (listing (List.range n))[i]? = some (pageName 100) ∧ (listing (List.range n))[j]? = some (pageName 11) := by
  have hp := (C76_once (List.range n)).1
  have hmem : ∀ k < n, pageName k ∈ listing (List.range n) := fun k hk =>
    hp.mem_iff.2 (List.mem_map_of_mem (List.mem_range.2 hk))
  obtain ⟨i, hi, hie⟩ := List.mem_iff_getElem.1 (hmem 100 hn)
  obtain ⟨j, hj, hje⟩ := List.mem_iff_getElem.1 (hmem 11 (by omega))
  refine ⟨i, j, ?_, by rw [List.getElem?_eq_getElem hi, hie], by rw [List.getElem?_eq_getElem hj, hje]⟩
  rcases Nat.lt_trichotomy i j with h | h | h
  · exact h
  · subst h
    exact absurd (pageName_inj (hje.symm.trans hie)) (by decide)
  · have hs := pairwise_sortBy strLe_trans strLe_total ((List.range n).map pageName)
    have := List.pairwise_iff_getElem.1 hs j i hj hi h
    have he : strLe (pageName 11) (pageName 100) = true := by rw [← hje, ← hie]; exact this
    rw [names_wrong] at he
    exact absurd he (by simp)

-- the last pages of a statement of 101 pages are out of order
example : 100 < 101 ∧ (listing [9, 10, 11, 99, 100]).map (·.drop 5) =
    ["09.png", "10.png", "100.png", "11.png", "99.png"].map String.toList := by decide +kernel

/-- **C76.** A document is what the second program writes for the images that the first has left, in alphabetical order; it is an error if
one of them cannot be started or if nothing is written. -/
theorem C76_result (p : Programs) (d : Tesseract.Document) :
    ocrDocument p = .ok d ↔ ∃ images names out text, p.convert = some images ∧ names.Perm (images.left.map pageName) ∧
      names.Pairwise (fun a b => Comment.strLe a b = true) ∧ p.recognise names = some out ∧ out.left = some text ∧
      Tesseract.Document.fromTsv text = .ok d := by
  constructor
  · intro h
    unfold ocrDocument at h
    cases h1 : p.convert with
    | none => rw [h1] at h; cases h
    | some images =>
      rw [h1] at h
      simp only at h
      cases h2 : p.recognise (listing images.left) with
      | none => rw [h2] at h; cases h
      | some out =>
        rw [h2] at h
        simp only at h
        cases h3 : out.left with
        | none => rw [h3] at h; cases h
        | some text =>
          rw [h3] at h
          exact ⟨images, _, out, text, rfl, (C76_once _).1, pairwise_sortBy strLe_trans strLe_total _, h2, h3, h⟩
  · rintro ⟨images, names, out, text, h1, h2, h3, h4, h5, h6⟩
    have hl : listing images.left = names := by
      refine List.Perm.eq_of_pairwise (le := fun a b => Comment.strLe a b = true) ?_ ?_ h3 ((C76_once _).1.trans h2.symm)
      · intro a b _ _ hab hba
        exact strLe_antisymm hab hba
      · exact pairwise_sortBy strLe_trans strLe_total _
    rw [ocrDocument, h1]
    simp only [hl, h4, h5, h6]

/-- **C76.** Exit statuses do not matter: whatever images a failed conversion has left are used as if they were the statement. -/
theorem C76_exit_ignored (p q : Programs) (hc : p.convert.map (·.left) = q.convert.map (·.left))
    (hr : ∀ l, (p.recognise l).map (·.left) = (q.recognise l).map (·.left)) : ocrDocument p = ocrDocument q := by
  rw [ocrDocument, ocrDocument]
  cases h1 : p.convert with
  | none =>
    cases h2 : q.convert with
    | none => rfl
    | some y => rw [h1, h2] at hc; exact absurd hc (by simp)
  | some x =>
    cases h2 : q.convert with
    | none => rw [h1, h2] at hc; exact absurd hc (by simp)
    | some y =>
      rw [h1, h2, Option.map_some, Option.map_some, Option.some.injEq] at hc
      have hl := hr (listing y.left)
      simp only [hc]
      cases h3 : p.recognise (listing y.left) with
      | none =>
        cases h4 : q.recognise (listing y.left) with
        | none => rfl
        | some z => rw [h3, h4] at hl; exact absurd hl (by simp)
      | some u =>
        cases h4 : q.recognise (listing y.left) with
        | none => rw [h3, h4] at hl; exact absurd hl (by simp)
        | some z =>
          rw [h3, h4, Option.map_some, Option.map_some, Option.some.injEq] at hl
          simp only [hl]

/-- Programs that fail after the first page: of the statement of two pages, the first is written and recognised. -/
def failing : Programs where
  convert := some ⟨false, [0]⟩
  recognise l := some ⟨true, if l = [pageName 0]
    then some (Spec.Csv.tsvFile (Ex.recordsOf ⟨(Ex.pdfDoc Ex.pdfPage1 Ex.pdfPage2).pages.take 1⟩)) else none⟩

set_option maxRecDepth 100000 in
/-- A conversion that fails after the first page is imported as a statement of one page. -/
example : failing.convert.map (·.success) = some false ∧ (ocrDocument failing).toOption.map (·.pages.length) = some 1 := by
  decide +kernel

set_option maxRecDepth 100000 in
/-- If no file is written then there is no document, not an empty one. -/
example : (ocrDocument failing).toOption.isSome ∧ ¬ ∃ d, ocrDocument { failing with convert := some ⟨true, [0, 1]⟩ } = .ok d := by
  refine ⟨by decide +kernel, ?_⟩
  rintro ⟨d, h⟩
  obtain ⟨images, names, out, text, h1, h2, _, h3, h4, _⟩ := (C76_result _ _).1 h
  cases h1
  rw [show ({ failing with convert := some ⟨true, [0, 1]⟩ } : Programs).recognise = failing.recognise from rfl, failing] at h3
  simp only at h3
  rw [if_neg (fun he => by have := h2.length_eq; rw [he] at this; simp at this)] at h3
  cases h3
  cases h4

end Ocr
end Verif
