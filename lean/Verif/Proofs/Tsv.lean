import Verif.Proofs.Csv
import Verif.Proofs.CommentText
import Verif.Proofs.Fingerprint
import Verif.Model.ReadText

/-!
# Files that Tesseract writes
-/

namespace Verif
namespace Csv
open Spec Spec.Csv

/-! ## Numbers -/

theorem digits_ne (n : Nat) : Nat.toDigits 10 n ≠ [] := by
  intro h
  have := Nat.ofDigitChars_ten_toDigits (n := n)
  have h2 := Nat.length_toDigits_pos (b := 10) (n := n)
  rw [h] at h2
  simp at h2

theorem digits_digit {n : Nat} {c : Char} (h : c ∈ Nat.toDigits 10 n) : c.isDigit = true :=
  Nat.isDigit_of_mem_toDigits (by decide) (by decide) h

theorem digit_bounds {c : Char} (h : c.isDigit = true) : 48 ≤ c.toNat ∧ c.toNat ≤ 57 := by
  rw [Char.isDigit_iff_toNat] at h
  exact h

theorem digit?_ten {c : Char} (h : c.isDigit = true) : digit? 10 c = some (c.toNat - 48) := by
  have := digit_bounds h
  simp only [digit?, h, if_true]
  rw [if_pos (by omega)]

theorem mapM_digits {s : Str} (h : ∀ c ∈ s, c.isDigit = true) : s.mapM (digit? 10) = some (s.map fun c => c.toNat - 48) := by
  induction s with
  | nil => rfl
  | cons c s ih =>
    rw [List.mapM_cons, digit?_ten (h c List.mem_cons_self), ih fun x hx => h x (List.mem_cons_of_mem _ hx)]
    rfl

theorem fold_digits (s : Str) (n : Nat) :
    (s.map fun c => c.toNat - 48).foldl (fun n d => 10 * n + d) n = Nat.ofDigitChars 10 s n := by
  induction s generalizing n with
  | nil => rfl
  | cons c s ih => rw [List.map_cons, List.foldl_cons, ih, Nat.ofDigitChars_cons]; rfl

theorem minus_not_digit : ('-' : Char).isDigit = false := by decide
theorem x_not_digit : ('x' : Char).isDigit = false := by decide

theorem numeral_char {n : Int} {c : Char} (h : c ∈ numeral n) : c = '-' ∨ c.isDigit = true := by
  rw [numeral] at h
  split at h
  · rcases List.mem_cons.1 h with h | h
    · exact .inl h
    · exact .inr (digits_digit h)
  · exact .inr (digits_digit h)

theorem numeral_ne (n : Int) : numeral n ≠ [] := by
  rw [numeral]
  split
  · simp
  · exact digits_ne _

theorem digits_value (n : Nat) :
    ((Nat.toDigits 10 n).map fun c => c.toNat - 48).foldl (fun n d => 10 * n + d) 0 = n := by
  rw [fold_digits, Nat.ofDigitChars_ten_toDigits]

/-- A number is read as it is written. -/
theorem parseI32_numeral {n : Int} (h1 : -2147483648 ≤ n) (h2 : n ≤ 2147483647) : parseI32 (numeral n) = some n := by
  have hx : (numeral n).startsWith "0x".toList = false := by
    rw [Bool.eq_false_iff]
    intro h
    rw [Str.startsWith, List.isPrefixOf_iff_prefix] at h
    have : 'x' ∈ numeral n := h.subset (by decide)
    rcases numeral_char this with h | h
    · exact absurd h (by decide)
    · rw [x_not_digit] at h; exact absurd h (by simp)
  rw [parseI32, hx]
  simp only [Bool.false_eq_true, if_false]
  have hs : sign (numeral n) = (decide (n < 0), Nat.toDigits 10 n.natAbs) := by
    rw [numeral]
    split
    · rename_i hn
      simp [sign, hn]
    · rename_i hn
      cases hd : Nat.toDigits 10 n.natAbs with
      | nil => exact absurd hd (digits_ne _)
      | cons c ds =>
        have hc : c.isDigit = true := digits_digit (by rw [hd]; exact List.mem_cons_self)
        have hm : c ≠ '-' := by rintro rfl; simp [minus_not_digit] at hc
        have hp : c ≠ '+' := by rintro rfl; exact absurd hc (by decide)
        rw [sign]
        · simp [hn]
        · intro ds h; exact hm (List.cons.inj h).1
        · intro ds h; exact hp (List.cons.inj h).1
  have hm : (Nat.toDigits 10 n.natAbs).mapM (digit? 10) = _ := mapM_digits fun c hc => digits_digit hc
  simp only [fromRadix, hs, if_neg (digits_ne n.natAbs), hm, digits_value, Option.bind_eq_bind, Option.bind_some, decide_eq_true_eq]
  have hv : (if n < 0 then -((n.natAbs : Nat) : Int) else ((n.natAbs : Nat) : Int)) = n := by split <;> omega
  rw [hv, if_pos ⟨h1, h2⟩]

theorem numeral_ws {n : Int} {c : Char} (h : c ∈ numeral n) : Str.isWs c = false := by
  rcases numeral_char h with rfl | h
  · decide
  · have := digit_bounds h
    simp only [Str.isWs, Bool.or_eq_false_iff, Bool.and_eq_false_iff, decide_eq_false_iff_not, beq_eq_false_iff_ne]
    omega

theorem numeral_trimmed (n : Int) : Trimmed (numeral n) :=
  ⟨fun _ h => numeral_ws (List.mem_of_mem_head? h), fun _ h => numeral_ws (List.mem_of_mem_getLast? h)⟩

theorem numeral_quote (n : Int) : '"' ∉ numeral n := by
  intro h
  rcases numeral_char h with h | h
  · exact absurd h (by decide)
  · exact absurd h (by decide)

theorem numeral_plain (n : Int) : Plain '\t' (numeral n) where
  delim h := by
    have := numeral_ws h
    exact absurd this (by decide)
  ends c h := by
    rintro (rfl | rfl) <;> exact absurd (numeral_ws h) (by decide)
  quote h := numeral_quote n (List.mem_of_mem_head? h)

/-! ## Lines -/

theorem join_ne {d : Char} {f g : Str} {fs : List Str} : Str.join [d] (f :: g :: fs) ≠ [] := by
  rw [Str.join]; simp

/-- The text can be written without quotes. -/
theorem OneWord.plain {s : Str} (h : OneWord s) (hq : s.head? ≠ some '"') : Plain '\t' s := ⟨h.tab, h.ends, hq⟩

theorem names_plain : ∀ f ∈ tsvNames, Plain '\t' f := by
  have h : ∀ f ∈ tsvNames, '\t' ∉ f ∧ '\n' ∉ f ∧ '\r' ∉ f ∧ f.head? ≠ some '"' := by decide +kernel
  intro f hf
  obtain ⟨h1, h2, h3, h4⟩ := h f hf
  exact ⟨h1, fun c hc => by rintro (rfl | rfl) <;> contradiction, h4⟩

theorem names_trim : tsvNames.map Str.trim = tsvNames := by decide +kernel

theorem fields_plain (r : Tesseract.Record) (conf : Int) (ht : Plain '\t' r.text) : ∀ f ∈ tsvFields r conf, Plain '\t' f := by
  intro f hf
  simp only [tsvFields, List.mem_cons, List.not_mem_nil, or_false] at hf
  rcases hf with h | h | h | h | h | h | h | h | h | h | h | h <;> subst h <;> first | exact numeral_plain _ | exact ht

theorem fields_trim (r : Tesseract.Record) (conf : Int) (ht : Trimmed r.text) : (tsvFields r conf).map Str.trim = tsvFields r conf := by
  simp only [tsvFields, List.map_cons, List.map_nil, trim_trimmed (numeral_trimmed _), trim_trimmed ht]

/-- Reading lines of records whose texts do not begin with double quotes. -/
theorem lines_fold (rs : List (Tesseract.Record × Int)) (h : ∀ r ∈ rs, Plain '\t' r.1.text) (before : List Row) :
    (rs.flatMap fun r => tsvLine (tsvFields r.1 r.2)).foldl (Reader.char '\t') ⟨.startRecord, [], [], before⟩ =
      ⟨.startRecord, [], [], before ++ rs.map fun r => tsvFields r.1 r.2⟩ := by
  induction rs generalizing before with
  | nil => simp
  | cons r rs ih =>
    have hd : Delim '\t' := ⟨by decide, by simp [LineEnd]⟩
    have hp := fields_plain r.1 r.2 (h r List.mem_cons_self)
    obtain ⟨h1, h2, h3⟩ := row_fold hd (join_row (by simp [tsvFields]) hp) (r := ⟨.startRecord, [], [], before⟩) ⟨.inl rfl, rfl⟩
    have h3 := h3.resolve_right join_ne
    rw [List.flatMap_cons, List.foldl_append, tsvLine, List.foldl_append, List.foldl_cons, List.foldl_nil,
      end_field hd h3 (.inl rfl), Reader.endRecord, h1, h2, ih fun x hx => h x (List.mem_cons_of_mem _ hx)]
    simp

theorem header_fold : (tsvLine tsvNames).foldl (Reader.char '\t') Reader.new = ⟨.startRecord, [], [], [tsvNames]⟩ := by
  decide +kernel

theorem file_bom (rs : List (Tesseract.Record × Int)) : (tsvFile rs).head? ≠ some '\uFEFF' := by
  rw [tsvFile, List.head?_append, show (tsvLine tsvNames).head? = some 'l' by decide +kernel]
  simp

/-- What is read of a file. -/
theorem file_records (rs : List (Tesseract.Record × Int)) : records '\t' (tsvFile rs) =
    ((rs.flatMap fun r => tsvLine (tsvFields r.1 r.2)).foldl (Reader.char '\t') ⟨.startRecord, [], [], [tsvNames]⟩).finish := by
  simp only [records, if_neg (file_bom rs)]
  rw [tsvFile, List.foldl_append, header_fold]

end Csv

namespace Tesseract
open Spec Spec.Csv

/-- The fields below the names. -/
theorem lookup_field (a b c d e f g h i j k l : Str) :
    let row := [a, b, c, d, e, f, g, h, i, j, k, l]
    PaypalCsv.field tsvNames row "level".toList = some a ∧ PaypalCsv.field tsvNames row "page_num".toList = some b ∧
    PaypalCsv.field tsvNames row "block_num".toList = some c ∧ PaypalCsv.field tsvNames row "par_num".toList = some d ∧
    PaypalCsv.field tsvNames row "line_num".toList = some e ∧ PaypalCsv.field tsvNames row "word_num".toList = some f ∧
    PaypalCsv.field tsvNames row "left".toList = some g ∧ PaypalCsv.field tsvNames row "top".toList = some h ∧
    PaypalCsv.field tsvNames row "width".toList = some i ∧ PaypalCsv.field tsvNames row "height".toList = some j ∧
    PaypalCsv.field tsvNames row "conf".toList = some k ∧ PaypalCsv.field tsvNames row "text".toList = some l :=
  ⟨rfl, rfl, rfl, rfl, rfl, rfl, rfl, rfl, rfl, rfl, rfl, rfl⟩

theorem names_once : ¬ ∃ n ∈ fieldNames, 1 < tsvNames.count n := by decide +kernel

/-- A record is read as it is written. -/
theorem ofRow_fields (r : Record) (conf : Int) (h : InRange (r, conf)) : Record.ofRow tsvNames (tsvFields r conf) = some r := by
  simp only [InRange, List.mem_cons, List.not_mem_nil, or_false, forall_eq_or_imp, forall_eq] at h
  obtain ⟨h1, h2, h3, h4, h5, h6, h7, h8, h9, h10, h11⟩ := h
  have hl : ¬ (tsvNames.length ≠ (tsvFields r conf).length ∨ ∃ n ∈ fieldNames, 1 < tsvNames.count n) := by
    rintro (h | h)
    · exact h rfl
    · exact names_once h
  rw [Record.ofRow, if_neg hl]
  obtain ⟨k1, k2, k3, k4, k5, k6, k7, k8, k9, k10, k11, k12⟩ := lookup_field (numeral r.level) (numeral r.pageNum) (numeral r.blockNum)
    (numeral r.parNum) (numeral r.lineNum) (numeral r.wordNum) (numeral r.left) (numeral r.top) (numeral r.width) (numeral r.height)
    (numeral conf) r.text
  simp only [tsvFields, k1, k2, k3, k4, k5, k6, k7, k8, k9, k10, k11, k12, Option.bind_some, Option.bind_eq_bind,
    Csv.parseI32_numeral h1.1 h1.2, Csv.parseI32_numeral h2.1 h2.2, Csv.parseI32_numeral h3.1 h3.2, Csv.parseI32_numeral h4.1 h4.2,
    Csv.parseI32_numeral h5.1 h5.2, Csv.parseI32_numeral h6.1 h6.2, Csv.parseI32_numeral h7.1 h7.2, Csv.parseI32_numeral h8.1 h8.2,
    Csv.parseI32_numeral h9.1 h9.2, Csv.parseI32_numeral h10.1 h10.2, Csv.parseI32_numeral h11.1 h11.2]

/-- Only a row of twelve fields is a record, and the text is the last of them. -/
theorem ofRow_text {row : Csv.Row} {r : Record} (h : Record.ofRow tsvNames row = some r) :
    row.length = 12 ∧ row.getLast? = some r.text := by
  rw [Record.ofRow] at h
  split at h
  · exact absurd h (by simp)
  · rename_i hl
    have hlen : row.length = 12 := by
      by_contra hne
      exact hl (.inl fun h => hne (by rw [← h]; rfl))
    refine ⟨hlen, ?_⟩
    obtain ⟨a, b, c, d, e, f, g, x, i, j, k, l, rfl⟩ : ∃ a b c d e f g x i j k l, row = [a, b, c, d, e, f, g, x, i, j, k, l] := by
      match row, hlen with
      | [a, b, c, d, e, f, g, x, i, j, k, l], _ => exact ⟨a, b, c, d, e, f, g, x, i, j, k, l, rfl⟩
    obtain ⟨k1, k2, k3, k4, k5, k6, k7, k8, k9, k10, k11, k12⟩ := lookup_field a b c d e f g x i j k l
    simp only [k1, k2, k3, k4, k5, k6, k7, k8, k9, k10, k11, k12, Option.bind_some, Option.bind_eq_bind, Option.bind_eq_some_iff,
      Option.some.injEq] at h
    obtain ⟨_, _, _, _, _, _, _, _, _, _, _, _, _, _, _, _, _, _, _, _, _, _, h⟩ := h
    rw [← h]
    rfl

end Tesseract
end Verif
