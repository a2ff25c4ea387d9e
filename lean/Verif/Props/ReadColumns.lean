import Verif.Props.ReadTsv

/-!
# Columns and numbers (C74, C75)
-/

namespace Verif
open Spec Spec.Csv

/-! ## Columns -/

/-- No two columns have that name. -/
def Once (headers : List Str) (n : Str) : Prop := ∀ i j : Nat, headers[i]? = some n → headers[j]? = some n → i = j

theorem once_iff (headers : List Str) (n : Str) : Once headers n ↔ headers.count n ≤ 1 := by
  induction headers with
  | nil => simp [Once]
  | cons h hs ih =>
    by_cases he : h = n
    · subst he
      rw [List.count_cons_self]
      constructor
      · intro ho
        have : h ∉ hs := by
          intro hm
          obtain ⟨i, hi, hie⟩ := List.mem_iff_getElem.1 hm
          have := ho 0 (i + 1) (by simp) (by simp [List.getElem?_eq_getElem hi, hie])
          omega
        rw [List.count_eq_zero.2 this]
      · intro hc i j hi hj
        have hn : h ∉ hs := List.count_eq_zero.1 (by omega)
        have key : ∀ k : Nat, (h :: hs)[k]? = some h → k = 0 := by
          intro k hk
          cases k with
          | zero => rfl
          | succ k => exact absurd (List.mem_of_getElem? (by simpa using hk)) hn
        rw [key i hi, key j hj]
    · have : (h :: hs).count n = hs.count n := List.count_cons_of_ne he
      rw [this, ← ih]
      constructor
      · intro ho i j hi hj
        have := ho (i + 1) (j + 1) (by simpa using hi) (by simpa using hj)
        omega
      · intro ho i j hi hj
        cases i with
        | zero => simp at hi; exact absurd hi he
        | succ i =>
          cases j with
          | zero => simp at hj; exact absurd hj he
          | succ j =>
            have := ho i j (by simpa using hi) (by simpa using hj)
            omega

/-- The first column with a name, if there is one, is found. -/
theorem field_under {headers row : List Str} {n : Str} (hl : row.length = headers.length) (ho : Once headers n) (v : Str) :
    PaypalCsv.field headers row n = some v ↔ Under headers row n v := by
  rw [PaypalCsv.field]
  induction headers generalizing row with
  | nil => simp [Under]
  | cons h hs ih =>
    cases row with
    | nil => simp at hl
    | cons x xs =>
      rw [List.zip_cons_cons, List.lookup_cons]
      by_cases he : n = h
      · subst he
        simp only [beq_self_eq_true]
        constructor
        · intro h; exact ⟨0, by simp, by simpa using h⟩
        · rintro ⟨i, hi, hv⟩
          obtain rfl := ho i 0 hi (by simp)
          simpa using hv
      · have : (n == h) = false := by simpa using he
        simp only [this]
        have ho' : Once hs n := fun i j hi hj => by
          have := ho (i + 1) (j + 1) (by simpa using hi) (by simpa using hj)
          omega
        rw [ih (by simpa using hl) ho']
        constructor
        · rintro ⟨i, hi, hv⟩; exact ⟨i + 1, by simpa using hi, by simpa using hv⟩
        · rintro ⟨i, hi, hv⟩
          cases i with
          | zero => simp at hi; exact absurd hi.symm he
          | succ i => exact ⟨i, by simpa using hi, by simpa using hv⟩

/-! ## Numbers -/

namespace Csv

theorem toNat_ofNat {n : Nat} (h : n < 128) : (Char.ofNat n).toNat = n := by
  have : n.isValidChar := .inl (by omega)
  simp only [Char.ofNat, dif_pos this]
  rfl

theorem ofNat_toNat {c : Char} {n : Nat} (h : c.toNat = n) (hn : n < 128) : c = Char.ofNat n := by
  apply Char.toNat_inj.1
  rw [toNat_ofNat hn, h]

theorem digit?_iff {radix : Nat} (hr : radix ≤ 36) (c : Char) (k : Nat) : digit? radix c = some k ↔ DigitValue c k ∧ k < radix := by
  have hle : ∀ a b : Char, a ≤ b ↔ a.toNat ≤ b.toNat := fun a b => Iff.rfl
  constructor
  · intro h
    simp only [digit?] at h
    split at h
    · rename_i hd
      have hb := digit_bounds hd
      split at h
      · rename_i hk
        simp only [Option.some.injEq] at h
        have : c = Char.ofNat (48 + k) := ofNat_toNat (by omega) (by omega)
        exact ⟨this ▸ .decimal (by omega), by omega⟩
      · exact absurd h (by simp)
    · split at h
      · rename_i hd
        rw [hle, hle] at hd
        have h1 : ('a' : Char).toNat = 97 := rfl
        have h2 : ('z' : Char).toNat = 122 := rfl
        split at h
        · rename_i hk
          simp only [Option.some.injEq] at h
          have : c = Char.ofNat (97 + (k - 10)) := ofNat_toNat (by omega) (by omega)
          have hv : DigitValue (Char.ofNat (97 + (k - 10))) (10 + (k - 10)) := .lower (by omega)
          rw [← this, show 10 + (k - 10) = k by omega] at hv
          exact ⟨hv, by omega⟩
        · exact absurd h (by simp)
      · split at h
        · rename_i hd
          rw [hle, hle] at hd
          have h1 : ('A' : Char).toNat = 65 := rfl
          have h2 : ('Z' : Char).toNat = 90 := rfl
          split at h
          · rename_i hk
            simp only [Option.some.injEq] at h
            have : c = Char.ofNat (65 + (k - 10)) := ofNat_toNat (by omega) (by omega)
            have hv : DigitValue (Char.ofNat (65 + (k - 10))) (10 + (k - 10)) := .upper (by omega)
            rw [← this, show 10 + (k - 10) = k by omega] at hv
            exact ⟨hv, by omega⟩
          · exact absurd h (by simp)
        · split at h
          · rename_i hk; exact absurd hk (by omega)
          · exact absurd h (by simp)
  · rintro ⟨hv, hk⟩
    have dig : ∀ c : Char, c.isDigit = true ↔ 48 ≤ c.toNat ∧ c.toNat ≤ 57 := fun c => Char.isDigit_iff_toNat
    have h1 : ('a' : Char).toNat = 97 := rfl
    have h2 : ('z' : Char).toNat = 122 := rfl
    have h3 : ('A' : Char).toNat = 65 := rfl
    have h4 : ('Z' : Char).toNat = 90 := rfl
    cases hv with
    | @decimal k h =>
      have ht := toNat_ofNat (n := 48 + k) (by omega)
      have hd : (Char.ofNat (48 + k)).isDigit = true := (dig _).2 (by omega)
      simp only [digit?, hd, if_true, ht]
      rw [if_pos (by omega)]
      congr 1; omega
    | @lower k h =>
      have ht := toNat_ofNat (n := 97 + k) (by omega)
      have hd : (Char.ofNat (97 + k)).isDigit = false := by rw [Bool.eq_false_iff]; intro h; have := (dig _).1 h; omega
      have hz : 'a' ≤ Char.ofNat (97 + k) ∧ Char.ofNat (97 + k) ≤ 'z' := by rw [hle, hle]; omega
      simp only [digit?, hd, Bool.false_eq_true, if_false, if_pos hz, ht]
      rw [if_pos (by omega)]
      congr 1; omega
    | @upper k h =>
      have ht := toNat_ofNat (n := 65 + k) (by omega)
      have hd : (Char.ofNat (65 + k)).isDigit = false := by rw [Bool.eq_false_iff]; intro h; have := (dig _).1 h; omega
      have hz : ¬ ('a' ≤ Char.ofNat (65 + k) ∧ Char.ofNat (65 + k) ≤ 'z') := by rw [hle, hle]; omega
      have hz' : 'A' ≤ Char.ofNat (65 + k) ∧ Char.ofNat (65 + k) ≤ 'Z' := by rw [hle, hle]; omega
      simp only [digit?, hd, Bool.false_eq_true, if_false, if_neg hz, if_pos hz', ht]
      rw [if_pos (by omega)]
      congr 1; omega

/-- The value of digits. -/
theorem digits_iff {radix : Nat} (hr : radix ≤ 36) (s : Str) (n : Nat) :
    (s ≠ [] ∧ ∃ ds, s.mapM (digit? radix) = some ds ∧ ds.foldl (fun n d => radix * n + d) 0 = n) ↔ DigitsValue radix s n := by
  constructor
  · rintro ⟨hne, ds, hm, hv⟩
    induction s using List.reverseRecOn generalizing ds n with
    | nil => exact absurd rfl hne
    | append_singleton s c ih =>
      rw [List.mapM_append] at hm
      simp only [List.mapM_cons, List.mapM_nil, Option.bind_eq_bind, Option.bind_eq_some_iff, Option.pure_def, Option.some.injEq] at hm
      obtain ⟨ds', h1, es, ⟨k, h2, _, rfl, rfl⟩, rfl⟩ := hm
      obtain ⟨hk, hkr⟩ := (digit?_iff hr c k).1 h2
      rw [List.foldl_append, List.foldl_cons, List.foldl_nil] at hv
      cases s with
      | nil =>
        simp only [List.mapM_nil, Option.pure_def, Option.some.injEq] at h1
        subst h1
        simp only [List.foldl_nil, Nat.mul_zero, Nat.zero_add] at hv
        subst hv
        exact .one hk hkr
      | cons x xs =>
        have := ih _ (by simp) ds' h1 rfl
        rw [← hv, Nat.mul_comm]
        exact .more this hk hkr
  · intro h
    induction h with
    | @one c k hk hkr =>
      exact ⟨by simp, [k], by simp [List.mapM_cons, (digit?_iff hr _ _).2 ⟨hk, hkr⟩], by simp⟩
    | @more s n c k _ hk hkr ih =>
      obtain ⟨_, ds, h1, h2⟩ := ih
      refine ⟨by simp, ds ++ [k], ?_, ?_⟩
      · rw [List.mapM_append, h1]
        simp [(digit?_iff hr _ _).2 ⟨hk, hkr⟩]
      · rw [List.foldl_append, h2, List.foldl_cons, List.foldl_nil, Nat.mul_comm]

theorem DigitsValue.ne {radix : Nat} {s : Str} {n : Nat} (h : DigitsValue radix s n) : s ≠ [] := by
  cases h <;> simp

theorem DigitValue.noSign {c : Char} {k : Nat} (h : DigitValue c k) : c ≠ '-' ∧ c ≠ '+' := by
  have h1 : ('-' : Char).toNat = 45 := rfl
  have h2 : ('+' : Char).toNat = 43 := rfl
  cases h with
  | @decimal k h => have := toNat_ofNat (n := 48 + k) (by omega); exact ⟨fun e => by rw [e] at this; omega, fun e => by rw [e] at this; omega⟩
  | @lower k h => have := toNat_ofNat (n := 97 + k) (by omega); exact ⟨fun e => by rw [e] at this; omega, fun e => by rw [e] at this; omega⟩
  | @upper k h => have := toNat_ofNat (n := 65 + k) (by omega); exact ⟨fun e => by rw [e] at this; omega, fun e => by rw [e] at this; omega⟩

theorem DigitsValue.mem {radix : Nat} {s : Str} {n : Nat} (h : DigitsValue radix s n) {c : Char} (hc : c ∈ s) :
    ∃ k, DigitValue c k ∧ k < radix := by
  induction h with
  | one hk hkr => rw [List.mem_singleton] at hc; exact ⟨_, hc ▸ hk, hkr⟩
  | more _ hk hkr ih =>
    rcases List.mem_append.1 hc with hc | hc
    · exact ih hc
    · rw [List.mem_singleton] at hc; exact ⟨_, hc ▸ hk, hkr⟩

theorem sign_digits {radix : Nat} {s : Str} {n : Nat} (h : DigitsValue radix s n) : sign s = (false, s) := by
  cases s with
  | nil => exact absurd rfl (DigitsValue.ne h)
  | cons c s =>
    obtain ⟨k, hk, _⟩ := DigitsValue.mem h (List.mem_cons_self (a := c))
    obtain ⟨h1, h2⟩ := DigitValue.noSign hk
    rw [sign]
    · intro ds e; exact h1 (List.cons.inj e).1
    · intro ds e; exact h2 (List.cons.inj e).1

theorem fromRadix_iff {radix : Nat} (hr : radix ≤ 36) (s : Str) (n : Int) :
    fromRadix radix s = some n ↔ (-2147483648 ≤ n ∧ n ≤ 2147483647) ∧ Signed radix s n := by
  have key : fromRadix radix s = some n ↔ ∃ v, DigitsValue radix (sign s).2 v ∧ n = (if (sign s).1 then -(v : Int) else v) ∧
      (-2147483648 ≤ n ∧ n ≤ 2147483647) := by
    rw [fromRadix]
    constructor
    · intro h
      split at h
      · exact absurd h (by simp)
      · rename_i hne
        simp only [Option.bind_eq_bind, Option.bind_eq_some_iff] at h
        obtain ⟨ds, h1, h2⟩ := h
        rw [Option.ite_none_right_eq_some] at h2
        obtain ⟨hrange, h2⟩ := h2
        rw [Option.some.injEq] at h2
        refine ⟨_, (digits_iff hr _ _).1 ⟨hne, ds, h1, rfl⟩, h2.symm, ?_⟩
        rw [← h2]; exact hrange
    · rintro ⟨v, hv, rfl, hrange⟩
      obtain ⟨hne, ds, h1, h2⟩ := (digits_iff hr _ _).2 hv
      rw [if_neg hne, h1]
      simp only [Option.bind_eq_bind, Option.bind_some, h2]
      rw [if_pos hrange]
  rw [key]
  constructor
  · rintro ⟨v, hv, hn, hrange⟩
    refine ⟨hrange, (sign s).2, v, hv, ?_⟩
    have : s = '-' :: (sign s).2 ∧ (sign s).1 = true ∨ s = '+' :: (sign s).2 ∧ (sign s).1 = false ∨ s = (sign s).2 ∧ (sign s).1 = false := by
      rw [sign.eq_def]
      split
      · exact .inl ⟨rfl, rfl⟩
      · exact .inr (.inl ⟨rfl, rfl⟩)
      · exact .inr (.inr ⟨rfl, rfl⟩)
    rcases this with ⟨h1, h2⟩ | ⟨h1, h2⟩ | ⟨h1, h2⟩ <;> rw [h2] at hn
    · exact .inl ⟨h1, by simpa using hn⟩
    · exact .inr (.inl ⟨h1, by simpa using hn⟩)
    · exact .inr (.inr ⟨h1, by simpa using hn⟩)
  · rintro ⟨hrange, ds, v, hv, ⟨rfl, hn⟩ | ⟨rfl, hn⟩ | ⟨rfl, hn⟩⟩
    · exact ⟨v, by simpa [sign] using hv, by simpa [sign] using hn, hrange⟩
    · exact ⟨v, by simpa [sign] using hv, by simpa [sign] using hn, hrange⟩
    · exact ⟨v, by rw [sign_digits hv]; exact hv, by rw [sign_digits hv]; simpa using hn, hrange⟩

/-- **C75.** Which texts are read as which numbers. -/
theorem C75_numbers (s : Str) (n : Int) : parseI32 s = some n ↔ IsNumber s n := by
  have hx : "0x".toList = ['0', 'x'] := rfl
  rw [parseI32, IsNumber]
  by_cases h : s.startsWith "0x".toList = true
  · rw [if_pos h, fromRadix_iff (by omega)]
    rw [Str.startsWith, hx, List.isPrefixOf_iff_prefix] at h
    obtain ⟨t, rfl⟩ := h
    simp only [List.cons_append, List.nil_append, List.drop_succ_cons, List.drop_zero]
    refine and_congr_right fun _ => ⟨fun h => .inl ⟨t, rfl, h⟩, ?_⟩
    rintro (⟨t', h1, h2⟩ | ⟨ds, v, hv, h | h | h⟩)
    · obtain rfl : t = t' := by simpa using h1
      exact h2
    · exact absurd h.1 (by simp)
    · exact absurd h.1 (by simp)
    · exfalso
      obtain ⟨k, hk, hk10⟩ := DigitsValue.mem hv (c := 'x') (by rw [← h.1]; simp)
      have := (digit?_iff (radix := 10) (by omega) 'x' k).2 ⟨hk, hk10⟩
      exact absurd this (by rw [show digit? 10 'x' = none by decide +kernel]; simp)
  · rw [if_neg h, fromRadix_iff (by omega)]
    refine and_congr_right fun _ => ⟨.inr, ?_⟩
    rintro (⟨t, rfl, _⟩ | h')
    · exact absurd (by rw [Str.startsWith, hx, List.isPrefixOf_iff_prefix]; exact ⟨t, rfl⟩) h
    · exact h'

example : IsNumber "-12".toList (-12) ∧ IsNumber "0x1F".toList 31 ∧ ¬ ∃ n, IsNumber "2147483648".toList n := by
  refine ⟨(C75_numbers _ _).1 (by decide +kernel), (C75_numbers _ _).1 (by decide +kernel), ?_⟩
  rintro ⟨n, h⟩
  rw [← C75_numbers, show parseI32 "2147483648".toList = none by decide +kernel] at h
  exact absurd h (by simp)

end Csv

/-! ## Records -/

namespace Tesseract

theorem names_eq : fieldNames = tsvNames := rfl

/-- **C75.** Columns are found by their names, in any order and among others; which rows are records, and of what. -/
theorem C75_columns (headers row : List Str) (r : Record) : Record.ofRow headers row = some r ↔ Says headers row r := by
  by_cases hg : row.length = headers.length ∧ ∀ n ∈ tsvNames, Once headers n
  · obtain ⟨hl, ho⟩ := hg
    have hneg : ¬ (headers.length ≠ row.length ∨ ∃ n ∈ fieldNames, 1 < headers.count n) := by
      rintro (h | ⟨n, hn, h⟩)
      · exact h hl.symm
      · have := (once_iff headers n).1 (ho n hn)
        omega
    have hnum : ∀ n ∈ tsvNames, ∀ v, (∃ s, PaypalCsv.field headers row n = some s ∧ Csv.parseI32 s = some v) ↔ ∃ s, Under headers row n s ∧ IsNumber s v := by
      intro n hn v
      constructor
      · rintro ⟨s, h1, h2⟩; exact ⟨s, (field_under hl (ho n hn) s).1 h1, (Csv.C75_numbers s v).1 h2⟩
      · rintro ⟨s, h1, h2⟩; exact ⟨s, (field_under hl (ho n hn) s).2 h1, (Csv.C75_numbers s v).2 h2⟩
    have k1 := hnum "level".toList (by decide +kernel)
    have k2 := hnum "page_num".toList (by decide +kernel)
    have k3 := hnum "block_num".toList (by decide +kernel)
    have k4 := hnum "par_num".toList (by decide +kernel)
    have k5 := hnum "line_num".toList (by decide +kernel)
    have k6 := hnum "word_num".toList (by decide +kernel)
    have k7 := hnum "left".toList (by decide +kernel)
    have k8 := hnum "top".toList (by decide +kernel)
    have k9 := hnum "width".toList (by decide +kernel)
    have k10 := hnum "height".toList (by decide +kernel)
    have k11 := hnum "conf".toList (by decide +kernel)
    have k12 := field_under hl (ho "text".toList (by decide +kernel))
    rw [Record.ofRow, if_neg hneg]
    simp only [Option.bind_eq_bind, Option.bind_eq_some_iff (f := fun _ => _), Option.some.injEq]
    simp only [k1, k2, k3, k4, k5, k6, k7, k8, k9, k10, k11, k12]
    constructor
    · rintro ⟨a1, h1, a2, h2, a3, h3, a4, h4, a5, h5, a6, h6, a7, h7, a8, h8, a9, h9, a10, h10, a11, h11, a12, h12, rfl⟩
      refine ⟨hl, ho, ?_, let ⟨s, hs⟩ := h11; ⟨s, a11, hs⟩, h12⟩
      simp only [List.mem_cons, List.not_mem_nil, or_false, forall_eq_or_imp, forall_eq]
      exact ⟨h1, h2, h3, h4, h5, h6, h7, h8, h9, h10⟩
    · rintro ⟨-, -, hn, ⟨s, a11, h11⟩, h12⟩
      simp only [List.mem_cons, List.not_mem_nil, or_false, forall_eq_or_imp, forall_eq] at hn
      obtain ⟨h1, h2, h3, h4, h5, h6, h7, h8, h9, h10⟩ := hn
      exact ⟨_, h1, _, h2, _, h3, _, h4, _, h5, _, h6, _, h7, _, h8, _, h9, _, h10, a11, ⟨s, h11⟩, _, h12, rfl⟩
  · constructor
    · intro h
      exfalso
      rw [Record.ofRow] at h
      split at h
      · exact absurd h (by simp)
      · rename_i hneg
        refine hg ⟨?_, fun n hn => (once_iff headers n).2 ?_⟩
        · by_contra hne; exact hneg (.inl fun h => hne h.symm)
        · by_contra hgt; exact hneg (.inr ⟨n, hn, by omega⟩)
    · intro h
      exact absurd ⟨h.length, h.once⟩ hg

/-- A file with the columns in another order, and one more. -/
example : readRecords ("extra\tconf\ttext\tlevel\tpage_num\tblock_num\tpar_num\tline_num\tword_num\tleft\ttop\twidth\theight\n" ++
    "?\t96\tCoffee\t5\t1\t2\t3\t4\t5\t100\t200\t30\t10\n").toList = [some ⟨5, 1, 2, 3, 4, 5, 100, 200, 30, 10, "Coffee".toList⟩] := by
  decide +kernel

/-- **C75.** The rows of any table of tabs are read by their columns, without the white space around fields. -/
theorem C75_table {headers : List Str} {rows : List (List Str)} {t : Str} (h : TableText '\t' (headers :: rows) t) (hb : t.head? ≠ some '\uFEFF') :
    readRecords t = rows.map fun row => Record.ofRow (headers.map Str.trim) (row.map Str.trim) := by
  rw [readRecords, Csv.trimmedRecords, (Csv.C74_table Csv.tab_delim h).1 hb]
  simp [Function.comp_def]

end Tesseract

namespace TzAbbr

/-- A row says a record of the table of time zones. -/
structure Says (headers row : List Str) (r : Record) : Prop where
  length : row.length = headers.length
  once : ∀ n ∈ ["abbreviation".toList, "utc_offset".toList], ∀ i j : Nat, headers[i]? = some n → headers[j]? = some n → i = j
  abbreviation : Under headers row "abbreviation".toList r.abbreviation
  utcOffset : Under headers row "utc_offset".toList r.utcOffset

theorem ofRow_iff (headers row : List Str) (r : Record) : Record.ofRow headers row = some r ↔ Says headers row r := by
  rw [Record.ofRow]
  by_cases hg : row.length = headers.length ∧ ∀ n ∈ ["abbreviation".toList, "utc_offset".toList], Once headers n
  · obtain ⟨hl, ho⟩ := hg
    have o1 := ho "abbreviation".toList (by simp)
    have o2 := ho "utc_offset".toList (by simp)
    have hneg : ¬ (headers.length ≠ row.length ∨ 1 < headers.count "abbreviation".toList ∨ 1 < headers.count "utc_offset".toList) := by
      have := (once_iff headers _).1 o1
      have := (once_iff headers _).1 o2
      omega
    rw [if_neg hneg]
    simp only [Option.bind_eq_bind, Option.bind_eq_some_iff (f := fun _ => _), Option.some.injEq]
    simp only [field_under hl o1, field_under hl o2]
    constructor
    · rintro ⟨a, h1, b, h2, rfl⟩; exact ⟨hl, ho, h1, h2⟩
    · rintro ⟨-, -, h1, h2⟩; exact ⟨_, h1, _, h2, rfl⟩
  · constructor
    · intro h
      exfalso
      split at h
      · exact absurd h (by simp)
      · rename_i hneg
        refine hg ⟨by omega, fun n hn => (once_iff headers n).2 ?_⟩
        simp only [List.mem_cons, List.not_mem_nil, or_false] at hn
        rcases hn with rfl | rfl <;> omega
    · intro h; exact absurd ⟨h.length, h.once⟩ hg

/-- **C74.** The text of a table of time zones is read row by row, as it is, by the names of the columns. -/
theorem C74_timezones {headers : List Str} {rows : List (List Str)} {t : Str} (h : TableText ',' (headers :: rows) t) (hb : t.head? ≠ some '\uFEFF') :
    (readRecords t).length = rows.length ∧ ∀ (i : Nat) (row : List Str) (r : Record), rows[i]? = some row →
      ((readRecords t)[i]? = some (some r) ↔ Says headers row r) := by
  have : readRecords t = rows.map (Record.ofRow headers) := by
    rw [readRecords, (Csv.C74_table Csv.comma_delim h).1 hb]
  rw [this]
  refine ⟨by simp, fun i row r hr => ?_⟩
  rw [List.getElem?_map, hr, Option.map_some, Option.some.injEq, ofRow_iff]

/-- White space is part of a field: a table with blanks behind the commas has no column for the offset. -/
example : readRecords "abbreviation,utc_offset\nBST,UTC+01\n".toList = [some ⟨"BST".toList, "UTC+01".toList⟩] ∧
    readRecords "abbreviation, utc_offset\nBST, UTC+01\n".toList = [none] := by decide +kernel

end TzAbbr

/-- **C74.** The text of a PayPal file is read as the rows of its table below the header, without the white space around fields; a row of
another length is an error. -/
theorem C74_paypal (L : ImportLib) (ns : Str) (legacy : Bool) {headers : List Str} {rows : List (List Str)} {t tz : Str}
    (h : TableText ',' (headers :: rows) t) (hb : t.head? ≠ some '\uFEFF') :
    (ImportCmd.Texts.paypalCsv ns legacy t tz).doImport L =
      PaypalCsv.getTransactions L ns legacy (some (headers.map Str.trim))
        (rows.map fun row => if row.length = headers.length then some (row.map Str.trim) else none) (TzAbbr.readRecords tz) := by
  simp only [ImportCmd.Texts.doImport, ImportCmd.Texts.importer, Csv.trimmedRecords, (Csv.C74_table Csv.comma_delim h).1 hb,
    ImportCmd.Importer.doImport, List.map_cons, List.headD_cons, List.tail_cons, List.map_map]
  congr 1
  refine List.map_congr_left fun row _ => ?_
  simp [Function.comp]

end Verif
