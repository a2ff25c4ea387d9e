import Verif.Spec.Encoding
import Verif.Base.Windows1252
import Verif.Proofs.Fingerprint
import Verif.Props.Money
import Verif.Props.ReadText

/-!
# C78: encodings of Nationwide CSV files
-/

namespace Verif
open Spec Spec.Csv

namespace Windows1252

theorem high_spec : ∀ i < 32, (high.getD i '?').toNat = 0x80 + i ∨ 256 ≤ (high.getD i '?').toNat := by decide +kernel
theorem high_nodup : high.Nodup := by decide +kernel
theorem high_length : high.length = 32 := rfl

theorem byte_lt (b : UInt8) : b.toNat < 256 := b.toNat_lt

theorem toNat_ofNat {n : Nat} (h : n < 256) : (Char.ofNat n).toNat = n := by
  unfold Char.ofNat
  rw [dif_pos (show n.isValidChar by left; omega)]
  simp only [Char.ofNatAux, Char.toNat]
  rfl

theorem char_cases (b : UInt8) :
    (char b).toNat = b.toNat ∨ (0x80 ≤ b.toNat ∧ b.toNat < 0xA0 ∧ 256 ≤ (char b).toNat ∧ char b = high.getD (b.toNat - 0x80) '?') := by
  unfold char
  by_cases h : 0x80 ≤ b.toNat ∧ b.toNat < 0xA0
  · rw [if_pos h]
    rcases high_spec (b.toNat - 0x80) (by omega) with h' | h'
    · left; rw [h']; omega
    · exact .inr ⟨h.1, h.2, h', rfl⟩
  · rw [if_neg h]
    exact .inl (toNat_ofNat (byte_lt b))

theorem char_inj {a b : UInt8} (h : char a = char b) : a = b := by
  rcases char_cases a with ha | ⟨ha1, ha2, ha3, ha4⟩ <;> rcases char_cases b with hb | ⟨hb1, hb2, hb3, hb4⟩
  · rw [h] at ha
    exact UInt8.toNat_inj.1 (ha.symm.trans hb)
  · rw [h] at ha
    have := byte_lt a
    omega
  · rw [← h] at hb
    have := byte_lt b
    omega
  · rw [h, hb4, List.getD_eq_getElem?_getD, List.getD_eq_getElem?_getD,
      List.getElem?_eq_getElem (show _ < high.length by rw [high_length]; omega),
      List.getElem?_eq_getElem (show _ < high.length by rw [high_length]; omega)] at ha4
    have := (high_nodup.getElem_inj_iff).1 (show high[b.toNat - 0x80]'_ = high[a.toNat - 0x80]'_ from ha4)
    exact UInt8.toNat_inj.1 (by omega)

theorem char_ascii (b : UInt8) : (char b).toNat < 128 ↔ b.toNat < 128 := by
  rcases char_cases b with h | ⟨h1, _, h2, _⟩ <;> omega

/-- **C78.** Every file can be decoded, into one character for each byte, and no two files into the same text. ASCII stands for itself,
and no other byte for ASCII: commas, quotes and line ends are where they are in the file. From 0xA0 on the bytes are those of Latin-1. -/
theorem C78_decode :
    (∀ b, (decode b).length = b.length) ∧ Function.Injective decode ∧
    (∀ b : UInt8, b.toNat < 0x80 ∨ 0xA0 ≤ b.toNat → (char b).toNat = b.toNat) ∧
    (∀ b : UInt8, (char b).toNat < 0x80 → (char b).toNat = b.toNat) := by
  refine ⟨fun b => List.length_map .., ?_, ?_, ?_⟩
  · intro a b h
    exact (List.map_injective_iff.2 fun _ _ => char_inj) h
  · intro b hb
    rcases char_cases b with h | ⟨h1, h2, _⟩ <;> omega
  · intro b hb
    rcases char_cases b with h | ⟨h1, h2, h3, _⟩ <;> omega

/-- Some of the characters that differ from Latin-1, and some that do not. -/
example : decode [0x80, 0x91, 0x96, 0xA3, 0xE9, 0x41, 0x85] = "€‘–£éA…".toList := by decide

/-- The text that is read if a file is UTF-8 in fact. -/
def garble (s : Str) : Str := decode (encodeUtf8 s)

theorem garble_cons (c : Char) (s : Str) : garble (c :: s) = garble [c] ++ garble s := by
  simp [garble, encodeUtf8, decode]

theorem garble_append (s t : Str) : garble (s ++ t) = garble s ++ garble t := by simp [garble, encodeUtf8, decode]

theorem garble_nil : garble [] = [] := rfl

theorem garble_inj {s t : Str} (h : garble s = garble t) : s = t := encodeUtf8_inj (C78_decode.2.1 h)

theorem encode_ascii {c : Char} (h : c.toNat < 128) : String.utf8EncodeChar c = [UInt8.ofNat c.toNat] := by
  fun_cases String.utf8EncodeChar c with
  | case1 => rfl
  | case2 _ _ h1 => exact absurd h (by have := h1; simp only [Char.toNat] at *; omega)
  | case3 _ h1 => exact absurd h (by have := h1; simp only [Char.toNat] at *; omega)
  | case4 _ h1 => exact absurd h (by have := h1; simp only [Char.toNat] at *; omega)


theorem encode_other {c : Char} (h : ¬ c.toNat < 128) :
    2 ≤ (String.utf8EncodeChar c).length ∧ ∀ b ∈ String.utf8EncodeChar c, 128 ≤ b.toNat := by
  have key : ∀ n, 128 ≤ n → n < 256 → 128 ≤ (UInt8.ofNat n).toNat := by
    intro n h1 h2
    rw [UInt8.toNat_ofNat', Nat.mod_eq_of_lt h2]
    exact h1
  have hmax := c.valid
  simp only [UInt32.isValidChar, Nat.isValidChar] at hmax
  fun_cases String.utf8EncodeChar c with
  | case1 v h1 => exact absurd (show c.toNat < 128 by simp only [Char.toNat]; omega) h
  | case2 v h1 h2 =>
    refine ⟨by simp, ?_⟩
    intro b hb
    simp only [List.mem_cons, List.not_mem_nil, or_false] at hb
    rcases hb with rfl | rfl <;> exact key _ (by omega) (by omega)
  | case3 v h1 h2 h3 =>
    refine ⟨by simp, ?_⟩
    intro b hb
    simp only [List.mem_cons, List.not_mem_nil, or_false] at hb
    rcases hb with rfl | rfl | rfl <;> exact key _ (by omega) (by omega)
  | case4 v h1 h2 h3 =>
    refine ⟨by simp, ?_⟩
    intro b hb
    simp only [List.mem_cons, List.not_mem_nil, or_false] at hb
    rcases hb with rfl | rfl | rfl | rfl <;> exact key _ (by omega) (by omega)

theorem garble_ascii_char {c : Char} (h : c.toNat < 128) : garble [c] = [c] := by
  unfold garble encodeUtf8 decode
  rw [List.flatMap_cons, List.flatMap_nil, List.append_nil, encode_ascii h, List.map_cons, List.map_nil]
  have h1 : (UInt8.ofNat c.toNat).toNat = c.toNat := by rw [UInt8.toNat_ofNat', Nat.mod_eq_of_lt (by omega)]
  have h2 : (char (UInt8.ofNat c.toNat)).toNat = c.toNat := by
    rw [C78_decode.2.2.1 _ (by rw [h1]; exact .inl h), h1]
  rw [Char.toNat_inj.1 h2]

theorem garble_other {c : Char} (h : ¬ c.toNat < 128) : 2 ≤ (garble [c]).length ∧ ∀ d ∈ garble [c], ¬ d.toNat < 128 := by
  obtain ⟨h1, h2⟩ := encode_other h
  unfold garble encodeUtf8 decode
  rw [List.flatMap_cons, List.flatMap_nil, List.append_nil]
  refine ⟨by rw [List.length_map]; exact h1, ?_⟩
  intro d hd
  obtain ⟨b, hb, rfl⟩ := List.mem_map.1 hd
  rw [char_ascii]
  have := h2 b hb
  omega

theorem garble_ascii {s : Str} (h : Ascii s) : garble s = s := by
  induction s with
  | nil => rfl
  | cons c s ih =>
    rw [garble_cons, garble_ascii_char (h c List.mem_cons_self), ih fun d hd => h d (List.mem_cons_of_mem _ hd)]
    rfl

theorem garble_length (s : Str) : s.length ≤ (garble s).length ∧ ((garble s).length = s.length → Ascii s) := by
  induction s with
  | nil => exact ⟨Nat.le_refl _, fun _ c hc => by cases hc⟩
  | cons c s ih =>
    rw [garble_cons, List.length_append, List.length_cons]
    by_cases h : c.toNat < 128
    · rw [garble_ascii_char h, List.length_singleton]
      refine ⟨by omega, fun he d hd => ?_⟩
      rcases List.mem_cons.1 hd with rfl | hd
      · exact h
      · exact ih.2 (by omega) d hd
    · have := (garble_other h).1
      refine ⟨by omega, fun he => by omega⟩

/-- **C78.** A text that is UTF-8 in fact is read as it is exactly if it is ASCII; others are read as longer texts. -/
theorem C78_unchanged (s : Str) : decode (encodeUtf8 s) = s ↔ Ascii s :=
  ⟨fun h => (garble_length s).2 (congrArg List.length h), garble_ascii⟩

/-- One text that is read as it is and one that is not. -/
example : decode (encodeUtf8 "Cafe".toList) = "Cafe".toList ∧ decode (encodeUtf8 "Café £1".toList) = "CafÃ© Â£1".toList := by decide

theorem mem_garble {c : Char} (hc : c.toNat < 128) {s : Str} : c ∈ garble s ↔ c ∈ s := by
  induction s with
  | nil => simp [garble_nil]
  | cons d s ih =>
    rw [garble_cons, List.mem_append, ih, List.mem_cons]
    refine or_congr_left ?_
    by_cases hd : d.toNat < 128
    · rw [garble_ascii_char hd, List.mem_singleton]
    · refine ⟨fun h => absurd hc ((garble_other hd).2 c h), ?_⟩
      rintro rfl
      exact absurd hc hd

theorem garble_head {c : Char} (hc : c.toNat < 128) {s : Str} : (garble s).head? = some c ↔ s.head? = some c := by
  cases s with
  | nil => simp [garble_nil]
  | cons d s =>
    rw [garble_cons, List.head?_cons]
    by_cases hd : d.toNat < 128
    · rw [garble_ascii_char hd]; rfl
    · obtain ⟨h1, h2⟩ := garble_other hd
      cases hg : garble [d] with
      | nil => rw [hg] at h1; simp at h1
      | cons e es =>
        rw [List.cons_append, List.head?_cons]
        constructor
        · intro h
          cases h
          exact absurd hc (h2 c (by rw [hg]; exact List.mem_cons_self))
        · intro h
          cases h
          exact absurd hc hd

theorem garble_eq_nil {s : Str} : garble s = [] ↔ s = [] := by
  constructor
  · intro h
    have := (garble_length s).1
    rw [h] at this
    exact List.length_eq_zero_iff.1 (Nat.le_zero.1 this)
  · rintro rfl; rfl

theorem doubled_append (s t : Str) : doubled (s ++ t) = doubled s ++ doubled t := by
  induction s with
  | nil => rfl
  | cons c s ih =>
    rw [List.cons_append, doubled, doubled]
    split <;> simp [ih]

theorem doubled_none {s : Str} (h : '"' ∉ s) : doubled s = s := by
  induction s with
  | nil => rfl
  | cons c s ih =>
    rw [doubled, if_neg (fun e => h (by rw [e]; exact List.mem_cons_self)), ih fun h' => h (List.mem_cons_of_mem _ h')]

theorem garble_doubled (s : Str) : garble (doubled s) = doubled (garble s) := by
  induction s with
  | nil => rfl
  | cons c s ih =>
    rw [garble_cons c s, doubled_append, ← ih, doubled]
    by_cases h : c = '"'
    · subst h
      have hq : garble ['"'] = ['"'] := garble_ascii_char (by decide)
      rw [if_pos rfl, garble_cons, garble_cons, hq]
      rfl
    · rw [if_neg h, garble_cons, doubled_none (s := garble [c])]
      by_cases hc : c.toNat < 128
      · rw [garble_ascii_char hc, List.mem_singleton]
        exact fun e => h e.symm
      · exact fun hq => absurd (by decide : '"'.toNat < 128) ((garble_other hc).2 _ hq)

theorem ascii_end {c : Char} (h : LineEnd c) : c.toNat < 128 := by
  rcases h with rfl | rfl <;> decide

theorem garble_field {f s : Str} (h : FieldText ',' f s) : FieldText ',' (garble f) (garble s) := by
  cases h with
  | plain h =>
    refine .plain ⟨fun hc => h.delim ((mem_garble (by decide)).1 hc), ?_, fun hc => h.quote ((garble_head (by decide)).1 hc)⟩
    intro c hc he
    exact h.ends c ((mem_garble (ascii_end he)).1 hc) he
  | quoted =>
    rw [List.cons_append, garble_cons, garble_append, garble_doubled, garble_ascii_char (c := '"') (by decide)]
    exact .quoted _

theorem garble_row {r : List Str} {s : Str} (h : RowText ',' r s) : RowText ',' (r.map garble) (garble s) := by
  induction h with
  | one h => exact .one (garble_field h)
  | more h _ ih =>
    rw [garble_append, garble_cons, garble_ascii_char (c := ',') (by decide)]
    exact .more (garble_field h) ih

/-- **C78.** If a file is UTF-8 in fact, then what is read is the same table with the text of each field garbled, whichever of the
layouts of a table the file has. -/
theorem C78_utf8_table {rows : List (List Str)} {t : Str} (h : TableText ',' rows t) :
    TableText ',' (rows.map (·.map garble)) (garble t) := by
  induction h with
  | nil => exact .nil
  | blank hc _ ih =>
    rw [garble_cons, garble_ascii_char (ascii_end hc)]
    exact .blank hc ih
  | row hr hne hc _ ih =>
    rw [garble_append, garble_cons, garble_ascii_char (ascii_end hc)]
    exact .row (garble_row hr) (fun he => hne (garble_eq_nil.1 he)) hc ih
  | last hr hne => exact .last (garble_row hr) (fun he => hne (garble_eq_nil.1 he))

theorem garble_no_bom (s : Str) : (garble s).head? ≠ some '\uFEFF' := by
  intro h
  have : '\uFEFF' ∈ garble s := List.mem_of_mem_head? h
  obtain ⟨b, _, hb⟩ := List.mem_map.1 this
  have h1 : (char b).toNat = 0xFEFF := by rw [hb]; rfl
  have h2 : ∀ i < 32, (high.getD i '?').toNat ≠ 0xFEFF := by decide +kernel
  rcases char_cases b with hc | ⟨h3, h4, _, hc⟩
  · have := byte_lt b; omega
  · exact h2 (b.toNat - 0x80) (by omega) (by rw [← hc]; exact h1)


/-! ### Pound signs -/

theorem garble_pound (a : Str) (h : Ascii a) : garble ('£' :: a) = 'Â' :: '£' :: a := by
  rw [garble_cons, garble_ascii h]
  rfl

theorem trim_garble {s : Str} (h : ∀ c ∈ s, c.toNat < 128 ∨ c = '£') : Str.trim (garble s) = garble (Str.trim s) := by
  have start : ∀ {s : Str}, (∀ c ∈ s, c.toNat < 128 ∨ c = '£') → (garble s).dropWhile Str.isWs = garble (s.dropWhile Str.isWs) := by
    intro s
    induction s with
    | nil => intro _; rfl
    | cons c s ih =>
      intro h
      rw [garble_cons]
      rcases h c List.mem_cons_self with hc | rfl
      · rw [garble_ascii_char hc, List.singleton_append, List.dropWhile_cons, List.dropWhile_cons]
        split
        · exact ih fun d hd => h d (List.mem_cons_of_mem _ hd)
        · rw [garble_cons c s, garble_ascii_char hc]; rfl
      · rw [show garble ['£'] = ['Â', '£'] from rfl, List.dropWhile_cons, if_neg (by decide)]
        rw [garble_cons '£' s]; rfl
  have back : ∀ {s : Str}, (∀ c ∈ s, c.toNat < 128 ∨ c = '£') →
      (garble s).reverse.dropWhile Str.isWs = (garble (s.reverse.dropWhile Str.isWs).reverse).reverse := by
    intro s
    induction hs : s.reverse generalizing s with
    | nil =>
      intro _
      rw [List.reverse_eq_nil_iff.1 hs]
      rfl
    | cons c r ih =>
      have hs' : s = r.reverse ++ [c] := by rw [← List.reverse_reverse s, hs, List.reverse_cons]
      intro h
      have hsub : ∀ d ∈ r.reverse, d.toNat < 128 ∨ d = '£' := fun d hd => h d (by rw [hs']; exact List.mem_append_left _ hd)
      rw [hs', garble_append, List.reverse_append]
      rcases h c (by rw [hs']; simp) with hc | rfl
      · rw [garble_ascii_char hc, List.reverse_singleton, List.singleton_append, List.dropWhile_cons, List.dropWhile_cons]
        split
        · exact ih (by rw [List.reverse_reverse]) hsub
        · rw [List.reverse_cons, garble_append, garble_ascii_char hc, List.reverse_append]
          rfl
      · rw [show (garble ['£']).reverse = ['£', 'Â'] from rfl, List.dropWhile_cons, if_neg (by decide)]
        rw [List.cons_append, List.dropWhile_cons, if_neg (by decide), List.reverse_cons, garble_append, List.reverse_append]
        rfl
  have hsub : ∀ c ∈ s.dropWhile Str.isWs, c.toNat < 128 ∨ c = '£' := fun c hc => h c ((List.dropWhile_suffix _).subset hc)
  unfold Str.trim Str.trimEnd Str.trimStart
  rw [start h, back hsub, List.reverse_reverse]

end Windows1252

namespace NationwideCsv
open Windows1252

/-- What is in front of the pound sign does not matter. -/
theorem gbpValue_cons (L : ImportLib) {c : Char} (hc : c ≠ '£') (s : Str) : gbpValue L (c :: s) = gbpValue L s := by
  have h0 : gbpMatch L.digit (c :: s) = none := by
    unfold gbpMatch
    split
    · rename_i h; injection h with h _; exact absurd h hc
    · rename_i h; injection h with h _; exact absurd h hc
    · rfl
  unfold gbpValue Rx.captures
  rcases find_gbp L.digit (digit_dot L) (digit_minus L) 0 (c :: s) with ⟨hf, hn⟩ | ⟨m, pre, suf, sign, p, q, hf, h1, h2, h3, h4⟩
  · rcases find_gbp L.digit (digit_dot L) (digit_minus L) 0 s with ⟨hf', _⟩ | ⟨m', pre', suf', sign', p', q', hf', h1', h2', _⟩
    · rw [hf, hf']
    · rw [hn (c :: pre') suf' (by rw [h1']; rfl)] at h2'
      cases h2'
  · cases pre with
    | nil =>
      rw [List.nil_append] at h1
      rw [← h1, h0] at h2
      cases h2
    | cons d pre =>
      injection h1 with _ h1
      rcases find_gbp L.digit (digit_dot L) (digit_minus L) 0 s with ⟨_, hn'⟩ | ⟨m', pre', suf', sign', p', q', hf', h1', h2', h3', h4'⟩
      · rw [hn' pre suf h1] at h2; cases h2
      · have hl : pre.length = pre'.length := by
          rcases Nat.lt_trichotomy pre.length pre'.length with hlt | heq | hgt
          · rw [h4' pre suf h1 hlt] at h2; cases h2
          · exact heq
          · rw [h4 (c :: pre') suf' (by rw [h1']; rfl) (by simp only [List.length_cons]; omega)] at h2'; cases h2'
        have hsuf : suf = suf' := (List.append_inj (h1.symm.trans h1') hl).2
        subst hsuf
        rw [h2] at h2'
        cases h2'
        rw [hf, hf']
        simp only [Rx.Found.get, h3, h3']

theorem gbpValue_garble (L : ImportLib) {f : Str} (h : Ascii f ∨ ∃ a, Ascii a ∧ f = '£' :: a) :
    gbpValue L (garble f) = gbpValue L f := by
  rcases h with h | ⟨a, ha, rfl⟩
  · rw [garble_ascii h]
  · rw [garble_pound a ha, gbpValue_cons L (by decide)]

theorem optGbpValue_garble (L : ImportLib) {f : Str} (h : Ascii f ∨ ∃ a, Ascii a ∧ f = '£' :: a) :
    optGbpValue L (garble f) = optGbpValue L f := by
  unfold optGbpValue
  rw [gbpValue_garble L h]
  by_cases he : f = []
  · rw [if_pos he, if_pos (garble_eq_nil.2 he)]
  · rw [if_neg he, if_neg (fun h => he (garble_eq_nil.1 h))]

theorem five_garble (L : ImportLib) {row : Row} (h1 : ∀ f ∈ row, Ascii f ∨ ∃ a, Ascii a ∧ f = '£' :: a)
    (h2 : ∀ f ∈ row.take 3, Ascii f) : RecordFive.ofRow L (row.map garble) = RecordFive.ofRow L row := by
  match row, h1, h2 with
  | [], _, _ => rfl
  | [_], _, _ => rfl
  | [_, _], _, _ => rfl
  | [_, _, _], _, _ => rfl
  | [_, _, _, _], _, _ => rfl
  | a :: b :: c :: d :: e :: rest, h1, h2 =>
    simp only [List.map_cons, RecordFive.ofRow]
    rw [garble_ascii (h2 a (by simp)), garble_ascii (h2 b (by simp)), garble_ascii (h2 c (by simp)), optGbpValue_garble L (h1 d (by simp)),
      optGbpValue_garble L (h1 e (by simp))]

theorem six_garble (L : ImportLib) {row : Row} (h1 : ∀ f ∈ row, Ascii f ∨ ∃ a, Ascii a ∧ f = '£' :: a)
    (h2 : ∀ f ∈ row.take 3, Ascii f) : RecordSix.ofRow L (row.map garble) = RecordSix.ofRow L row := by
  match row, h1, h2 with
  | [], _, _ => rfl
  | [_], _, _ => rfl
  | [_, _], _, _ => rfl
  | [_, _, _], _, _ => rfl
  | [_, _, _, _], _, _ => rfl
  | [_, _, _, _, _], _, _ => rfl
  | a :: b :: c :: d :: e :: f :: rest, h1, h2 =>
    simp only [List.map_cons, RecordSix.ofRow]
    rw [garble_ascii (h2 a (by simp)), garble_ascii (h2 b (by simp)), garble_ascii (h2 c (by simp)), optGbpValue_garble L (h1 d (by simp)),
      optGbpValue_garble L (h1 e (by simp)), gbpValue_garble L (h1 f (by simp))]

theorem rowsLoop_garble {T : Type} (F : Format T) (ns account : Str) (legacy : Bool) {rows : List Row}
    (h : ∀ row ∈ rows, F.ofRow (row.map garble) = F.ofRow row) (prev : Option Date) (n : Int) :
    rowsLoop F ns account legacy prev n (rows.map fun r => some (r.map garble)) = rowsLoop F ns account legacy prev n (rows.map some) := by
  induction rows generalizing prev n with
  | nil => rfl
  | cons row rows ih =>
    simp only [List.map_cons, rowsLoop]
    rw [h row List.mem_cons_self]
    cases F.ofRow row with
    | none => rfl
    | some record =>
      simp only
      rw [ih fun r hr => h r (List.mem_cons_of_mem _ hr)]

theorem garble_want {h : Str} {want : Str} (hw : Ascii want) : garble h = want ↔ h = want := by
  constructor
  · intro he
    rw [← garble_ascii hw] at he
    exact garble_inj he
  · rintro rfl
    exact garble_ascii hw

theorem garble_wants {row wants : Row} (hw : ∀ w ∈ wants, Ascii w) : row.map garble = wants ↔ row = wants := by
  have : wants = wants.map garble := by
    conv_lhs => rw [← List.map_id wants]
    exact List.map_congr_left fun w h => (garble_ascii (hw w h)).symm
  conv_lhs => rw [this]
  exact (List.map_injective_iff.2 fun _ _ => garble_inj).eq_iff

instance (s : Str) : Decidable (Ascii s) := inferInstanceAs (Decidable (∀ c ∈ s, c.toNat < 128))

theorem quantity_garble (L : ImportLib) {want : Str} (hw : Ascii want) {row : Option Row}
    (h : ∀ r, row = some r → ∀ f ∈ r, Ascii f ∨ ∃ a, Ascii a ∧ f = '£' :: a) :
    quantityRecord L want (row.map fun r => some (r.map garble)) = quantityRecord L want (row.map some) := by
  match row, h with
  | none, _ => rfl
  | some [], _ => rfl
  | some [_], _ => rfl
  | some (header :: amount :: _), h =>
    simp only [Option.map_some, List.map_cons, quantityRecord]
    rw [gbpValue_garble L (h _ rfl amount (by simp))]
    cases gbpValue L amount with
    | none => rfl
    | some _ => simp only [garble_want hw]

theorem getTransactions_garble (L : ImportLib) (fpNs : Nationwide.FpNamespace) (legacy : Bool) {rows : List Row} (h : PoundsBeforeSums rows) :
    getTransactions L fpNs legacy (rows.map fun r => some (r.map garble)) = getTransactions L fpNs legacy (rows.map some) := by
  have hget : ∀ i : Nat, (rows.map fun r : Row => some (r.map garble))[i]? = rows[i]?.map fun r => some (r.map garble) := fun i => List.getElem?_map ..
  have hget' : ∀ i : Nat, (rows.map (some : Row → Option Row))[i]? = rows[i]?.map some := fun i => List.getElem?_map ..
  have hf : ∀ (i : Nat) (r : Row), rows[i]? = some r → ∀ f ∈ r, Ascii f ∨ ∃ a, Ascii a ∧ f = '£' :: a :=
    fun i r hr => h.fields r (List.mem_of_getElem? hr)
  have h0 : accountRecord (rows[0]?.map fun r => some (r.map garble)) = accountRecord (rows[0]?.map some) := by
    cases hr : rows[0]? with
    | none => rfl
    | some r =>
      have : r.map garble = r := by
        conv_rhs => rw [← List.map_id r]
        exact List.map_congr_left fun f hf => garble_ascii (h.account r hr f hf)
      simp only [Option.map_some, this]
  have hfile : ∀ ns account, processFile L ns account legacy ((rows.map fun r => some (r.map garble)).drop 3) =
      processFile L ns account legacy ((rows.map some).drop 3) := by
    intro ns account
    rw [← List.map_drop, ← List.map_drop]
    cases hd : rows.drop 3 with
    | nil => rfl
    | cons header rest =>
      have hrest : ∀ row ∈ rest, (∀ f ∈ row, Ascii f ∨ ∃ a, Ascii a ∧ f = '£' :: a) ∧ ∀ f ∈ row.take 3, Ascii f := by
        intro row hrow
        obtain ⟨i, hi⟩ := List.mem_iff_getElem?.1 hrow
        have hi' : rows[i + 4]? = some row := by
          have : (rows.drop 3)[i + 1]? = some row := by rw [hd]; exact hi
          rw [List.getElem?_drop] at this
          rw [← this]
          congr 1
          omega
        exact ⟨hf _ _ hi', h.texts (i + 4) row hi' (by omega)⟩
      simp only [List.map_cons, processFile, processRows]
      rw [rowsLoop_garble (five L) ns account legacy fun row hr => five_garble L (hrest row hr).1 (hrest row hr).2,
        rowsLoop_garble (six L) ns account legacy fun row hr => six_garble L (hrest row hr).1 (hrest row hr).2]
      simp only [garble_wants (show ∀ w ∈ headersFive, Ascii w by decide +kernel), garble_wants (show ∀ w ∈ headersSix, Ascii w by decide +kernel)]
  unfold getTransactions
  rw [hget, hget, hget, hget', hget', hget', h0, quantity_garble L (by decide +kernel) (hf 1), quantity_garble L (by decide +kernel) (hf 2)]
  simp only [hfile]

end NationwideCsv

namespace Windows1252

theorem mem_doubled {c : Char} {s : Str} (h : c ∈ s) : c ∈ doubled s := by
  induction s with
  | nil => cases h
  | cons d s ih =>
    rw [doubled]
    rcases List.mem_cons.1 h with rfl | h
    · split
      · rename_i e; rw [e]; exact List.mem_cons_self
      · exact List.mem_cons_self
    · split <;> simp [ih h]

theorem mem_row {d : Char} {r : List Str} {s : Str} (h : RowText d r s) {f : Str} (hf : f ∈ r) {c : Char} (hc : c ∈ f) : c ∈ s := by
  have field : ∀ {f s : Str}, FieldText d f s → c ∈ f → c ∈ s := by
    intro f s h hc
    cases h with
    | plain => exact hc
    | quoted => exact List.mem_cons_of_mem _ (List.mem_append_left _ (mem_doubled hc))
  induction h with
  | one h =>
    rw [List.mem_singleton] at hf
    subst hf
    exact field h hc
  | more h _ ih =>
    rcases List.mem_cons.1 hf with rfl | hf
    · exact List.mem_append_left _ (field h hc)
    · exact List.mem_append_right _ (List.mem_cons_of_mem _ (ih hf))

/-- The characters of fields are in the text. -/
theorem mem_table {d : Char} {rows : List (List Str)} {t : Str} (h : TableText d rows t) {r : List Str} (hr : r ∈ rows) {f : Str}
    (hf : f ∈ r) {c : Char} (hc : c ∈ f) : c ∈ t := by
  induction h with
  | nil => cases hr
  | blank _ _ ih => exact List.mem_cons_of_mem _ (ih hr)
  | row h _ _ _ ih =>
    rcases List.mem_cons.1 hr with rfl | hr
    · exact List.mem_append_left _ (mem_row h hf hc)
    · exact List.mem_append_right _ (List.mem_cons_of_mem _ (ih hr))
  | last h =>
    rw [List.mem_singleton] at hr
    subst hr
    exact mem_row h hf hc

/-- **C78.** A file that is UTF-8 in fact is imported as if it were Windows-1252, if its only character outside ASCII is the pound sign in
front of sums of money. -/
theorem C78_pounds (L : ImportLib) (fpNs : Nationwide.FpNamespace) (legacy : Bool) {rows : List (List Str)} {t : Str} {b : Bytes}
    (h : TableText ',' rows t) (hc : ∀ c ∈ t, c.toNat < 128 ∨ c = '£') (hp : PoundsBeforeSums (rows.map (·.map Str.trim))) (hb : decode b = t) :
    (ImportCmd.Texts.nationwideCsv fpNs legacy (decode (encodeUtf8 t))).doImport L =
      (ImportCmd.Texts.nationwideCsv fpNs legacy (decode b)).doImport L := by
  have hbom : t.head? ≠ some '\uFEFF' := by
    intro he
    have := hc _ (List.mem_of_mem_head? he)
    revert this; decide
  have hmem : ∀ r ∈ rows, ∀ f ∈ r, ∀ c ∈ f, c.toNat < 128 ∨ c = '£' := fun r hr f hf c h' => hc c (mem_table h hr hf h')
  rw [hb, show decode (encodeUtf8 t) = garble t from rfl, C74_nationwide L fpNs legacy (C78_utf8_table h) (garble_no_bom t), C74_nationwide L fpNs legacy h hbom]
  have := NationwideCsv.getTransactions_garble L fpNs legacy hp
  rw [List.map_map, List.map_map] at this
  rw [List.map_map]
  rw [show ((some : NationwideCsv.Row → Option NationwideCsv.Row) ∘ fun x => List.map Str.trim x) = fun row => some (row.map Str.trim) from rfl] at this
  rw [← this]
  congr 1
  refine List.map_congr_left fun r hr => ?_
  simp only [Function.comp_apply, List.map_map]
  congr 1
  refine List.map_congr_left fun f hf => ?_
  exact trim_garble (hmem r hr f hf)


set_option maxRecDepth 100000 in
/-- A file with one transaction, in Windows-1252 and in UTF-8: it is imported, with the sum of money, in both encodings. -/
example : ∃ imp, (ImportCmd.Texts.nationwideCsv (.fixed "acc".toList) false
        (decode (encodeUtf8 (Csv.plainTable ',' (exTable "Withdrawal"))))).doImport Ex.plainLib = .ok imp ∧
    (ImportCmd.Texts.nationwideCsv (.fixed "acc".toList) false (decode
      ((Csv.plainTable ',' (exTable "Withdrawal")).map fun c => if c = '£' then 0xA3 else UInt8.ofNat c.toNat))).doImport Ex.plainLib = .ok imp ∧
    imp.transactions.map (·.description) = ["Withdrawal".toList] := by
  have ht : TableText ',' (exTable "Withdrawal") (Csv.plainTable ',' (exTable "Withdrawal")) := by
    refine Csv.plainTable_text ?_
    have : ∀ r ∈ exTable "Withdrawal", r ≠ [] ∧ Str.join [','] r ≠ [] ∧ ∀ f ∈ r, ',' ∉ f ∧ '\n' ∉ f ∧ '\r' ∉ f ∧ f.head? ≠ some '"' := by
      decide +kernel
    intro r hr
    obtain ⟨k1, k2, k3⟩ := this r hr
    refine ⟨k1, k2, fun f hf => ?_⟩
    obtain ⟨e1, e2, e3, e4⟩ := k3 f hf
    exact ⟨e1, fun c hc => by rintro (rfl | rfl) <;> contradiction, e4⟩
  have hp : PoundsBeforeSums ((exTable "Withdrawal").map (·.map Str.trim)) := by
    have h1 : ∀ row ∈ (exTable "Withdrawal").map (·.map Str.trim), ∀ f ∈ row, Ascii f ∨ (Ascii f.tail ∧ f.head? = some '£') := by
      decide +kernel
    have h2 : ∀ row ∈ ((exTable "Withdrawal").map (·.map Str.trim))[0]?, ∀ f ∈ row, Ascii f := by decide +kernel
    have h3 : ∀ row ∈ ((exTable "Withdrawal").map (·.map Str.trim)).drop 4, ∀ f ∈ row.take 3, Ascii f := by decide +kernel
    refine ⟨?_, fun row hr => h2 row hr, ?_⟩
    · intro row hr f hf
      rcases h1 row hr f hf with h | ⟨h, h'⟩
      · exact .inl h
      · cases f with
        | nil => cases h'
        | cons c a => cases h'; exact .inr ⟨a, h, rfl⟩
    · intro i row hr hi
      refine h3 row (List.mem_iff_getElem?.2 ⟨i - 4, ?_⟩)
      rw [List.getElem?_drop, ← hr]
      congr 1
      omega
  rw [C78_pounds Ex.plainLib _ _ ht (by decide +kernel) hp (b := (Csv.plainTable ',' (exTable "Withdrawal")).map
      fun c => if c = '£' then 0xA3 else UInt8.ofNat c.toNat) (by decide +kernel)]
  obtain ⟨imp, h1, h2⟩ : ∃ imp, (ImportCmd.Texts.nationwideCsv (.fixed "acc".toList) false (decode
      ((Csv.plainTable ',' (exTable "Withdrawal")).map fun c => if c = '£' then 0xA3 else UInt8.ofNat c.toNat))).doImport Ex.plainLib =
      .ok imp ∧ imp.transactions.map (·.description) = ["Withdrawal".toList] := NationwidePdf.of_run (by decide +kernel)
  exact ⟨imp, h1, h1, h2⟩

set_option maxRecDepth 100000 in
/-- Other characters are garbled, and a word can become a sum of money: `ã1.23` is no sum in Windows-1252, but is read as one from
UTF-8. -/
example : NationwideCsv.gbpValue Ex.plainLib "ã1.23".toList = none ∧
    NationwideCsv.gbpValue Ex.plainLib (decode (encodeUtf8 "ã1.23".toList)) = NationwideCsv.gbpValue Ex.plainLib "£1.23".toList ∧
    NationwideCsv.gbpValue Ex.plainLib "£1.23".toList ≠ none := by decide +kernel

/-! ### Byte order marks -/

/-- The first field of the first record that is being read or has been read. -/
def lead (r : Csv.Reader) : Str := ((r.rows ++ [r.fields ++ [r.field]]).headD []).headD []

theorem lead_char (d : Char) {pre : Str} {r : Csv.Reader} (c : Char) (h : pre <+: lead r) (hs : r.state = .startRecord → r.rows ≠ []) :
    pre <+: lead (Csv.Reader.char d r c) ∧ ((Csv.Reader.char d r c).state = .startRecord → (Csv.Reader.char d r c).rows ≠ []) := by
  obtain ⟨state, field, fields, rows⟩ := r
  have hend : pre <+: lead (Csv.Reader.endField ⟨state, field, fields, rows⟩) := by
    cases rows with
    | nil => cases fields <;> exact h
    | cons => exact h
  have hrec : pre <+: lead (Csv.Reader.endRecord ⟨state, field, fields, rows⟩) := by
    cases rows <;> exact h
  have hadd : ∀ st : Csv.State, pre <+: lead ⟨st, field ++ [c], fields, rows⟩ := by
    intro st
    cases rows with
    | nil =>
      cases fields with
      | nil => exact h.trans (List.prefix_append _ _)
      | cons => exact h
    | cons => exact h
  have hbare : ∀ st : Csv.State, pre <+: lead (Csv.Reader.bare d ⟨st, field, fields, rows⟩ c) ∧
      ((Csv.Reader.bare d ⟨st, field, fields, rows⟩ c).state = .startRecord → (Csv.Reader.bare d ⟨st, field, fields, rows⟩ c).rows ≠ []) := by
    intro st
    unfold Csv.Reader.bare
    split
    · exact ⟨hend, fun h => by simp [Csv.Reader.endField] at h⟩
    · split
      · exact ⟨hrec, fun _ => by simp [Csv.Reader.endRecord]⟩
      · exact ⟨hadd _, fun h => by simp at h⟩
  have hfirst : ∀ st : Csv.State, pre <+: lead (Csv.Reader.first d ⟨st, field, fields, rows⟩ c) ∧
      ((Csv.Reader.first d ⟨st, field, fields, rows⟩ c).state = .startRecord → (Csv.Reader.first d ⟨st, field, fields, rows⟩ c).rows ≠ []) := by
    intro st
    unfold Csv.Reader.first
    split
    · exact ⟨h, fun h => by simp at h⟩
    · exact hbare st
  unfold Csv.Reader.char
  cases state with
  | startRecord =>
    simp only
    split
    · exact ⟨h, hs⟩
    · exact hfirst _
  | startField => exact hfirst _
  | inField => exact hbare _
  | inQuoted =>
    simp only
    split
    · exact ⟨h, fun h => by simp at h⟩
    · exact ⟨hadd _, fun h => by simp at h⟩
  | afterQuote =>
    simp only
    split
    · exact ⟨hadd _, fun h => by simp at h⟩
    · exact hbare _

theorem lead_records (d : Char) {pre : Str} (hp : pre ≠ []) (s : Str) {r : Csv.Reader} (h : pre <+: lead r)
    (hs : r.state = .startRecord → r.rows ≠ []) :
    ∃ f row rest, (s.foldl (Csv.Reader.char d) r).finish = ((pre ++ f) :: row) :: rest := by
  induction s generalizing r with
  | nil =>
    have key : ∀ rows : List Csv.Row, pre <+: (rows.headD []).headD [] → ∃ f row rest, rows = ((pre ++ f) :: row) :: rest := by
      intro rows hr
      match rows, hr with
      | [], hr => exact absurd (List.prefix_nil.1 hr) hp
      | [] :: _, hr => exact absurd (List.prefix_nil.1 hr) hp
      | (g :: row) :: rest, ⟨f, hf⟩ => exact ⟨f, row, rest, by rw [hf]; rfl⟩
    simp only [List.foldl_nil]
    apply key
    unfold Csv.Reader.finish
    split
    · rename_i e
      unfold lead at h
      cases hr : r.rows with
      | nil => exact absurd hr (hs e)
      | cons => rw [hr] at h; exact h
    · exact h
  | cons c s ih =>
    obtain ⟨h1, h2⟩ := lead_char d c h hs
    exact ih h1 h2

/-- **C78.** A Nationwide CSV file that is UTF-8 with a byte order mark is never imported, whatever else is in it. -/
theorem C78_bom (L : ImportLib) (fpNs : Nationwide.FpNamespace) (legacy : Bool) (t : Str) :
    (ImportCmd.Texts.nationwideCsv fpNs legacy (decode (encodeUtf8 ('\uFEFF' :: t)))).doImport L = .error .format := by
  have hg : garble ('\uFEFF' :: t) = 'ï' :: '»' :: '¿' :: garble t := by rw [garble_cons]; rfl
  obtain ⟨f, row, rest, hr⟩ := lead_records ',' (pre := ['ï']) (by simp) ('»' :: '¿' :: garble t)
    (r := ⟨.inField, ['ï'], [], []⟩) (List.prefix_rfl) (fun h => by cases h)
  have hrec : Csv.records ',' (garble ('\uFEFF' :: t)) = ((['ï'] ++ f) :: row) :: rest := by
    rw [← hr, Csv.records, if_neg (garble_no_bom _), hg]
    rfl
  have htrim : ∃ g, Str.trim (['ï'] ++ f) = 'ï' :: g := by
    unfold Str.trim Str.trimStart Str.trimEnd
    rw [List.singleton_append, List.dropWhile_cons, if_neg (by decide), List.reverse_cons]
    induction f.reverse with
    | nil => exact ⟨[], by rw [List.nil_append, List.dropWhile_cons, if_neg (by decide)]; rfl⟩
    | cons c l ih =>
      rw [List.cons_append, List.dropWhile_cons]
      split
      · exact ih
      · exact ⟨l.reverse ++ [c], by simp⟩
  obtain ⟨g, hg'⟩ := htrim
  have hne : 'ï' :: g ≠ "Account Name:".toList := fun h => by
    have := congrArg List.head? h
    revert this
    simp
  simp only [ImportCmd.Texts.doImport, ImportCmd.Texts.importer, ImportCmd.Importer.doImport, Csv.trimmedRecords]
  rw [show decode (encodeUtf8 ('\uFEFF' :: t)) = garble ('\uFEFF' :: t) from rfl, hrec, List.map_cons, List.map_cons, List.map_cons, hg']
  unfold NationwideCsv.getTransactions
  cases row with
  | nil => rfl
  | cons a row =>
    simp only [List.map_cons, List.getElem?_cons_zero, NationwideCsv.accountRecord]
    rw [if_neg hne]
    rfl

set_option maxRecDepth 100000 in
/-- With a byte order mark, the file above is not imported any more; a PayPal file with a byte order mark is read like one without. -/
example : (ImportCmd.Texts.nationwideCsv (.fixed "acc".toList) false (decode (encodeUtf8 ('\uFEFF' :: Csv.plainTable ',' (exTable "Withdrawal"))))).doImport
      Ex.plainLib = .error .format ∧
    Csv.trimmedRecords ',' ('\uFEFF' :: Ex.paypalText) = Csv.trimmedRecords ',' Ex.paypalText :=
  ⟨C78_bom _ _ _ _, by decide +kernel⟩

end Windows1252
end Verif
