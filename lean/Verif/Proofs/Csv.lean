import Verif.Base.Csv
import Verif.Spec.Csv

/-!
# The reader of tables
-/

namespace Verif
namespace Csv
open Spec.Csv

/-- A delimiter that is neither a double quote nor a line end. -/
structure Delim (d : Char) : Prop where
  quote : d ≠ '"'
  ends : ¬ LineEnd d

theorem isEnd_iff {c : Char} : isEnd c = true ↔ LineEnd c := by simp [isEnd, LineEnd]
theorem isEnd_false {c : Char} : isEnd c = false ↔ ¬ LineEnd c := by rw [← isEnd_iff]; simp

theorem quote_ends : ¬ LineEnd '"' := by simp [LineEnd]

/-- The reader is where a field can begin. -/
structure Begins (r : Reader) : Prop where
  state : r.state = .startRecord ∨ r.state = .startField
  field : r.field = []

/-- The reader is behind a field. -/
def Behind (r : Reader) : Prop := r.state = .startField ∨ r.state = .inField ∨ r.state = .afterQuote

variable {d : Char}

/-- Characters of a field without quotes. -/
theorem bare_fold (f : Str) (hd : d ∉ f) (he : ∀ c ∈ f, ¬ LineEnd c) (r : Reader) (hs : r.state = .inField) :
    f.foldl (Reader.char d) r = { r with field := r.field ++ f } := by
  induction f generalizing r with
  | nil => simp
  | cons c f ih =>
    have h1 : c ≠ d := fun h => hd (h ▸ List.mem_cons_self)
    have h2 : isEnd c = false := isEnd_false.2 (he c List.mem_cons_self)
    have h3 : Reader.char d r c = { r with field := r.field ++ [c] } := by
      simp only [Reader.char, hs, Reader.bare, if_neg h1, h2, Bool.false_eq_true, if_false]
    rw [List.foldl_cons, h3, ih (fun h => hd (List.mem_cons_of_mem _ h)) (fun x hx => he x (List.mem_cons_of_mem _ hx)) { r with field := r.field ++ [c] } hs]
    simp

/-- Characters of a quoted field. -/
theorem quoted_fold (f : Str) (r : Reader) (hs : r.state = .inQuoted) :
    (doubled f).foldl (Reader.char d) r = { r with field := r.field ++ f } := by
  induction f generalizing r with
  | nil => simp [doubled]
  | cons c f ih =>
    rw [doubled]
    split
    · rename_i hc
      subst hc
      have h1 : Reader.char d r '"' = { r with state := .afterQuote } := by simp [Reader.char, hs]
      have h2 : Reader.char d { r with state := .afterQuote } '"' = { r with field := r.field ++ ['"'] } := by
        simp [Reader.char, hs]
      rw [List.foldl_cons, List.foldl_cons, h1, h2, ih { r with field := r.field ++ ['"'] } hs]
      simp
    · rename_i hc
      have h1 : Reader.char d r c = { r with field := r.field ++ [c] } := by simp [Reader.char, hs, hc]
      rw [List.foldl_cons, h1, ih { r with field := r.field ++ [c] } hs]
      simp

/-- The first character of a field. -/
theorem char_first {r : Reader} (hr : Begins r) {c : Char} (hc : ¬ LineEnd c) : Reader.char d r c = r.first d c := by
  rcases hr.state with h | h
  · simp only [Reader.char, h, isEnd_false.2 hc, Bool.false_eq_true, if_false]
  · simp only [Reader.char, h]

theorem plain_fold {f : Str} (hf : Plain d f) (hne : f ≠ []) {r : Reader} (hr : Begins r) :
    f.foldl (Reader.char d) r = { r with state := .inField, field := f } := by
  cases f with
  | nil => exact absurd rfl hne
  | cons c f =>
    have h0 : c ≠ '"' := fun h => hf.quote (by rw [h]; rfl)
    have h1 : c ≠ d := fun h => hf.delim (h ▸ List.mem_cons_self)
    have h2 := hf.ends c List.mem_cons_self
    have h3 : Reader.char d r c = { r with state := .inField, field := r.field ++ [c] } := by
      rw [char_first hr h2]
      simp only [Reader.first, if_neg h0, Reader.bare, if_neg h1, isEnd_false.2 h2, Bool.false_eq_true, if_false]
    rw [List.foldl_cons, h3, bare_fold f (fun h => hf.delim (List.mem_cons_of_mem _ h))
      (fun x hx => hf.ends x (List.mem_cons_of_mem _ hx)) _ rfl, hr.field]
    simp

/-- Reading a field. -/
theorem field_fold {f s : Str} (h : FieldText d f s) {r : Reader} (hr : Begins r) :
    let r' := s.foldl (Reader.char d) r
    r'.field = f ∧ r'.fields = r.fields ∧ r'.rows = r.rows ∧ (Behind r' ∨ s = [] ∧ r' = r) := by
  cases h with
  | plain hf =>
    by_cases hne : f = []
    · subst hne
      exact ⟨hr.field, rfl, rfl, .inr ⟨rfl, rfl⟩⟩
    · simp only [plain_fold hf hne hr]
      exact ⟨trivial, trivial, trivial, .inl (.inr (.inl rfl))⟩
  | quoted =>
    have h1 : Reader.char d r '"' = { r with state := .inQuoted } := by
      rw [char_first hr quote_ends]; simp [Reader.first]
    simp only [List.cons_append, List.foldl_cons, h1, List.foldl_append, quoted_fold f { r with state := .inQuoted } rfl, List.foldl_nil]
    simp only [Reader.char, if_true, hr.field, List.nil_append]
    exact ⟨trivial, trivial, trivial, .inl (.inr (.inr rfl))⟩

/-- A delimiter behind a field. -/
theorem delim_field (hd : Delim d) {r : Reader} (h : Behind r ∨ Begins r) : Reader.char d r d = r.endField := by
  have hb : r.bare d d = r.endField := by simp [Reader.bare]
  have he : isEnd d = false := isEnd_false.2 hd.ends
  rcases h with (h | h | h) | h
  · simp [Reader.char, h, Reader.first, hd.quote, hb]
  · simp [Reader.char, h, hb]
  · simp [Reader.char, h, hd.quote, hb]
  · rcases h.state with h | h <;> simp [Reader.char, h, Reader.first, hd.quote, hb, he]

/-- A line end behind a field. -/
theorem end_field (hd : Delim d) {r : Reader} (h : Behind r) {c : Char} (hc : LineEnd c) : Reader.char d r c = r.endRecord := by
  have h1 : c ≠ d := fun h => hd.ends (h ▸ hc)
  have h2 : c ≠ '"' := fun h => quote_ends (h ▸ hc)
  have hb : r.bare d c = r.endRecord := by simp [Reader.bare, h1, isEnd_iff.2 hc]
  rcases h with h | h | h <;> simp [Reader.char, h, Reader.first, h2, hb]

/-- Reading a row. -/
theorem row_fold (hd : Delim d) {fs : List Str} {s : Str} (h : RowText d fs s) {r : Reader} (hr : Begins r) :
    let r' := s.foldl (Reader.char d) r
    r'.fields ++ [r'.field] = r.fields ++ fs ∧ r'.rows = r.rows ∧ (Behind r' ∨ s = []) := by
  induction h generalizing r with
  | one hf =>
    obtain ⟨h1, h2, h3, h4⟩ := field_fold hf hr
    exact ⟨by rw [h1, h2], h3, h4.imp_right And.left⟩
  | @more f s fs t hf _ ih =>
    obtain ⟨h1, h2, h3, h4⟩ := field_fold hf hr
    have hb : Behind (s.foldl (Reader.char d) r) ∨ Begins (s.foldl (Reader.char d) r) :=
      h4.imp_right fun h => by rw [h.2]; exact hr
    have hr' : Begins (s.foldl (Reader.char d) r).endField := ⟨.inr rfl, rfl⟩
    obtain ⟨i1, i2, i3⟩ := ih hr'
    simp only [List.foldl_append, List.foldl_cons, delim_field hd hb]
    refine ⟨?_, by rw [i2]; exact h3, .inl ?_⟩
    · rw [i1, Reader.endField, h1, h2]; simp
    · rcases i3 with i3 | i3
      · exact i3
      · rw [i3]; exact .inl rfl

/-- Reading a table. -/
theorem table_fold (hd : Delim d) {rows : List (List Str)} {t : Str} (h : TableText d rows t) (before : List Row) :
    (t.foldl (Reader.char d) ⟨.startRecord, [], [], before⟩).finish = before ++ rows := by
  induction h generalizing before with
  | nil => simp [Reader.finish]
  | @blank c rows t hc _ ih =>
    have : Reader.char d ⟨.startRecord, [], [], before⟩ c = ⟨.startRecord, [], [], before⟩ := by
      simp [Reader.char, isEnd_iff.2 hc]
    rw [List.foldl_cons, this, ih]
  | @row r s c rows t hr hne hc _ ih =>
    have hb : Begins ⟨.startRecord, [], [], before⟩ := ⟨.inl rfl, rfl⟩
    obtain ⟨h1, h2, h3⟩ := row_fold hd hr hb
    have h3 := h3.resolve_right hne
    rw [List.foldl_append, List.foldl_cons, end_field hd h3 hc, Reader.endRecord, h1, h2, ih]
    simp
  | @last r s hr hne =>
    have hb : Begins ⟨.startRecord, [], [], before⟩ := ⟨.inl rfl, rfl⟩
    obtain ⟨h1, h2, h3⟩ := row_fold hd hr hb
    have h3 := h3.resolve_right hne
    have : ∀ r : Reader, Behind r → r.finish = r.endRecord.rows := by
      intro r hr
      rcases hr with h | h | h <;> simp [Reader.finish, h]
    rw [this _ h3, Reader.endRecord]
    simp only at h1 h2 ⊢
    rw [h1, h2]
    simp

/-- A row without quotes. -/
theorem join_row {d : Char} {fs : List Str} (hne : fs ≠ []) (h : ∀ f ∈ fs, Plain d f) : RowText d fs (Str.join [d] fs) := by
  induction fs with
  | nil => exact absurd rfl hne
  | cons f fs ih =>
    cases fs with
    | nil => exact .one (.plain (h f List.mem_cons_self))
    | cons g gs =>
      rw [Str.join, List.append_assoc]
      exact .more (.plain (h f List.mem_cons_self)) (ih (by simp) fun x hx => h x (List.mem_cons_of_mem _ hx))

end Csv
end Verif
