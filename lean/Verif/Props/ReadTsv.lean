import Verif.Proofs.Tsv
import Verif.Props.ReadText
import Verif.Examples.Texts
import Verif.Props.NationwidePdf

/-!
# Reading what Tesseract writes (C75)
-/

namespace Verif
namespace Csv
open Spec Spec.Csv

/-- The numbers of a record, as they are written. -/
def nums (r : Tesseract.Record) (conf : Int) : List Str :=
  [numeral r.level, numeral r.pageNum, numeral r.blockNum, numeral r.parNum, numeral r.lineNum, numeral r.wordNum, numeral r.left,
    numeral r.top, numeral r.width, numeral r.height, numeral conf]

theorem fields_eq (r : Tesseract.Record) (conf : Int) : tsvFields r conf = nums r conf ++ [r.text] := rfl

theorem nums_trim (r : Tesseract.Record) (conf : Int) : (nums r conf).map Str.trim = nums r conf := by
  simp only [nums, List.map_cons, List.map_nil, trim_trimmed (numeral_trimmed _)]

theorem join_last (sep : Str) (fs : List Str) (hne : fs ≠ []) (x : Str) : Str.join sep (fs ++ [x]) = Str.join sep fs ++ sep ++ x := by
  induction fs with
  | nil => exact absurd rfl hne
  | cons f fs ih =>
    cases fs with
    | nil => rfl
    | cons g gs =>
      have := ih (by simp)
      rw [List.cons_append] at this
      rw [List.cons_append, List.cons_append, Str.join, this, Str.join]
      simp

theorem line_eq (r : Tesseract.Record) (conf : Int) :
    tsvLine (tsvFields r conf) = Str.join ['\t'] (nums r conf) ++ '\t' :: (r.text ++ ['\n']) := by
  rw [tsvLine, fields_eq, join_last _ _ (by simp [nums])]
  simp

/-- The reader before the text of a record. -/
theorem nums_fold (r : Tesseract.Record) (conf : Int) (before : List Row) :
    (Str.join ['\t'] (nums r conf) ++ ['\t']).foldl (Reader.char '\t') ⟨.startRecord, [], [], before⟩ =
      ⟨.startField, [], nums r conf, before⟩ := by
  have hp : ∀ f ∈ nums r conf, Plain '\t' f := by
    intro f hf
    simp only [nums, List.mem_cons, List.not_mem_nil, or_false] at hf
    rcases hf with h | h | h | h | h | h | h | h | h | h | h <;> subst h <;> exact numeral_plain _
  obtain ⟨h1, h2, h3⟩ := row_fold tab_delim (join_row (by simp [nums]) hp) (r := ⟨.startRecord, [], [], before⟩) ⟨.inl rfl, rfl⟩
  have h3 := h3.resolve_right join_ne
  rw [List.foldl_append, List.foldl_cons, List.foldl_nil, delim_field tab_delim (.inl h3), Reader.endField, h1, h2]
  simp

/-- The reader behind a double quote at the start of the text of a record. -/
theorem open_fold (r : Tesseract.Record) (conf : Int) (before : List Row) :
    (Str.join ['\t'] (nums r conf) ++ ['\t', '"']).foldl (Reader.char '\t') ⟨.startRecord, [], [], before⟩ =
      ⟨.inQuoted, [], nums r conf, before⟩ := by
  rw [show ['\t', '"'] = ['\t'] ++ ['"'] from rfl, ← List.append_assoc, List.foldl_append, nums_fold]
  simp [Reader.char, Reader.first]

/-- Up to a double quote everything belongs to a quoted field. -/
theorem swallow (d : Char) (s : Str) (h : '"' ∉ s) (r : Reader) (hs : r.state = .inQuoted) :
    s.foldl (Reader.char d) r = { r with field := r.field ++ s } := by
  induction s generalizing r with
  | nil => simp
  | cons c s ih =>
    have hc : c ≠ '"' := fun e => h (e ▸ List.mem_cons_self)
    have h1 : Reader.char d r c = { r with field := r.field ++ [c] } := by simp [Reader.char, hs, hc]
    rw [List.foldl_cons, h1, ih (fun h' => h (List.mem_cons_of_mem _ h')) { r with field := r.field ++ [c] } hs]
    simp

theorem mem_join {c : Char} {sep : Str} {fs : List Str} (h : c ∈ Str.join sep fs) : c ∈ sep ∨ ∃ f ∈ fs, c ∈ f := by
  induction fs with
  | nil => simp [Str.join] at h
  | cons f fs ih =>
    cases fs with
    | nil => exact .inr ⟨f, List.mem_cons_self, h⟩
    | cons g gs =>
      rw [Str.join, List.mem_append, List.mem_append] at h
      rcases h with (h | h) | h
      · exact .inr ⟨f, List.mem_cons_self, h⟩
      · exact .inl h
      · rcases ih h with h | ⟨x, hx, h⟩
        · exact .inl h
        · exact .inr ⟨x, List.mem_cons_of_mem _ hx, h⟩

theorem nums_quote (r : Tesseract.Record) (conf : Int) : '"' ∉ Str.join ['\t'] (nums r conf) := by
  intro h
  rcases mem_join h with h | ⟨f, hf, h⟩
  · exact absurd h (by decide)
  · simp only [nums, List.mem_cons, List.not_mem_nil, or_false] at hf
    rcases hf with e | e | e | e | e | e | e | e | e | e | e <;> subst e <;> exact numeral_quote _ h

theorem line_quote (r : Tesseract.Record) (conf : Int) (h : '"' ∉ r.text) : '"' ∉ tsvLine (tsvFields r conf) := by
  rw [line_eq]
  intro hm
  rw [List.mem_append, List.mem_cons, List.mem_append] at hm
  rcases hm with hm | hm | hm | hm
  · exact nums_quote r conf hm
  · exact absurd hm (by decide)
  · exact h hm
  · exact absurd hm (by decide)

/-- A reader in a field that began with a double quote. -/
def Opened (r : Reader) : Prop := r.state = .inQuoted ∨ r.state = .afterQuote ∨ r.state = .inField

/-- Reading on in the same line adds at most what is read. -/
theorem opened_fold (w : Str) (ht : '\t' ∉ w) (he : ∀ c ∈ w, ¬ LineEnd c) (r : Reader) (hr : Opened r) :
    let r' := w.foldl (Reader.char '\t') r
    Opened r' ∧ r'.fields = r.fields ∧ r'.rows = r.rows ∧ r'.field.length ≤ r.field.length + w.length := by
  induction w generalizing r with
  | nil => exact ⟨hr, rfl, rfl, Nat.le_refl _⟩
  | cons c w ih =>
    have h1 : c ≠ '\t' := fun h => ht (h ▸ List.mem_cons_self)
    have h2 : isEnd c = false := isEnd_false.2 (he c List.mem_cons_self)
    have hb : r.bare '\t' c = { r with state := .inField, field := r.field ++ [c] } := by simp [Reader.bare, h1, h2]
    have key : Opened (Reader.char '\t' r c) ∧ (Reader.char '\t' r c).fields = r.fields ∧ (Reader.char '\t' r c).rows = r.rows ∧
        (Reader.char '\t' r c).field.length ≤ r.field.length + 1 := by
      rcases hr with h | h | h
      · simp only [Reader.char, h]
        split
        · exact ⟨.inr (.inl rfl), rfl, rfl, Nat.le_succ _⟩
        · exact ⟨.inl rfl, rfl, rfl, by simp⟩
      · simp only [Reader.char, h, hb]
        split
        · exact ⟨.inl rfl, rfl, rfl, by simp⟩
        · exact ⟨.inr (.inr rfl), rfl, rfl, by simp⟩
      · have : Reader.char '\t' r c = { r with state := .inField, field := r.field ++ [c] } := by simp only [Reader.char, h, hb]
        rw [this]
        exact ⟨.inr (.inr rfl), rfl, rfl, by simp⟩
    obtain ⟨k1, k2, k3, k4⟩ := key
    obtain ⟨i1, i2, i3, i4⟩ := ih (fun h => ht (List.mem_cons_of_mem _ h)) (fun x hx => he x (List.mem_cons_of_mem _ hx)) _ k1
    exact ⟨i1, i2.trans k2, i3.trans k3, by simp only [List.foldl_cons, List.length_cons]; omega⟩

/-- Records that were read stay. -/
theorem rows_char (d : Char) (r : Reader) (c : Char) : r.rows <+: (Reader.char d r c).rows := by
  have hb : r.rows <+: (r.bare d c).rows := by
    rw [Reader.bare]
    split
    · exact List.prefix_rfl
    · split
      · exact List.prefix_append _ _
      · exact List.prefix_rfl
  have hf : r.rows <+: (r.first d c).rows := by
    rw [Reader.first]
    split
    · exact List.prefix_rfl
    · exact hb
  rw [Reader.char]
  split <;> (try split) <;> first | exact hb | exact hf | exact List.prefix_rfl

theorem rows_fold (d : Char) (s : Str) (r : Reader) : r.rows <+: (s.foldl (Reader.char d) r).finish := by
  induction s generalizing r with
  | nil =>
    rw [List.foldl_nil, Reader.finish]
    split
    · exact List.prefix_rfl
    · exact List.prefix_append _ _
  | cons c s ih => exact (rows_char d r c).trans (ih _)

/-- The record that is being read has `p` at the start of the field behind the fields `fs`, or that record was read. -/
def Keeps (before : List Row) (fs : Row) (p : Str) (r : Reader) : Prop :=
  (r.rows = before ∧ r.fields = fs ∧ p <+: r.field ∧ Opened r) ∨
  (r.rows = before ∧ ∃ f more, r.fields = fs ++ f :: more ∧ p <+: f ∧ r.state ≠ .startRecord) ∨
  (∃ f more rows, r.rows = before ++ (fs ++ f :: more) :: rows ∧ p <+: f)

theorem keeps_bare {d : Char} {before : List Row} {fs : Row} {p : Str} {r : Reader} (h : Keeps before fs p r) (c : Char) :
    Keeps before fs p (r.bare d c) := by
  rw [Reader.bare]
  split
  · rcases h with ⟨h1, h2, h3, _⟩ | ⟨h1, f, more, h2, h3, h4⟩ | ⟨f, more, rows, h1, h2⟩
    · exact .inr (.inl ⟨h1, r.field, [], by rw [Reader.endField, h2], h3, by simp [Reader.endField]⟩)
    · exact .inr (.inl ⟨h1, f, more ++ [r.field], by simp [Reader.endField, h2], h3, by simp [Reader.endField]⟩)
    · exact .inr (.inr ⟨f, more, rows, h1, h2⟩)
  · split
    · rcases h with ⟨h1, h2, h3, _⟩ | ⟨h1, f, more, h2, h3, h4⟩ | ⟨f, more, rows, h1, h2⟩
      · exact .inr (.inr ⟨r.field, [], [], by rw [Reader.endRecord, h1, h2], h3⟩)
      · exact .inr (.inr ⟨f, more ++ [r.field], [], by simp [Reader.endRecord, h1, h2], h3⟩)
      · exact .inr (.inr ⟨f, more, rows ++ [r.fields ++ [r.field]], by simp [Reader.endRecord, h1], h2⟩)
    · rcases h with ⟨h1, h2, h3, _⟩ | ⟨h1, f, more, h2, h3, h4⟩ | ⟨f, more, rows, h1, h2⟩
      · exact .inl ⟨h1, h2, h3.trans (List.prefix_append _ _), .inr (.inr rfl)⟩
      · exact .inr (.inl ⟨h1, f, more, h2, h3, by simp⟩)
      · exact .inr (.inr ⟨f, more, rows, h1, h2⟩)

/-- A change of state, or a character more, changes nothing of that. -/
theorem Keeps.same {before : List Row} {fs : Row} {p : Str} {r r' : Reader} (h : Keeps before fs p r) (h1 : r'.rows = r.rows)
    (h2 : r'.fields = r.fields) (h3 : r.field <+: r'.field) (h4 : Opened r') : Keeps before fs p r' := by
  rcases h with ⟨k1, k2, k3, _⟩ | ⟨k1, f, more, k2, k3, k4⟩ | ⟨f, more, rows, k1, k2⟩
  · exact .inl ⟨h1.trans k1, h2.trans k2, k3.trans h3, h4⟩
  · exact .inr (.inl ⟨h1.trans k1, f, more, h2.trans k2, k3, by rcases h4 with h | h | h <;> simp [h]⟩)
  · exact .inr (.inr ⟨f, more, rows, h1.trans k1, k2⟩)

theorem keeps_char {d : Char} {before : List Row} {fs : Row} {p : Str} {r : Reader} (h : Keeps before fs p r) (c : Char) :
    Keeps before fs p (Reader.char d r c) := by
  have hf : Keeps before fs p (r.first d c) := by
    rw [Reader.first]
    split
    · exact h.same rfl rfl List.prefix_rfl (.inl rfl)
    · exact keeps_bare h c
  rw [Reader.char]
  split
  · split
    · exact h
    · exact hf
  · exact hf
  · exact keeps_bare h c
  · rename_i hs
    split
    · exact h.same rfl rfl List.prefix_rfl (.inr (.inl rfl))
    · exact h.same rfl rfl (List.prefix_append _ _) (.inl hs)
  · split
    · exact h.same rfl rfl (List.prefix_append _ _) (.inl rfl)
    · exact keeps_bare h c

theorem keeps_fold {d : Char} {before : List Row} {fs : Row} {p : Str} (s : Str) {r : Reader} (h : Keeps before fs p r) :
    ∃ f more rows, (s.foldl (Reader.char d) r).finish = before ++ (fs ++ f :: more) :: rows ∧ p <+: f := by
  induction s generalizing r with
  | nil =>
    rw [List.foldl_nil, Reader.finish]
    rcases h with ⟨h1, h2, h3, h4⟩ | ⟨h1, f, more, h2, h3, h4⟩ | ⟨f, more, rows, h1, h2⟩
    · refine ⟨r.field, [], [], ?_, h3⟩
      rcases h4 with h | h | h <;> simp [h, Reader.endRecord, h1, h2]
    · refine ⟨f, more ++ [r.field], [], ?_, h3⟩
      split
      · rename_i h; exact absurd h h4
      · simp [Reader.endRecord, h1, h2]
    · split
      · exact ⟨f, more, rows, h1, h2⟩
      · exact ⟨f, more, rows ++ [r.fields ++ [r.field]], by simp [Reader.endRecord, h1], h2⟩
  | cons c s ih => exact ih (keeps_char h c)

/-! ## Trimming -/

theorem dropWhile_keeps {a m : Str} {x : Char} (hx : Str.isWs x = false) : ∃ a', (a ++ x :: m).dropWhile Str.isWs = a' ++ x :: m := by
  induction a with
  | nil => exact ⟨[], by simp [hx]⟩
  | cons c a ih =>
    rw [List.cons_append, List.dropWhile_cons]
    split
    · exact ih
    · exact ⟨c :: a, rfl⟩

/-- White space between two characters that are none is not trimmed. -/
theorem trim_keeps {a m b : Str} {x y : Char} (hx : Str.isWs x = false) (hy : Str.isWs y = false) :
    ∃ a' b', Str.trim (a ++ x :: (m ++ y :: b)) = a' ++ x :: (m ++ y :: b') := by
  obtain ⟨a', ha⟩ := dropWhile_keeps (a := a) (m := m ++ y :: b) hx
  have : (a' ++ x :: (m ++ y :: b)).reverse = b.reverse ++ y :: (a' ++ x :: m).reverse := by simp
  obtain ⟨b', hb⟩ := dropWhile_keeps (a := b.reverse) (m := (a' ++ x :: m).reverse) hy
  refine ⟨a', b'.reverse, ?_⟩
  rw [Str.trim, Str.trimStart, ha, Str.trimEnd, this, hb]
  simp

theorem trim_length (s : Str) : (Str.trim s).length ≤ s.length := by
  have h : ∀ s : Str, (s.dropWhile Str.isWs).length ≤ s.length := fun s => (List.dropWhile_sublist _).length_le
  rw [Str.trim, Str.trimEnd, List.length_reverse]
  refine (h _).trans ?_
  rw [List.length_reverse]
  exact h s

theorem trim_length_end (g : Str) : (Str.trim (g ++ ['\n'])).length ≤ g.length := by
  by_contra hlt
  have hle := trim_length (g ++ ['\n'])
  have heq : (Str.trim (g ++ ['\n'])).length = (g ++ ['\n']).length := by
    rw [List.length_append, List.length_singleton] at hle ⊢
    omega
  have hsub : List.Sublist (Str.trim (g ++ ['\n'])) (g ++ ['\n']) := by
    rw [Str.trim, Str.trimEnd]
    have h1 : List.Sublist (Str.trimStart (g ++ ['\n'])) (g ++ ['\n']) := List.dropWhile_sublist _
    refine List.Sublist.trans ?_ h1
    have := (List.dropWhile_sublist Str.isWs (l := (Str.trimStart (g ++ ['\n'])).reverse)).reverse
    rwa [List.reverse_reverse] at this
  have := hsub.eq_of_length heq
  have ht := (trimmed_trim (g ++ ['\n'])).2 '\n' (by rw [this]; simp)
  exact absurd ht (by decide)

end Csv

namespace Tesseract
open Spec Spec.Csv

/-- The file is read as its records if their texts can be written without quotes. -/
theorem rows_read (before : List (Record × Int)) (h : ∀ r ∈ before, InRange r ∧ OneWord r.1.text) :
    (before.map fun r => (tsvFields r.1 r.2).map Str.trim).map (Record.ofRow tsvNames) = before.map fun r => some r.1 := by
  rw [List.map_map]
  refine List.map_congr_left fun r hr => ?_
  rw [Function.comp, Csv.fields_trim _ _ (h r hr).2.trim, ofRow_fields _ _ (h r hr).1]

/-- **C75, as far as it holds.** If no text begins with a double quote, the records of the file are read as Tesseract wrote them. -/
theorem C75_read_partial (rs : List (Record × Int)) (h : ∀ r ∈ rs, InRange r ∧ OneWord r.1.text) (hq : ∀ r ∈ rs, r.1.text.head? ≠ some '"') :
    readRecords (tsvFile rs) = rs.map fun r => some r.1 := by
  have : Csv.trimmedRecords '\t' (tsvFile rs) = tsvNames :: rs.map fun r => (tsvFields r.1 r.2).map Str.trim := by
    rw [Csv.trimmedRecords, Csv.file_records, Csv.lines_fold rs fun r hr => Csv.OneWord.plain (h r hr).2 (hq r hr)]
    simp [Csv.Reader.finish, Csv.names_trim]
  rw [readRecords, this]
  exact rows_read rs h

/-- **C75.** One double quote at the start of a text, and none behind it: all that follows in the file, up to its last line, becomes
part of that text. None of the following records is read, and no error is reported. -/
theorem C75_rest_lost (before after : List (Record × Int)) (r : Record) (conf : Int) (w : Str)
    (hb : ∀ x ∈ before, InRange x ∧ OneWord x.1.text) (hq : ∀ x ∈ before, x.1.text.head? ≠ some '"') (hr : InRange (r, conf))
    (hw : r.text = '"' :: w) (hn : '"' ∉ w) (ha : ∀ x ∈ after, '"' ∉ x.1.text) :
    readRecords (tsvFile (before ++ (r, conf) :: after)) = (before.map fun x => some x.1) ++
      [some { r with text := Str.trim (w ++ '\n' :: after.flatMap fun x => tsvLine (tsvFields x.1 x.2)) }] := by
  have hl : tsvLine (tsvFields r conf) ++ (after.flatMap fun x => tsvLine (tsvFields x.1 x.2)) =
      (Str.join ['\t'] (Csv.nums r conf) ++ ['\t', '"']) ++ (w ++ '\n' :: after.flatMap fun x => tsvLine (tsvFields x.1 x.2)) := by
    rw [Csv.line_eq, hw]; simp
  have hs : '"' ∉ w ++ '\n' :: after.flatMap fun x => tsvLine (tsvFields x.1 x.2) := by
    intro h
    rw [List.mem_append, List.mem_cons, List.mem_flatMap] at h
    rcases h with h | h | ⟨x, hx, h⟩
    · exact hn h
    · exact absurd h (by decide)
    · exact Csv.line_quote x.1 x.2 (ha x hx) h
  generalize w ++ '\n' :: after.flatMap (fun x => tsvLine (tsvFields x.1 x.2)) = rest at hl hs ⊢
  have : Csv.trimmedRecords '\t' (tsvFile (before ++ (r, conf) :: after)) =
      tsvNames :: ((before.map fun r => (tsvFields r.1 r.2).map Str.trim) ++ [tsvFields { r with text := Str.trim rest } conf]) := by
    rw [Csv.trimmedRecords, Csv.file_records, List.flatMap_append, List.flatMap_cons, hl, List.foldl_append,
      Csv.lines_fold before fun r hr => Csv.OneWord.plain (hb r hr).2 (hq r hr), List.foldl_append, Csv.open_fold,
      Csv.swallow _ _ hs _ rfl]
    simp only [Csv.Reader.finish, Csv.Reader.endRecord, List.nil_append, List.map_append, List.map_cons, List.map_nil, List.cons_append,
      Csv.names_trim, Csv.nums_trim]
    rw [Csv.fields_eq, List.map_map]
    rfl
  have hin : InRange ({ r with text := Str.trim rest }, conf) := hr
  rw [readRecords, this]
  simp only [List.map_append, rows_read before hb, List.map_cons, List.map_nil, ofRow_fields _ _ hin]

theorem doImport_of_records {L : ImportLib} {ns : Nationwide.FpNamespace} {tsv : Str} {rs : List (Option Record)} (h : readRecords tsv = rs) :
    (ImportCmd.Texts.nationwidePdf ns tsv).doImport L =
      match (Document.fromRecords rs).map (ImportCmd.Importer.nationwidePdf ns) with
      | .error _ => .error .input
      | .ok importer => importer.doImport L := by
  subst h; rfl

theorem of_check {rs : List (Record × Int)}
    (h : ∀ r ∈ rs, (∀ n ∈ [r.1.level, r.1.pageNum, r.1.blockNum, r.1.parNum, r.1.lineNum, r.1.wordNum, r.1.left, r.1.top, r.1.width,
      r.1.height, r.2], -2147483648 ≤ n ∧ n ≤ 2147483647) ∧ '\t' ∉ r.1.text ∧ '\n' ∉ r.1.text ∧ '\r' ∉ r.1.text ∧ Trimmed r.1.text ∧
      r.1.text.head? ≠ some '"') : (∀ r ∈ rs, InRange r ∧ OneWord r.1.text) ∧ ∀ r ∈ rs, r.1.text.head? ≠ some '"' := by
  refine ⟨fun r hr => ?_, fun r hr => (h r hr).2.2.2.2.2⟩
  obtain ⟨h1, h2, h3, h4, h5, _⟩ := h r hr
  exact ⟨h1, h2, fun c hc => by rintro (rfl | rfl) <;> contradiction, h5⟩

set_option maxRecDepth 100000 in
theorem page_kept : ∃ imp, (ImportCmd.Texts.nationwidePdf (.fixed "acc".toList) (Ex.pdfText "Page")).doImport Ex.plainLib = .ok imp ∧
    imp.transactions.map (·.description) = ["Coffee Shop".toList, "Coffee Shop".toList, "Salary".toList] := by
  have h := of_check (rs := Ex.recordsOf (Ex.pdfDoc (Ex.pdfPage1.dropLast ++ [Ex.pdfRow 300 [(100, "Page"), (400, "1")]]) Ex.pdfPage2))
    (by decide +kernel)
  rw [Ex.pdfText, doImport_of_records (C75_read_partial _ h.1 h.2)]
  exact NationwidePdf.of_run (by decide +kernel)

/-- The statement with a double quote in its footer. -/
def quotedRecords : List (Record × Int) :=
  Ex.recordsOf (Ex.pdfDoc (Ex.pdfPage1.dropLast ++ [Ex.pdfRow 300 [(100, "\"Page"), (400, "1")]]) Ex.pdfPage2)

set_option maxRecDepth 100000 in
theorem page_lost : ∃ imp, (ImportCmd.Texts.nationwidePdf (.fixed "acc".toList) (Ex.pdfText "\"Page")).doImport Ex.plainLib = .ok imp ∧
    imp.transactions.map (·.description) = ["Coffee Shop".toList, "Coffee Shop".toList] := by
  have hs : quotedRecords =
      quotedRecords.take 40 ++ (⟨5, 1, 1, 2, 8, 1, 100, 300, 40, 10, "\"Page".toList⟩, 96) :: quotedRecords.drop 41 := by decide +kernel
  have h := of_check (rs := quotedRecords.take 40) (by decide +kernel)
  have hr := C75_rest_lost (quotedRecords.take 40) (quotedRecords.drop 41)
    ⟨5, 1, 1, 2, 8, 1, 100, 300, 40, 10, "\"Page".toList⟩ 96 "Page".toList h.1 h.2 (by unfold InRange; decide) rfl (by decide) (by decide +kernel)
  rw [← hs] at hr
  rw [Ex.pdfText, ← quotedRecords, doImport_of_records hr]
  exact NationwidePdf.of_run (by decide +kernel)

/-- **C75.** When exactly a file is read as Tesseract wrote it: if no text begins with a double quote. -/
theorem C75_exact (rs : List (Record × Int)) (h : ∀ r ∈ rs, InRange r ∧ OneWord r.1.text) :
    (readRecords (tsvFile rs) = rs.map fun r => some r.1) ↔ ∀ r ∈ rs, r.1.text.head? ≠ some '"' := by
  refine ⟨fun heq => ?_, C75_read_partial rs h⟩
  by_contra hno
  -- the first text that begins with a double quote
  obtain ⟨before, x, after, rfl, hq, hx⟩ : ∃ before x after, rs = before ++ x :: after ∧ (∀ y ∈ before, y.1.text.head? ≠ some '"') ∧
      x.1.text.head? = some '"' := by
    clear h heq
    induction rs with
    | nil => exact absurd (by simp) hno
    | cons y rs ih =>
      by_cases hy : y.1.text.head? = some '"'
      · exact ⟨[], y, rs, rfl, by simp, hy⟩
      · obtain ⟨before, x, after, rfl, h1, h2⟩ := ih fun hall => hno fun z hz => by
          rcases List.mem_cons.1 hz with rfl | hz
          · exact hy
          · exact hall z hz
        refine ⟨y :: before, x, after, rfl, fun z hz => ?_, h2⟩
        rcases List.mem_cons.1 hz with rfl | hz
        · exact hy
        · exact h1 z hz
  obtain ⟨r, conf⟩ := x
  obtain ⟨w, hw⟩ : ∃ w, r.text = '"' :: w := by
    cases ht : r.text with
    | nil => rw [ht] at hx; simp at hx
    | cons c w => rw [ht] at hx; simp only [List.head?_cons, Option.some.injEq] at hx; exact ⟨w, by rw [hx]⟩
  have hword : OneWord r.text := (h (r, conf) (by simp)).2
  have hb : ∀ y ∈ before, InRange y ∧ OneWord y.1.text := fun y hy => h y (List.mem_append_left _ hy)
  have htab : '\t' ∉ w := fun hm => hword.tab (by rw [hw]; exact List.mem_cons_of_mem _ hm)
  have hends : ∀ c ∈ w, ¬ LineEnd c := fun c hc => hword.ends c (by rw [hw]; exact List.mem_cons_of_mem _ hc)
  -- the row that is read in its place
  suffices hrow : ∃ f more rows, Csv.records '\t' (tsvFile (before ++ (r, conf) :: after)) =
      (tsvNames :: before.map fun y => tsvFields y.1 y.2) ++ (Csv.nums r conf ++ f :: more) :: rows ∧
      (more = [] → Str.trim f ≠ r.text) by
    obtain ⟨f, more, rows, hrec, hne⟩ := hrow
    have hread : (readRecords (tsvFile (before ++ (r, conf) :: after)))[before.length]? =
        some (Record.ofRow tsvNames ((Csv.nums r conf ++ f :: more).map Str.trim)) := by
      rw [readRecords, Csv.trimmedRecords, hrec]
      simp only [List.cons_append, List.map_cons, Csv.names_trim, List.map_append]
      rw [List.getElem?_append_right (by simp)]
      simp
    rw [heq] at hread
    simp only [List.map_append, List.map_cons] at hread
    rw [List.getElem?_append_right (by simp)] at hread
    simp only [List.length_map, Nat.sub_self, List.getElem?_cons_zero, Option.some.injEq] at hread
    have hread := hread.symm
    obtain ⟨h1, h2⟩ := ofRow_text hread
    have hmore : more = [] := by
      rw [← List.length_eq_zero_iff]
      simp only [List.length_map, List.length_append, List.length_cons, Csv.nums, List.length_nil] at h1
      omega
    subst hmore
    simp only [List.map_nil, List.getLast?_concat, Option.some.injEq] at h2
    exact hne rfl h2
  have hrecs : Csv.records '\t' (tsvFile (before ++ (r, conf) :: after)) =
      ((('\n' :: after.flatMap fun y => tsvLine (tsvFields y.1 y.2))).foldl (Csv.Reader.char '\t')
        (w.foldl (Csv.Reader.char '\t') ⟨.inQuoted, [], Csv.nums r conf, tsvNames :: before.map fun y => tsvFields y.1 y.2⟩)).finish := by
    have hl : tsvLine (tsvFields r conf) ++ (after.flatMap fun x => tsvLine (tsvFields x.1 x.2)) =
        (Str.join ['\t'] (Csv.nums r conf) ++ ['\t', '"']) ++ (w ++ '\n' :: after.flatMap fun x => tsvLine (tsvFields x.1 x.2)) := by
      rw [Csv.line_eq, hw]; simp
    rw [Csv.file_records, List.flatMap_append, List.flatMap_cons, hl, List.foldl_append,
      Csv.lines_fold before fun r hr => Csv.OneWord.plain (hb r hr).2 (hq r hr), List.foldl_append, Csv.open_fold, List.foldl_append]
    rfl
  obtain ⟨o1, o2, o3, o4⟩ := Csv.opened_fold w htab hends
    ⟨.inQuoted, [], Csv.nums r conf, tsvNames :: before.map fun y => tsvFields y.1 y.2⟩ (.inl rfl)
  generalize w.foldl (Csv.Reader.char '\t') ⟨.inQuoted, [], Csv.nums r conf, tsvNames :: before.map fun y => tsvFields y.1 y.2⟩ = q
    at hrecs o1 o2 o3 o4
  simp only [List.length_nil, Nat.zero_add] at o2 o3 o4
  rw [hrecs]
  by_cases hs : q.state = .inQuoted
  · have hnl : Csv.Reader.char '\t' q '\n' = { q with field := q.field ++ ['\n'] } := by simp [Csv.Reader.char, hs]
    cases after with
    | nil =>
      refine ⟨q.field ++ ['\n'], [], [], ?_, fun _ he => ?_⟩
      · simp only [List.flatMap_nil, List.foldl_cons, List.foldl_nil, hnl, Csv.Reader.finish, hs, Csv.Reader.endRecord, o2, o3]
      · have := Csv.trim_length_end q.field
        rw [he, hw, List.length_cons] at this
        omega
    | cons y after =>
      -- two numbers of the next record are in the field, with a tab between them
      have hlq := Csv.nums_quote y.1 y.2
      obtain ⟨z, hz⟩ : ∃ z, Str.join ['\t'] (Csv.nums y.1 y.2) = numeral y.1.level ++ '\t' :: (numeral y.1.pageNum ++ z) :=
        ⟨_, by simp only [Csv.nums, Str.join, List.append_assoc, List.cons_append, List.nil_append]; rfl⟩
      have hk : Csv.Keeps (tsvNames :: before.map fun y => tsvFields y.1 y.2) (Csv.nums r conf)
          (q.field ++ '\n' :: Str.join ['\t'] (Csv.nums y.1 y.2))
          ((Str.join ['\t'] (Csv.nums y.1 y.2)).foldl (Csv.Reader.char '\t') { q with field := q.field ++ ['\n'] }) := by
        rw [Csv.swallow _ _ hlq { q with field := q.field ++ ['\n'] } hs]
        exact .inl ⟨o3, o2, by simp, .inl hs⟩
      obtain ⟨f, more, rows, h1, h2⟩ := Csv.keeps_fold ('\t' :: (y.1.text ++ ['\n']) ++ after.flatMap fun x => tsvLine (tsvFields x.1 x.2)) hk
      refine ⟨f, more, rows, ?_, fun _ he => ?_⟩
      · rw [List.foldl_cons, hnl, List.flatMap_cons, Csv.line_eq, List.append_assoc, List.foldl_append]
        exact h1
      · obtain ⟨u, hu⟩ := h2
        obtain ⟨a, x, hlev⟩ : ∃ a x, numeral y.1.level = a ++ [x] :=
          ⟨_, _, (List.dropLast_concat_getLast (Csv.numeral_ne y.1.level)).symm⟩
        obtain ⟨v, b, hpage⟩ : ∃ v b, numeral y.1.pageNum = v :: b := by
          cases hp : numeral y.1.pageNum with
          | nil => exact absurd hp (Csv.numeral_ne _)
          | cons v b => exact ⟨v, b, rfl⟩
        have hx : Str.isWs x = false := Csv.numeral_ws (n := y.1.level) (by rw [hlev]; simp)
        have hv : Str.isWs v = false := Csv.numeral_ws (n := y.1.pageNum) (by rw [hpage]; simp)
        obtain ⟨a', b', ht⟩ := Csv.trim_keeps (a := q.field ++ '\n' :: a) (m := ['\t']) (b := b ++ z ++ u) hx hv
        have hf : f = (q.field ++ '\n' :: a) ++ x :: (['\t'] ++ v :: (b ++ z ++ u)) := by
          rw [← hu, hz, hlev, hpage]; simp
        rw [hf, ht] at he
        exact hword.tab (by rw [← he]; simp)
  · have hnl : Csv.Reader.char '\t' q '\n' = q.endRecord :=
      Csv.end_field Csv.tab_delim (by rcases o1 with h | h | h; exacts [absurd h hs, .inr (.inr h), .inr (.inl h)]) (.inl rfl)
    obtain ⟨rows, hrows⟩ := Csv.rows_fold '\t' (after.flatMap fun y => tsvLine (tsvFields y.1 y.2)) q.endRecord
    refine ⟨q.field, [], rows, ?_, fun _ he => ?_⟩
    · rw [List.foldl_cons, hnl, ← hrows, Csv.Reader.endRecord, o2, o3]
      simp
    · have := Csv.trim_length q.field
      rw [he, hw, List.length_cons] at this
      omega

/-- **C75 is false.** A statement of two pages with a double quote in front of the first word of the footer of the first page: the second
page, with its transaction, is not imported, and no error is reported. -/
theorem C75_page_lost :
    (∃ imp, (ImportCmd.Texts.nationwidePdf (.fixed "acc".toList) (Ex.pdfText "Page")).doImport Ex.plainLib = .ok imp ∧
      imp.transactions.map (·.description) = ["Coffee Shop".toList, "Coffee Shop".toList, "Salary".toList]) ∧
    ∃ imp, (ImportCmd.Texts.nationwidePdf (.fixed "acc".toList) (Ex.pdfText "\"Page")).doImport Ex.plainLib = .ok imp ∧
      imp.transactions.map (·.description) = ["Coffee Shop".toList, "Coffee Shop".toList] :=
  ⟨page_kept, page_lost⟩

/-- The records of the statement meet the conditions of the theorems but for the double quote. -/
example : (∀ r ∈ Ex.recordsOf (Ex.pdfDoc Ex.pdfPage1 Ex.pdfPage2), InRange r ∧ OneWord r.1.text ∧ r.1.text.head? ≠ some '"') ∧
    (Ex.recordsOf (Ex.pdfDoc Ex.pdfPage1 Ex.pdfPage2)).length = 61 := by
  refine ⟨?_, by decide +kernel⟩
  have h := of_check (rs := Ex.recordsOf (Ex.pdfDoc Ex.pdfPage1 Ex.pdfPage2)) (by decide +kernel)
  exact fun r hr => ⟨(h.1 r hr).1, (h.1 r hr).2, h.2 r hr⟩

end Tesseract
end Verif
