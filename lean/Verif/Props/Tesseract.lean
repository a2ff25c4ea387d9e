import Verif.Proofs.Tesseract
import Verif.Model.NationwidePdf

/-!
# C52, C53: the tree of an OCR document, and the overlap of boxes
-/

namespace Verif
open Spec Tesseract NationwidePdf
namespace Tesseract

theorem page_at {rs : List Record} (hi : Inv rs) (p : Int) (x : Page) :
    pageAt (tree rs) p = some x ↔ ∃ r ∈ rs, path r = some [p] ∧ x = { Page.ofRecord r with blocks := tBlocks rs p } := by
  unfold pageAt tree tPages
  rw [child_iff hi.n1]
  constructor
  · rintro ⟨r, hr, rfl, rfl⟩
    obtain ⟨h1, h2⟩ := List.mem_filter.1 hr
    exact ⟨r, h1, path1.2 ⟨of_decide_eq_true h2, rfl⟩, rfl⟩
  · rintro ⟨r, hr, hp, rfl⟩
    obtain ⟨h1, rfl⟩ := path1.1 hp
    exact ⟨r, List.mem_filter.2 ⟨hr, decide_eq_true h1⟩, rfl, rfl⟩

theorem block_at {rs : List Record} (hi : Inv rs) (p b : Int) (x : Block) :
    blockAt (tree rs) p b = some x ↔ ∃ r ∈ rs, path r = some [p, b] ∧ x = { Block.ofRecord r with paragraphs := tPars rs p b } := by
  unfold blockAt
  rw [Option.bind_eq_some_iff]
  constructor
  · rintro ⟨pg, hpg, hx⟩
    obtain ⟨rp, hrp, hp, rfl⟩ := (page_at hi p pg).1 hpg
    obtain ⟨r, hr, rfl, rfl⟩ := (child_iff (hi.n2 p) _ b x).1 hx
    obtain ⟨h1, h2⟩ := List.mem_filter.1 hr
    obtain ⟨h2, h3⟩ := of_decide_eq_true h2
    exact ⟨r, h1, path2.2 ⟨h2, h3, rfl⟩, rfl⟩
  · rintro ⟨r, hr, hp, rfl⟩
    obtain ⟨h1, h2, rfl⟩ := path2.1 hp
    obtain ⟨rp, hrp, hpp⟩ := hi.p2 r hr h1
    rw [h2] at hpp
    refine ⟨_, (page_at hi p _).2 ⟨rp, hrp, hpp, rfl⟩, ?_⟩
    exact (child_iff (hi.n2 p) _ _ _).2 ⟨r, List.mem_filter.2 ⟨hr, decide_eq_true ⟨h1, h2⟩⟩, rfl, rfl⟩

theorem par_at {rs : List Record} (hi : Inv rs) (p b q : Int) (x : Paragraph) :
    parAt (tree rs) p b q = some x ↔
      ∃ r ∈ rs, path r = some [p, b, q] ∧ x = { Paragraph.ofRecord r with lines := tLines rs p b q } := by
  unfold parAt
  rw [Option.bind_eq_some_iff]
  constructor
  · rintro ⟨pg, hpg, hx⟩
    obtain ⟨rp, hrp, hp, rfl⟩ := (block_at hi p b pg).1 hpg
    obtain ⟨r, hr, rfl, rfl⟩ := (child_iff (hi.n3 p b) _ q x).1 hx
    obtain ⟨h1, h2⟩ := List.mem_filter.1 hr
    obtain ⟨h2, h3, h4⟩ := of_decide_eq_true h2
    exact ⟨r, h1, path3.2 ⟨h2, h3, h4, rfl⟩, rfl⟩
  · rintro ⟨r, hr, hp, rfl⟩
    obtain ⟨h1, h2, h3, rfl⟩ := path3.1 hp
    obtain ⟨rp, hrp, hpp⟩ := hi.p3 r hr h1
    rw [h2, h3] at hpp
    refine ⟨_, (block_at hi p b _).2 ⟨rp, hrp, hpp, rfl⟩, ?_⟩
    exact (child_iff (hi.n3 p b) _ _ _).2 ⟨r, List.mem_filter.2 ⟨hr, decide_eq_true ⟨h1, h2, h3⟩⟩, rfl, rfl⟩

theorem line_at {rs : List Record} (hi : Inv rs) (p b q l : Int) (x : Line) :
    lineAt (tree rs) p b q l = some x ↔
      ∃ r ∈ rs, path r = some [p, b, q, l] ∧ x = { Line.ofRecord r with words := tWords rs p b q l } := by
  unfold lineAt
  rw [Option.bind_eq_some_iff]
  constructor
  · rintro ⟨pg, hpg, hx⟩
    obtain ⟨rp, hrp, hp, rfl⟩ := (par_at hi p b q pg).1 hpg
    obtain ⟨r, hr, rfl, rfl⟩ := (child_iff (hi.n4 p b q) _ l x).1 hx
    obtain ⟨h1, h2⟩ := List.mem_filter.1 hr
    obtain ⟨h2, h3, h4, h5⟩ := of_decide_eq_true h2
    exact ⟨r, h1, path4.2 ⟨h2, h3, h4, h5, rfl⟩, rfl⟩
  · rintro ⟨r, hr, hp, rfl⟩
    obtain ⟨h1, h2, h3, h4, rfl⟩ := path4.1 hp
    obtain ⟨rp, hrp, hpp⟩ := hi.p4 r hr h1
    rw [h2, h3, h4] at hpp
    refine ⟨_, (par_at hi p b q _).2 ⟨rp, hrp, hpp, rfl⟩, ?_⟩
    exact (child_iff (hi.n4 p b q) _ _ _).2 ⟨r, List.mem_filter.2 ⟨hr, decide_eq_true ⟨h1, h2, h3, h4⟩⟩, rfl, rfl⟩

theorem word_at {rs : List Record} (hi : Inv rs) (p b q l w : Int) (x : Word) :
    wordAt (tree rs) p b q l w = some x ↔ ∃ r ∈ rs, path r = some [p, b, q, l, w] ∧ x = Word.ofRecord r := by
  unfold wordAt
  rw [Option.bind_eq_some_iff]
  constructor
  · rintro ⟨pg, hpg, hx⟩
    obtain ⟨rp, hrp, hp, rfl⟩ := (line_at hi p b q l pg).1 hpg
    obtain ⟨r, hr, rfl, rfl⟩ := (child_iff (hi.n5 p b q l) _ w x).1 hx
    obtain ⟨h1, h2⟩ := List.mem_filter.1 hr
    obtain ⟨h2, h3, h4, h5, h6⟩ := of_decide_eq_true h2
    exact ⟨r, h1, path5.2 ⟨h2, h3, h4, h5, h6, rfl⟩, rfl⟩
  · rintro ⟨r, hr, hp, rfl⟩
    obtain ⟨h1, h2, h3, h4, h5, rfl⟩ := path5.1 hp
    obtain ⟨rp, hrp, hpp⟩ := hi.p5 r hr h1
    rw [h2, h3, h4, h5] at hpp
    refine ⟨_, (line_at hi p b q l _).2 ⟨rp, hrp, hpp, rfl⟩, ?_⟩
    exact (child_iff (hi.n5 p b q l) _ _ _).2 ⟨r, List.mem_filter.2 ⟨hr, decide_eq_true ⟨h1, h2, h3, h4, h5⟩⟩, rfl, rfl⟩

end Tesseract

/-- A page of two words, and a second page. -/
def exampleRecords : List Record :=
  [⟨1, 1, 0, 0, 0, 0, 0, 0, 100, 200, []⟩, ⟨2, 1, 1, 0, 0, 0, 5, 6, 70, 80, []⟩, ⟨3, 1, 1, 1, 0, 0, 5, 6, 70, 80, []⟩,
   ⟨4, 1, 1, 1, 1, 0, 5, 6, 70, 12, []⟩, ⟨5, 1, 1, 1, 1, 1, 5, 6, 20, 12, "01".toList⟩, ⟨5, 1, 1, 1, 1, 2, 30, 6, 45, 12, "Jan".toList⟩,
   ⟨1, 2, 0, 0, 0, 0, 0, 0, 100, 200, []⟩]

/-- **C52** (acceptance). The records of a file make a document if and only if all of them can be read and every one continues the ones
before it: the page, block, paragraph or line it belongs to is there, and its number is the next one there. -/
theorem C52_accepted_iff (os : List (Option Record)) :
    (∃ d, Document.fromRecords os = .ok d) ↔ ∃ rs : List Record, os = rs.map some ∧ InSequence rs := by
  constructor
  · rintro ⟨d, h⟩
    obtain ⟨rs, h1, h2, _⟩ := (fromRecords_iff os d).1 h
    exact ⟨rs, h1, h2⟩
  · rintro ⟨rs, h1, h2⟩
    exact ⟨_, (fromRecords_iff os _).2 ⟨rs, h1, h2, rfl⟩⟩

/-- **C52** (numbering). In a document all parts are numbered 1, 2, 3 and so on below their parent. -/
theorem C52_numbered (os : List (Option Record)) (d : Document) (h : Document.fromRecords os = .ok d) : NumberedTree d := by
  obtain ⟨rs, _, hs, rfl⟩ := (fromRecords_iff os d).1 h
  have hi := Inv.of_sequence hs
  unfold NumberedTree tree tPages
  rw [List.map_map]
  refine ⟨hi.n1, fun x hx => ?_⟩
  obtain ⟨r, _, rfl⟩ := List.mem_map.1 hx
  show Numbered ((tBlocks rs r.pageNum).map Block.num) ∧ ∀ b ∈ tBlocks rs r.pageNum, _
  unfold tBlocks
  rw [List.map_map]
  refine ⟨hi.n2 _, fun x hx => ?_⟩
  obtain ⟨r2, _, rfl⟩ := List.mem_map.1 hx
  show Numbered ((tPars rs r.pageNum r2.blockNum).map Paragraph.num) ∧ ∀ b ∈ tPars rs r.pageNum r2.blockNum, _
  unfold tPars
  rw [List.map_map]
  refine ⟨hi.n3 _ _, fun x hx => ?_⟩
  obtain ⟨r3, _, rfl⟩ := List.mem_map.1 hx
  show Numbered ((tLines rs r.pageNum r2.blockNum r3.parNum).map Line.num) ∧ ∀ b ∈ tLines rs r.pageNum r2.blockNum r3.parNum, _
  unfold tLines
  rw [List.map_map]
  refine ⟨hi.n4 _ _ _, fun x hx => ?_⟩
  obtain ⟨r4, _, rfl⟩ := List.mem_map.1 hx
  show Numbered ((tWords rs r.pageNum r2.blockNum r3.parNum r4.lineNum).map Word.num)
  unfold tWords
  rw [List.map_map]
  exact hi.n5 _ _ _ _

/-- **C52** (contents). A document contains exactly the records: at every path there is a page, block, paragraph, line or word if and
only if there is a record for it, and lines and words have the place and the text of the record. -/
theorem C52_contents (rs : List Record) (d : Document) (h : Document.fromRecords (rs.map some) = .ok d) (p b q l w : Int) :
    ((∃ x, pageAt d p = some x) ↔ ∃ r ∈ rs, path r = some [p]) ∧
    ((∃ x, blockAt d p b = some x) ↔ ∃ r ∈ rs, path r = some [p, b]) ∧
    ((∃ x, parAt d p b q = some x) ↔ ∃ r ∈ rs, path r = some [p, b, q]) ∧
    (∀ top height, (∃ x, lineAt d p b q l = some x ∧ x.top = top ∧ x.height = height) ↔
      ∃ r ∈ rs, path r = some [p, b, q, l] ∧ r.top = top ∧ r.height = height) ∧
    ∀ left width text, (∃ x, wordAt d p b q l w = some x ∧ x.left = left ∧ x.width = width ∧ x.text = text) ↔
      ∃ r ∈ rs, path r = some [p, b, q, l, w] ∧ r.left = left ∧ r.width = width ∧ r.text = text := by
  obtain ⟨rs', h1, hs, rfl⟩ := (fromRecords_iff _ d).1 h
  obtain rfl := List.map_inj_right (fun _ _ => Option.some.inj) |>.1 h1
  have hi := Inv.of_sequence hs
  simp only [page_at hi, block_at hi, par_at hi, line_at hi, word_at hi]
  refine ⟨?_, ?_, ?_, fun top height => ?_, fun left width text => ?_⟩
  · exact ⟨fun ⟨x, r, h1, h2, _⟩ => ⟨r, h1, h2⟩, fun ⟨r, h1, h2⟩ => ⟨_, r, h1, h2, rfl⟩⟩
  · exact ⟨fun ⟨x, r, h1, h2, _⟩ => ⟨r, h1, h2⟩, fun ⟨r, h1, h2⟩ => ⟨_, r, h1, h2, rfl⟩⟩
  · exact ⟨fun ⟨x, r, h1, h2, _⟩ => ⟨r, h1, h2⟩, fun ⟨r, h1, h2⟩ => ⟨_, r, h1, h2, rfl⟩⟩
  · constructor
    · rintro ⟨_, ⟨r, h1, h2, rfl⟩, h3, h4⟩; exact ⟨r, h1, h2, h3, h4⟩
    · rintro ⟨r, h1, h2, h3, h4⟩; exact ⟨_, ⟨r, h1, h2, rfl⟩, h3, h4⟩
  · constructor
    · rintro ⟨_, ⟨r, h1, h2, rfl⟩, h3, h4, h5⟩; exact ⟨r, h1, h2, h3, h4, h5⟩
    · rintro ⟨r, h1, h2, h3, h4, h5⟩; exact ⟨_, ⟨r, h1, h2, rfl⟩, h3, h4, h5⟩

/-- **C52** (once each). No two records of an accepted file are for the same path. -/
theorem C52_once (rs : List Record) (d : Document) (h : Document.fromRecords (rs.map some) = .ok d) :
    rs.Pairwise fun a b => path a ≠ path b := by
  obtain ⟨rs', h1, hs, rfl⟩ := (fromRecords_iff _ d).1 h
  obtain rfl := List.map_inj_right (fun _ _ => Option.some.inj) |>.1 h1
  clear h h1
  induction rs using List.reverseRecOn with
  | nil => exact List.Pairwise.nil
  | append_singleton rs r ih =>
    have hseq : InSequence rs := by
      intro i hlt
      have := hs i (by rw [List.length_append]; omega)
      rwa [List.take_append_of_le_length (by omega), List.getElem_append_left hlt] at this
    have hc : Continues rs r := by simpa using hs rs.length (by simp)
    have hi := Inv.of_sequence hseq
    refine List.pairwise_append.2 ⟨ih hseq, List.pairwise_singleton _ _, fun a ha b hb => ?_⟩
    obtain rfl := List.mem_singleton.1 hb
    intro he
    rcases continues_level hc with hl | hl | hl | hl | hl
    · have hp := path1.2 ⟨hl, rfl⟩
      exact fresh hi.n1 ((continues1 hl).1 hc) (mem_sel1.2 ⟨a, ha, he.trans hp⟩)
    · have hp := path2.2 ⟨hl, rfl, rfl⟩
      exact fresh (hi.n2 _) ((continues2 hl).1 hc).2 (mem_sel2.2 ⟨a, ha, he.trans hp⟩)
    · have hp := path3.2 ⟨hl, rfl, rfl, rfl⟩
      exact fresh (hi.n3 _ _) ((continues3 hl).1 hc).2 (mem_sel3.2 ⟨a, ha, he.trans hp⟩)
    · have hp := path4.2 ⟨hl, rfl, rfl, rfl, rfl⟩
      exact fresh (hi.n4 _ _ _) ((continues4 hl).1 hc).2 (mem_sel4.2 ⟨a, ha, he.trans hp⟩)
    · have hp := path5.2 ⟨hl, rfl, rfl, rfl, rfl, rfl⟩
      obtain ⟨h1, h2, h3, h4, h5, h6⟩ := path5.1 (he.trans hp)
      exact fresh (hi.n5 _ _ _ _) ((continues5 hl).1 hc).2
        ⟨a, List.mem_filter.2 ⟨ha, decide_eq_true ⟨h1, h2, h3, h4, h5⟩⟩, h6⟩

/-- The hypotheses of `C52_numbered`, `C52_contents` and `C52_once` are met: the example file is accepted. -/
theorem example_document : Document.fromRecords (exampleRecords.map some) =
    .ok ⟨[⟨1, [⟨1, [⟨1, [⟨1, 6, 12, [⟨1, 5, 20, "01".toList⟩, ⟨2, 30, 45, "Jan".toList⟩]⟩]⟩]⟩]⟩, ⟨2, []⟩]⟩ := by
  decide +kernel

example (d : Document) (h : Document.fromRecords (exampleRecords.map some) = .ok d) : NumberedTree d := C52_numbered _ d h

example : ∃ x, wordAt ⟨[⟨1, [⟨1, [⟨1, [⟨1, 6, 12, [⟨1, 5, 20, "01".toList⟩, ⟨2, 30, 45, "Jan".toList⟩]⟩]⟩]⟩]⟩, ⟨2, []⟩]⟩ 1 1 1 1 2 =
    some x ∧ x.left = 30 ∧ x.width = 45 ∧ x.text = "Jan".toList :=
  ((C52_contents exampleRecords _ example_document 1 1 1 1 2).2.2.2.2 30 45 "Jan".toList).2
    ⟨⟨5, 1, 1, 1, 1, 2, 30, 6, 45, 12, "Jan".toList⟩, by decide +kernel, by decide +kernel, rfl, rfl, rfl⟩

/-- A number left out, and a block before its page, are refused. -/
example : ¬ ∃ d, Document.fromRecords ([⟨1, 2, 0, 0, 0, 0, 0, 0, 0, 0, []⟩].map some) = .ok d := by
  rintro ⟨d, h⟩
  exact absurd h (by rw [show Document.fromRecords ([⟨1, 2, 0, 0, 0, 0, 0, 0, 0, 0, []⟩].map some) = .error .missingParent by decide +kernel]; intro h; cases h)
example : Document.fromRecords ([⟨2, 1, 1, 0, 0, 0, 0, 0, 0, 0, []⟩].map some) = .error .badValue := by decide +kernel

/-- **C53**. Two non-empty boxes overlap if and only if they have a pixel column in common. -/
theorem C53_overlaps_iff (a b : Bounds) (ha : a.min < a.max) (hb : b.min < b.max) :
    a.overlaps b = true ↔ ∃ x : Int, (a.min ≤ x ∧ x < a.max) ∧ b.min ≤ x ∧ x < b.max := by
  unfold Bounds.overlaps
  rw [Bool.and_eq_true, decide_eq_true_iff, decide_eq_true_iff]
  constructor
  · rintro ⟨h1, h2⟩
    by_cases h : a.min ≤ b.min
    · exact ⟨b.min, by omega, by omega⟩
    · exact ⟨a.min, by omega, by omega⟩
  · rintro ⟨x, h1, h2⟩
    omega

open Classical in
/-- **C53** (columns). The words of a line that are in a column are those that have a pixel column in common with it, in the order of
the line. -/
theorem C53_words (col : ColumnPos) (line : Line) (hc : col.min < col.max) (hw : ∀ w ∈ line.words, 0 < w.width) :
    collectWords col line =
      (line.words.filter fun w => ∃ x : Int, (col.min ≤ x ∧ x < col.max) ∧ w.left ≤ x ∧ x < w.left + w.width).map Word.text := by
  unfold collectWords
  congr 1
  refine List.filter_congr fun w h => ?_
  have := C53_overlaps_iff col w.horizBounds hc (by have := hw w h; show w.left < w.left + w.width; omega)
  rw [Bool.eq_iff_iff, this, decide_eq_true_iff]
  rfl

/-- The word in the column is taken, the one beside it is not. -/
example : collectWords ⟨25, 80⟩ ⟨1, 6, 12, [⟨1, 5, 20, "01".toList⟩, ⟨2, 30, 45, "Jan".toList⟩]⟩ = ["Jan".toList] := by decide +kernel

/-- **C53** (symmetry). -/
theorem C53_symmetric (a b : Bounds) : a.overlaps b = b.overlaps a := by
  unfold Bounds.overlaps
  rw [Bool.and_comm]

/-- A word that touches a column without sharing a pixel with it is not in the column; a word crossing its border is. -/
example : (⟨10, 20⟩ : Bounds).overlaps ⟨20, 30⟩ = false ∧ (⟨10, 21⟩ : Bounds).overlaps ⟨20, 30⟩ = true := by decide

/-- For an empty box the first statement is false: it "overlaps" a box it lies inside of, with no pixel in common. -/
theorem C53_empty_box : (⟨5, 5⟩ : Bounds).overlaps ⟨0, 10⟩ = true ∧
    ¬ ∃ x : Int, ((5 : Int) ≤ x ∧ x < 5) ∧ (0 : Int) ≤ x ∧ x < 10 :=
  ⟨by decide, by rintro ⟨x, h⟩; omega⟩

end Verif
