import Verif.Model.Tesseract

/-!
# Specification: the tree of an OCR document, and overlap of boxes
-/

namespace Verif.Spec
open Tesseract

/-- Where a record belongs: the numbers of the page, block, paragraph, line and word, as far as its level goes. -/
def path (r : Record) : Option (List Int) :=
  if r.level = 1 then some [r.pageNum]
  else if r.level = 2 then some [r.pageNum, r.blockNum]
  else if r.level = 3 then some [r.pageNum, r.blockNum, r.parNum]
  else if r.level = 4 then some [r.pageNum, r.blockNum, r.parNum, r.lineNum]
  else if r.level = 5 then some [r.pageNum, r.blockNum, r.parNum, r.lineNum, r.wordNum]
  else none

/-- A record continues a sequence of records: its parent is there (unless it is a page), and its number is the next one below that
parent. -/
def Continues (before : List Record) (r : Record) : Prop :=
  ∃ parent n, path r = some (parent ++ [n]) ∧ (parent = [] ∨ ∃ r' ∈ before, path r' = some parent) ∧
    n = 1 + (before.filter fun r' => (path r').map List.dropLast = some parent).length

/-- Every record continues the records before it. -/
def InSequence (rs : List Record) : Prop := ∀ i (h : i < rs.length), Continues (rs.take i) rs[i]

/-- The child with a number. -/
def child {T : Type} (l : List T) (n : Int) : Option T := if 1 ≤ n then l[(n - 1).toNat]? else none

/-- The page at a path. -/
def pageAt (d : Document) (p : Int) : Option Page := child d.pages p
/-- The block at a path. -/
def blockAt (d : Document) (p b : Int) : Option Block := (pageAt d p).bind fun x => child x.blocks b
/-- The paragraph at a path. -/
def parAt (d : Document) (p b q : Int) : Option Paragraph := (blockAt d p b).bind fun x => child x.paragraphs q
/-- The line at a path. -/
def lineAt (d : Document) (p b q l : Int) : Option Line := (parAt d p b q).bind fun x => child x.lines l
/-- The word at a path. -/
def wordAt (d : Document) (p b q l w : Int) : Option Word := (lineAt d p b q l).bind fun x => child x.words w

/-- Numbered 1, 2, 3 and so on. -/
def Numbered (l : List Int) : Prop := ∀ i (h : i < l.length), l[i] = i + 1

/-- All parts of a document are numbered in order. -/
def NumberedTree (d : Document) : Prop :=
  Numbered (d.pages.map Page.num) ∧ ∀ p ∈ d.pages,
    Numbered (p.blocks.map Block.num) ∧ ∀ b ∈ p.blocks,
      Numbered (b.paragraphs.map Paragraph.num) ∧ ∀ q ∈ b.paragraphs,
        Numbered (q.lines.map Line.num) ∧ ∀ l ∈ q.lines, Numbered (l.words.map Word.num)

end Verif.Spec
