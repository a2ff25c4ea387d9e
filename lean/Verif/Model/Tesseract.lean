import Verif.Base.Str

/-!
# Tesseract documents (/repo/src/importers/tesseract.rs)

The records of the TSV file are the input; splitting the file into records is library code. Numbers are `i32` in the code and
unbounded here, see Model/Machine.
-/

namespace Verif
namespace Tesseract

/-- `Record` (/repo/src/importers/tesseract.rs:9-24), without the unused `conf`. -/
structure Record where
  level : Int
  pageNum : Int
  blockNum : Int
  parNum : Int
  lineNum : Int
  wordNum : Int
  left : Int
  top : Int
  width : Int
  height : Int
  text : Str
  deriving DecidableEq

/-- `Word` (/repo/src/importers/tesseract.rs:249-255). -/
structure Word where
  num : Int
  left : Int
  width : Int
  text : Str
  deriving DecidableEq

/-- `Line` (/repo/src/importers/tesseract.rs:230-235). -/
structure Line where
  num : Int
  top : Int
  height : Int
  words : List Word
  deriving DecidableEq

/-- `Paragraph` (/repo/src/importers/tesseract.rs:215-218). -/
structure Paragraph where
  num : Int
  lines : List Line
  deriving DecidableEq

/-- `Block` (/repo/src/importers/tesseract.rs:200-203). -/
structure Block where
  num : Int
  paragraphs : List Paragraph
  deriving DecidableEq

/-- `Page` (/repo/src/importers/tesseract.rs:185-188). -/
structure Page where
  num : Int
  blocks : List Block
  deriving DecidableEq

/-- `Document` (/repo/src/importers/tesseract.rs:27-29). -/
structure Document where
  pages : List Page
  deriving DecidableEq

/-- `From<Record> for Page` (/repo/src/importers/tesseract.rs:190-197). -/
def Page.ofRecord (r : Record) : Page := ⟨r.pageNum, []⟩
/-- `From<Record> for Block` (/repo/src/importers/tesseract.rs:205-212). -/
def Block.ofRecord (r : Record) : Block := ⟨r.blockNum, []⟩
/-- `From<Record> for Paragraph` (/repo/src/importers/tesseract.rs:220-227). -/
def Paragraph.ofRecord (r : Record) : Paragraph := ⟨r.parNum, []⟩
/-- `From<Record> for Line` (/repo/src/importers/tesseract.rs:237-246). -/
def Line.ofRecord (r : Record) : Line := ⟨r.lineNum, r.top, r.height, []⟩
/-- `From<Record> for Word` (/repo/src/importers/tesseract.rs:266-275). -/
def Word.ofRecord (r : Record) : Word := ⟨r.wordNum, r.left, r.width, r.text⟩

/-- Why a record is refused (/repo/src/importers/tesseract.rs:116,292,308,316). -/
inductive Err where
  /-- a number or level has a bad value (/repo/src/importers/tesseract.rs:116,292,316) -/
  | badValue
  /-- a part is out of sequence (/repo/src/importers/tesseract.rs:308) -/
  | missingParent
  /-- the record cannot be read (/repo/src/importers/tesseract.rs:47) -/
  | input
  deriving DecidableEq

/-- `num_to_idx` (/repo/src/importers/tesseract.rs:314-319). -/
def numToIdx (num : Int) : Except Err Nat := if num < 1 then .error .badValue else .ok (num - 1).toNat

/-- `get_checked_mut` (/repo/src/importers/tesseract.rs:289-293) with what is then done to the element. -/
def updateChecked {T : Type} (v : List T) (num : Int) (f : T → Except Err T) : Except Err (List T) := do
  let idx ← numToIdx num
  match v[idx]? with
  | none => .error .badValue
  | some x => do
    let x ← f x
    pure (v.set idx x)

/-- `push_checked` (/repo/src/importers/tesseract.rs:295-312). -/
def pushChecked {T : Type} (v : List T) (num : Int) (x : T) : Except Err (List T) := do
  let idx ← numToIdx num
  if idx ≠ v.length then .error .missingParent
  else pure (v ++ [x])

/-- `page_mut` (/repo/src/importers/tesseract.rs:123-125) and what is then done to the page. -/
def Document.updatePage (d : Document) (r : Record) (f : Page → Except Err Page) : Except Err Document := do
  pure ⟨← updateChecked d.pages r.pageNum f⟩

/-- `block_mut` (/repo/src/importers/tesseract.rs:127-130) and what is then done to the block. -/
def Document.updateBlock (d : Document) (r : Record) (f : Block → Except Err Block) : Except Err Document :=
  d.updatePage r fun page => do pure { page with blocks := ← updateChecked page.blocks r.blockNum f }

/-- `paragraph_mut` (/repo/src/importers/tesseract.rs:132-135) and what is then done to the paragraph. -/
def Document.updateParagraph (d : Document) (r : Record) (f : Paragraph → Except Err Paragraph) : Except Err Document :=
  d.updateBlock r fun block => do pure { block with paragraphs := ← updateChecked block.paragraphs r.parNum f }

/-- `line_mut` (/repo/src/importers/tesseract.rs:137-141) and what is then done to the line. -/
def Document.updateLine (d : Document) (r : Record) (f : Line → Except Err Line) : Except Err Document :=
  d.updateParagraph r fun paragraph => do pure { paragraph with lines := ← updateChecked paragraph.lines r.lineNum f }

/-- `feed_record` (/repo/src/importers/tesseract.rs:54-121). -/
def Document.feedRecord (d : Document) (r : Record) : Except Err Document :=
  match r.level with
  | 1 => do pure ⟨← pushChecked d.pages r.pageNum (.ofRecord r)⟩
  | 2 => d.updatePage r fun page => do pure { page with blocks := ← pushChecked page.blocks r.blockNum (.ofRecord r) }
  | 3 => d.updateBlock r fun block => do
      pure { block with paragraphs := ← pushChecked block.paragraphs r.parNum (.ofRecord r) }
  | 4 => d.updateParagraph r fun paragraph => do
      pure { paragraph with lines := ← pushChecked paragraph.lines r.lineNum (.ofRecord r) }
  | 5 => d.updateLine r fun line => do pure { line with words := ← pushChecked line.words r.wordNum (.ofRecord r) }
  | _ => .error .badValue

/-- The loop of `from_tsv_reader` (/repo/src/importers/tesseract.rs:46-49); a record that cannot be read is `none`. -/
def Document.feed (d : Document) : List (Option Record) → Except Err Document
  | [] => .ok d
  | none :: _ => .error .input
  | some r :: rs =>
    match d.feedRecord r with
    | .error e => .error e
    | .ok d => d.feed rs

/-- `from_tsv_reader` (/repo/src/importers/tesseract.rs:37-52), from the records of the file. -/
def Document.fromRecords (rs : List (Option Record)) : Except Err Document := Document.feed ⟨[]⟩ rs

/-- `iter_paragraphs` (/repo/src/importers/tesseract.rs:176-181). -/
def Document.paragraphs (d : Document) : List Paragraph :=
  (d.pages.flatMap Page.blocks).flatMap Block.paragraphs

/-- `Bounds` (/repo/src/importers/tesseract.rs:278-281). -/
structure Bounds where
  min : Int
  max : Int
  deriving DecidableEq

/-- `Word::horiz_bounds` (/repo/src/importers/tesseract.rs:258-263). -/
def Word.horizBounds (w : Word) : Bounds := ⟨w.left, w.left + w.width⟩

/-- `Bounds::overlaps` (/repo/src/importers/tesseract.rs:284-286). -/
def Bounds.overlaps (a b : Bounds) : Bool := decide (a.max > b.min) && decide (a.min < b.max)

end Tesseract
end Verif
