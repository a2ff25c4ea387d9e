import Verif.Model.ReadText
import Verif.Model.CommentText

/-!
# Optical character recognition of statements (`ocr_document`, /repo/src/importers/nationwide_pdf.rs:76-152)

Two programs are run: GraphicsMagick writes an image for each page into a new directory, and Tesseract reads the images in a list. The
model has their results as parameters. Errors of the file system and names that are not UTF-8 are not modelled.
-/

namespace Verif
namespace Ocr

/-- How a program ended: its exit status and what it left. It is an error that it cannot be started
(/repo/src/importers/nationwide_pdf.rs:101-104, 140-143). -/
structure Ran (α : Type) where
  success : Bool
  left : α

/-- The two programs (/repo/src/importers/nationwide_pdf.rs:87-105, 124-144); `none` if one cannot be started. -/
structure Programs where
  /-- the numbers of the pages for which there are images; pages are counted from 0 (/repo/src/importers/nationwide_pdf.rs:88-104) -/
  convert : Option (Ran (List Nat))
  /-- the text that is written for a list of images, if any (/repo/src/importers/nationwide_pdf.rs:123-144) -/
  recognise : List Str → Option (Ran (Option Str))

/-- `%02d` (/repo/src/importers/nationwide_pdf.rs:88): at least two digits. -/
def twoDigits (i : Nat) : Str := if i < 10 then '0' :: Nat.toDigits 10 i else Nat.toDigits 10 i

/-- The name of the image of a page: `page-%02d.png` (/repo/src/importers/nationwide_pdf.rs:88). -/
def pageName (i : Nat) : Str := "page-".toList ++ twoDigits i ++ ".png".toList

/-- The list of images (/repo/src/importers/nationwide_pdf.rs:107-121): `glob` gives names in alphabetical order. -/
def listing (pages : List Nat) : List Str := sortBy Comment.strLe (pages.map pageName)

/-- `ocr_document` (/repo/src/importers/nationwide_pdf.rs:76-152). `status()` succeeds whatever the exit status is; a file that is not
there cannot be opened (line 148). -/
def ocrDocument (p : Programs) : Except Tesseract.Err Tesseract.Document :=
  match p.convert with
  | none => .error .input
  | some images =>
    match p.recognise (listing images.left) with
    | none => .error .input
    | some text =>
      match text.left with
      | none => .error .input
      | some tsv => Tesseract.Document.fromTsv tsv

end Ocr
end Verif
