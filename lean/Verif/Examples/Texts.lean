import Verif.Examples.Import
import Verif.Model.ReadText
import Verif.Spec.Csv

/-!
# Texts of files for examples
-/

namespace Verif.Ex

/-- The text of a test (/repo/testdata/importers/nationwide_csv_5.csv). -/
def text5 : Str :=
  ["\"Account Name:\",\"My Account ****4321\"\n",
   "\"Account Balance:\",\"£-123.45\"\n",
   "\"Available Balance: \",\"£500.00\"\n",
   "\n",
   "\"Date\",\"Transactions\",\"Location\",\"Paid out\",\"Paid in\"\n",
   "\"01 Sep 2021\",\"FOO CO\",\"FOO.CO/THING#\",\"£1.23\",\"\"\n",
   "\"02 Sep 2021\",\"DIRECT DEBIT PAYMENT\",\"\",\"\",\"£50.00\"\n",
   "\"03 Sep 2021\",\"BAR CO\",\"THING#\",\"£4.32\",\"\"\n"].flatMap String.toList

/-- The text of a test (/repo/testdata/importers/nationwide_csv_6.csv). -/
def text6 : Str :=
  ["\"Account Name:\",\"Current\"\n",
   "\"Account Balance:\",\"£150.00\"\n",
   "\"Available Balance: \",\"£150.00\"\n",
   "\n",
   "\"Date\",\"Transaction type\",\"Description\",\"Paid out\",\"Paid in\",\"Balance\"\n",
   "\"01 Jan 2019\",\"ATM\",\"ATM Withdrawal\",\"£30.00\",\"\",\"£200.00\"\n",
   "\"02 Jan 2019\",\"Transfer\",\"Payroll\",\"\",\"£300.00\",\"£500.00\"\n",
   "\"05 Jan 2019\",\"Transfer\",\"Transfer to Savings\",\"£100.00\",\"\",\"£400.00\"\n"].flatMap String.toList

/-- The text of a test (/repo/testdata/importers/paypal_csv.csv). -/
def paypalText : Str :=
  ["\"Date\",\"Time\",\"Time zone\",\"Name\",\"Type\",\"Status\",\"Currency\",\"Amount\",\"Receipt ID\",\"Balance\"\n",
   "\"01/01/2019\",\"01:23:45\",\"GMT\",\"Somecompany Inc.\",\"Pre-approved Payment Bill User Payment\",\"Completed\",\"USD\",\"-5.00\",\"\",\"-5.00\"\n",
   "\"01/01/2019\",\"01:23:45\",\"GMT\",\"\",\"Bank deposit to PayPal account\",\"Pending\",\"GBP\",\"4.32\",\"\",\"4.32\"\n",
   "\"01/01/2019\",\"01:23:45\",\"GMT\",\"\",\"General Currency Conversion\",\"Completed\",\"GBP\",\"-4.32\",\"\",\"0.00\"\n",
   "\"01/01/2019\",\"01:23:45\",\"GMT\",\"\",\"General Currency Conversion\",\"Completed\",\"USD\",\"5.00\",\"\",\"0.00\"\n",
   "\"02/01/2019\",\"12:34:56\",\"GMT\",\"\",\"Bank deposit to PayPal account\",\"Pending\",\"GBP\",\"12.34\",\"\",\"12.34\"\n",
   "\"02/01/2019\",\"12:34:56\",\"GMT\",\"\",\"General Currency Conversion\",\"Completed\",\"GBP\",\"-12.34\",\"\",\"0.00\"\n",
   "\"02/01/2019\",\"12:34:56\",\"GMT\",\"\",\"General Currency Conversion\",\"Completed\",\"USD\",\"13.37\",\"\",\"0.00\"\n",
   "\"02/01/2019\",\"12:34:56\",\"GMT\",\"Othercompany Ltd.\",\"Pre-approved Payment Bill User Payment\",\"Completed\",\"USD\",\"-13.37\",\"\",\"-13.37\"\n"].flatMap String.toList

/-- The text of a test (/repo/testdata/importers/paypal_csv_tz_abbrs.csv). -/
def paypalTzText : Str :=
  ["abbreviation,utc_offset\n",
   "BST,UTC+01\n",
   "GMT,UTC+00\n"].flatMap String.toList

open Tesseract in
/-- The records that Tesseract writes for a document. -/
def recordsOf (d : Document) : List (Record × Int) :=
  d.pages.zipIdx.flatMap fun (page, p) =>
    (⟨1, p + 1, 0, 0, 0, 0, 0, 0, 0, 0, []⟩, -1) :: page.blocks.zipIdx.flatMap fun (block, b) =>
      (⟨2, p + 1, b + 1, 0, 0, 0, 0, 0, 0, 0, []⟩, -1) :: block.paragraphs.zipIdx.flatMap fun (par, q) =>
        (⟨3, p + 1, b + 1, q + 1, 0, 0, 0, 0, 0, 0, []⟩, -1) :: par.lines.zipIdx.flatMap fun (line, l) =>
          (⟨4, p + 1, b + 1, q + 1, l + 1, 0, 0, line.top, 0, line.height, []⟩, -1) :: line.words.zipIdx.map fun (word, w) =>
            (⟨5, p + 1, b + 1, q + 1, l + 1, w + 1, word.left, line.top, word.width, line.height, word.text⟩, 96)

/-- The statement of two pages, as Tesseract writes it, with the first word of the footer of the first page. -/
def pdfText (footer : String) : Str :=
  Spec.Csv.tsvFile (recordsOf (pdfDoc (pdfPage1.dropLast ++ [pdfRow 300 [(100, footer), (400, "1")]]) pdfPage2))

end Verif.Ex
