import Verif.Model.NationwidePdf
import Verif.Model.PaypalCsv
import Verif.Props.Comments
import Verif.Examples.Base

/-!
# Library functions for examples of imports

Simple versions of the library functions, which the kernel can evaluate. They agree with the real ones on the texts in the examples.
-/

namespace Verif.Ex
open NationwideCsv

/-- A number in decimal digits. -/
def nat? (s : Str) : Option Nat := if s ≠ [] ∧ s.all Char.isDigit then some (Nat.ofDigitChars 10 s 0) else none

/-- The names of the months. -/
def monthNames : List Str := ["Jan", "Feb", "Mar", "Apr", "May", "Jun", "Jul", "Aug", "Sep", "Oct", "Nov", "Dec"].map String.toList

/-- The number of a month. -/
def month? (s : Str) : Option Nat := if s ∈ monthNames then some (monthNames.findIdx (· = s) + 1) else none

/-- A date such as `29 Feb 2020`. -/
def dayMonYear? (s : Str) : Option Date :=
  match Str.splitOn ' ' s with
  | [d, m, y] =>
    match nat? d, month? m, nat? y with
    | some d, some m, some y => if d ≤ 31 ∧ y ≤ 9999 then some ⟨y, m, d⟩ else none
    | _, _, _ => none
  | _ => none

/-- A date such as `29/02/2020`. -/
def slashes? (s : Str) : Option Date :=
  match (Str.splitOn '/' s).map nat? with
  | [some d, some m, some y] => some ⟨y, m, d⟩
  | _ => none

/-- A time such as `12:34:56`. -/
def colons? (s : Str) : Option Time :=
  match (Str.splitOn ':' s).map nat? with
  | [some h, some m, some x] => some ⟨h, m, x, 0⟩
  | _ => none

/-- A number such as `-1.50`. -/
def decimal? (s : Str) : Option Decimal :=
  let digits := s.filter (· ≠ '-')
  match Str.splitOn '.' digits with
  | [a, b] =>
    match nat? (a ++ b) with
    | some n => some ⟨s.head? = some '-', n, b.length⟩
    | none => none
  | [a] =>
    match nat? a with
    | some n => some ⟨s.head? = some '-', n, 0⟩
    | none => none
  | _ => none

/-- The number as it comes through a floating point number: without zeros at the end. -/
def decimalField? (s : Str) : Option Decimal :=
  match Str.splitOn '.' s with
  | [a, b] => decimal? (a ++ '.' :: (b.reverse.dropWhile (· = '0')).reverse)
  | _ => decimal? s

/-- The library functions. -/
def lib : ImportLib where
  sha1 := Sha1.digest
  order := HashOrder.sorted
  digit := Char.isDigit
  digit_ascii _ _ := rfl
  dateDayMonYear := dayMonYear?
  dateSlashes := slashes?
  timeColons := colons?
  dateEffective s := dayMonYear? (s.drop 15)
  decimal := decimal?
  decimalField := decimalField?
  day := nat?
  month := month?
  year s := (nat? s).map Int.ofNat
  validDate _ m d := 1 ≤ m && m ≤ 12 && 1 ≤ d && d ≤ 31
  localDate i := if i.1 < PaypalCsv.daysFromCivil ⟨2019, 1, 2⟩ * 86400 then ⟨2019, 1, 1⟩ else ⟨2019, 1, 2⟩

/-- With a hash function that has no collisions. -/
def plainLib : ImportLib := { lib with sha1 := id }

/-- Records of a file. -/
def rows (f : List (List String)) : List (Option Row) := f.map fun r => some (r.map String.toList)

/-- The file of the test with five columns (/repo/testdata/importers/nationwide_csv_5.csv). -/
def file5 : List (Option Row) := rows
  [["Account Name:", "My Account ****4321"], ["Account Balance:", "£-123.45"], ["Available Balance:", "£500.00"],
   ["Date", "Transactions", "Location", "Paid out", "Paid in"],
   ["01 Sep 2021", "FOO CO", "FOO.CO/THING#", "£1.23", ""],
   ["02 Sep 2021", "DIRECT DEBIT PAYMENT", "", "", "£50.00"],
   ["03 Sep 2021", "BAR CO", "THING#", "£4.32", ""]]

/-- The file of the test with six columns (/repo/testdata/importers/nationwide_csv_6.csv). -/
def file6 : List (Option Row) := rows
  [["Account Name:", "Current"], ["Account Balance:", "£150.00"], ["Available Balance:", "£150.00"],
   ["Date", "Transaction type", "Description", "Paid out", "Paid in", "Balance"],
   ["01 Jan 2019", "ATM", "ATM Withdrawal", "£30.00", "", "£200.00"],
   ["02 Jan 2019", "Transfer", "Payroll", "", "£300.00", "£500.00"],
   ["05 Jan 2019", "Transfer", "Transfer to Savings", "£100.00", "", "£400.00"]]

/-- The file of the test for PayPal (/repo/testdata/importers/paypal_csv.csv). -/
def paypalHeaders : Row :=
  ["Date", "Time", "Time zone", "Name", "Type", "Status", "Currency", "Amount", "Receipt ID", "Balance"].map String.toList

/-- Its rows. -/
def paypalRows : List (Option Row) := rows
  [["01/01/2019", "01:23:45", "GMT", "Somecompany Inc.", "Pre-approved Payment Bill User Payment", "Completed", "USD", "-5.00", "", "-5.00"],
   ["01/01/2019", "01:23:45", "GMT", "", "Bank deposit to PayPal account", "Pending", "GBP", "4.32", "", "4.32"],
   ["01/01/2019", "01:23:45", "GMT", "", "General Currency Conversion", "Completed", "GBP", "-4.32", "", "0.00"],
   ["01/01/2019", "01:23:45", "GMT", "", "General Currency Conversion", "Completed", "USD", "5.00", "", "0.00"],
   ["02/01/2019", "12:34:56", "GMT", "", "Bank deposit to PayPal account", "Pending", "GBP", "12.34", "", "12.34"],
   ["02/01/2019", "12:34:56", "GMT", "", "General Currency Conversion", "Completed", "GBP", "-12.34", "", "0.00"],
   ["02/01/2019", "12:34:56", "GMT", "", "General Currency Conversion", "Completed", "USD", "13.37", "", "0.00"],
   ["02/01/2019", "12:34:56", "GMT", "Othercompany Ltd.", "Pre-approved Payment Bill User Payment", "Completed", "USD", "-13.37", "", "-13.37"]]

/-- The table of time zones of the test (/repo/testdata/importers/paypal_csv_tz_abbrs.csv). -/
def paypalTz : List (Option TzAbbr.Record) := [some ⟨"BST".toList, "UTC+01".toList⟩, some ⟨"GMT".toList, "UTC+00".toList⟩]

/-- A file with rows of a date before and after those of another. -/
def mixed5 : List (Option Row) := rows
  [["Account Name:", "My Account ****4321"], ["Account Balance:", "£-123.45"], ["Available Balance:", "£500.00"],
   ["Date", "Transactions", "Location", "Paid out", "Paid in"],
   ["01 Sep 2021", "COFFEE", "SHOP", "£1.23", ""],
   ["02 Sep 2021", "TEA", "SHOP", "£1.50", ""],
   ["01 Sep 2021", "COFFEE", "SHOP", "£1.23", ""]]

/-- A file with rows of a date before and after those of another. -/
def mixed6 : List (Option Row) := rows
  [["Account Name:", "Current"], ["Account Balance:", "£150.00"], ["Available Balance:", "£150.00"],
   ["Date", "Transaction type", "Description", "Paid out", "Paid in", "Balance"],
   ["01 Jan 2019", "Transfer", "Bob", "", "£30.00", "£200.00"],
   ["02 Jan 2019", "Transfer", "Bob", "£30.00", "", "£170.00"],
   ["01 Jan 2019", "Transfer", "Bob", "", "£30.00", "£200.00"]]

/-- A line of a document, from the positions and texts of its words. -/
def pdfRow (top : Int) (ws : List (Int × String)) : Tesseract.Line :=
  ⟨1, top, 10, ws.zipIdx.map fun w => ⟨w.2 + 1, w.1.1, 40, w.1.2.toList⟩⟩

/-- The headings of a table. -/
def pdfHead (top : Int) : Tesseract.Line := pdfRow top [(0, "Date"), (100, "Details"), (400, "Payments"), (500, "Receipts"), (600, "Balance")]

/-- A document with the number of the account and tables on two pages. -/
def pdfDoc (page1 page2 : List Tesseract.Line) : Tesseract.Document :=
  ⟨[⟨1, [⟨1, [⟨1, [pdfRow 10 [(0, "Account"), (100, "Number"), (200, "12-34-56"), (300, "12345678")]]⟩, ⟨2, pdfHead 100 :: page1⟩]⟩]⟩,
    ⟨2, [⟨1, [⟨1, pdfHead 100 :: page2⟩]⟩]⟩]⟩

/-- The first page of a statement: payments for coffee in two lines each on the same day, and a footer. -/
def pdfPage1 : List Tesseract.Line :=
  [pdfRow 110 [(0, "2019"), (100, "Balance"), (600, "1,100.00")],
   pdfRow 120 [(0, "01"), (20, "Jan"), (100, "Coffee"), (400, "3.00")],
   pdfRow 130 [(100, "Shop"), (600, "1,097.00")],
   pdfRow 140 [(100, "Coffee"), (400, "3.00")],
   pdfRow 150 [(100, "Shop")],
   pdfRow 160 [(100, "Effective"), (150, "Date"), (200, "02"), (250, "Jan"), (300, "2019"), (600, "1,094.00")],
   pdfRow 300 [(100, "Page"), (400, "1")]]

/-- The second page of a statement. -/
def pdfPage2 : List Tesseract.Line :=
  [pdfRow 110 [(0, "2019"), (100, "Balance"), (600, "1,094.00")],
   pdfRow 120 [(0, "02"), (20, "Jan"), (100, "Salary"), (500, "1,000.00"), (600, "2,094.00")]]

/-- A first page that ends within a payment. -/
def pdfBreak1 : List Tesseract.Line :=
  [pdfRow 110 [(0, "2019")], pdfRow 120 [(0, "01"), (20, "Jan"), (100, "Coffee"), (400, "3.00")]]

/-- A second page that begins with the rest of the payment, before a payment of the same day. -/
def pdfBreak2 : List Tesseract.Line :=
  [pdfRow 110 [(0, "2019")], pdfRow 120 [(100, "Shop")], pdfRow 130 [(0, "01"), (20, "Jan"), (100, "Coffee"), (400, "3.00")], pdfRow 140 [(100, "Shop")]]

end Verif.Ex
