import Verif.Spec.Comment
import Verif.Model.Tesseract

/-!
# What it means that a text is a table

Independent of how texts are read: the ways to write a field, a row and a table, and how Tesseract writes its file.
-/

namespace Verif.Spec.Csv

/-- A character that ends a line. -/
def LineEnd (c : Char) : Prop := c = '\n' ∨ c = '\r'

/-- A field that can be written without quotes: it has no delimiter and no line end, and does not begin with a double quote. Double
quotes elsewhere stand for themselves. -/
structure Plain (delim : Char) (f : Str) : Prop where
  delim : delim ∉ f
  ends : ∀ c ∈ f, ¬ LineEnd c
  quote : f.head? ≠ some '"'

/-- A field with each double quote doubled. -/
def doubled : Str → Str
  | [] => []
  | c :: f => if c = '"' then '"' :: '"' :: doubled f else c :: doubled f

/-- The ways to write a field. -/
inductive FieldText (delim : Char) : Str → Str → Prop where
  | plain {f : Str} : Plain delim f → FieldText delim f f
  | quoted (f : Str) : FieldText delim f ('"' :: doubled f ++ ['"'])

/-- The ways to write a row: its fields with delimiters between them. -/
inductive RowText (delim : Char) : List Str → Str → Prop where
  | one {f s : Str} : FieldText delim f s → RowText delim [f] s
  | more {f s : Str} {fs : List Str} {t : Str} : FieldText delim f s → RowText delim fs t → RowText delim (f :: fs) (s ++ delim :: t)

/-- The ways to write a table: rows that are not written as nothing, with line ends behind them and any number of further line ends
anywhere between lines. -/
inductive TableText (delim : Char) : List (List Str) → Str → Prop where
  | nil : TableText delim [] []
  | blank {c : Char} {rows : List (List Str)} {t : Str} : LineEnd c → TableText delim rows t → TableText delim rows (c :: t)
  | row {r : List Str} {s : Str} {c : Char} {rows : List (List Str)} {t : Str} : RowText delim r s → s ≠ [] → LineEnd c →
      TableText delim rows t → TableText delim (r :: rows) (s ++ c :: t)
  | last {r : List Str} {s : Str} : RowText delim r s → s ≠ [] → TableText delim [r] s

/-- A number in decimal digits. -/
def numeral (n : Int) : Str := if n < 0 then '-' :: Nat.toDigits 10 n.natAbs else Nat.toDigits 10 n.natAbs

/-- The fields in the first line of a file that Tesseract writes. -/
def tsvNames : List Str :=
  ["level".toList, "page_num".toList, "block_num".toList, "par_num".toList, "line_num".toList, "word_num".toList, "left".toList,
    "top".toList, "width".toList, "height".toList, "conf".toList, "text".toList]

/-- The fields of a record in such a file. The confidence is a number too. -/
def tsvFields (r : Tesseract.Record) (conf : Int) : List Str :=
  [numeral r.level, numeral r.pageNum, numeral r.blockNum, numeral r.parNum, numeral r.lineNum, numeral r.wordNum, numeral r.left,
    numeral r.top, numeral r.width, numeral r.height, numeral conf, r.text]

/-- A line of such a file: Tesseract writes fields as they are, with tabs between them. -/
def tsvLine (fields : List Str) : Str := Str.join ['\t'] fields ++ ['\n']

/-- The file. -/
def tsvFile (rs : List (Tesseract.Record × Int)) : Str :=
  tsvLine tsvNames ++ rs.flatMap fun r => tsvLine (tsvFields r.1 r.2)

/-- The numbers of a record are of 32 bits, as they are in the program. -/
def InRange (r : Tesseract.Record × Int) : Prop :=
  ∀ n ∈ [r.1.level, r.1.pageNum, r.1.blockNum, r.1.parNum, r.1.lineNum, r.1.wordNum, r.1.left, r.1.top, r.1.width, r.1.height, r.2],
    -2147483648 ≤ n ∧ n ≤ 2147483647

/-- The text is one word: no line ends, no tabs, no white space at its ends. -/
structure OneWord (s : Str) : Prop where
  tab : '\t' ∉ s
  ends : ∀ c ∈ s, ¬ LineEnd c
  trim : Trimmed s

/-- A row has a value in the column with that name. -/
def Under (headers row : List Str) (name v : Str) : Prop := ∃ i : Nat, headers[i]? = some name ∧ row[i]? = some v

/-- The value of a digit. -/
inductive DigitValue : Char → Nat → Prop where
  | decimal {k : Nat} : k < 10 → DigitValue (Char.ofNat (48 + k)) k
  | lower {k : Nat} : k < 26 → DigitValue (Char.ofNat (97 + k)) (10 + k)
  | upper {k : Nat} : k < 26 → DigitValue (Char.ofNat (65 + k)) (10 + k)

/-- The value of digits: each further digit makes it `radix` times larger and adds its own. -/
inductive DigitsValue (radix : Nat) : Str → Nat → Prop where
  | one {c : Char} {k : Nat} : DigitValue c k → k < radix → DigitsValue radix [c] k
  | more {s : Str} {n : Nat} {c : Char} {k : Nat} : DigitsValue radix s n → DigitValue c k → k < radix → DigitsValue radix (s ++ [c]) (n * radix + k)

/-- Digits with or without a sign. -/
def Signed (radix : Nat) (s : Str) (n : Int) : Prop :=
  ∃ (ds : Str) (v : Nat), DigitsValue radix ds v ∧ (s = '-' :: ds ∧ n = -(v : Int) ∨ s = '+' :: ds ∧ n = v ∨ s = ds ∧ n = v)

/-- The text is a number of 32 bits: decimal, or hexadecimal behind `0x`. -/
def IsNumber (s : Str) (n : Int) : Prop :=
  (-2147483648 ≤ n ∧ n ≤ 2147483647) ∧ ((∃ t, s = '0' :: 'x' :: t ∧ Signed 16 t n) ∨ Signed 10 s n)

/-- A row says a record: every field of the record is in the column with its name, and no such column is there twice. -/
structure Says (headers row : List Str) (r : Tesseract.Record) : Prop where
  length : row.length = headers.length
  once : ∀ n ∈ tsvNames, ∀ i j : Nat, headers[i]? = some n → headers[j]? = some n → i = j
  numbers : ∀ e ∈ [("level", r.level), ("page_num", r.pageNum), ("block_num", r.blockNum), ("par_num", r.parNum), ("line_num", r.lineNum),
      ("word_num", r.wordNum), ("left", r.left), ("top", r.top), ("width", r.width), ("height", r.height)],
    ∃ s, Under headers row e.1.toList s ∧ IsNumber s e.2
  conf : ∃ s n, Under headers row "conf".toList s ∧ IsNumber s n
  text : Under headers row "text".toList r.text

end Verif.Spec.Csv
