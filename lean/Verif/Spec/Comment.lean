import Verif.Model.Comment

/-!
# Specification: the text of comments

What a comment looks like in a journal, written without the parser and without regular expressions.
-/

namespace Verif.Spec

/-- A word: what can be a tag or a key. -/
def Word (w : Str) : Prop := w ≠ [] ∧ ':' ∉ w ∧ ' ' ∉ w
instance (w) : Decidable (Word w) := by unfold Word; infer_instance

/-- The text contains a group of flags, such as `:flag:`. -/
def HasFlags (l : Str) : Prop := ∃ a w b, l = a ++ ':' :: (w ++ ':' :: b) ∧ Word w

/-- The line is a key with a value, such as `key: value` or `key:`. -/
def IsValueLine (l : Str) : Prop :=
  ∃ n k tail, l = List.replicate n ' ' ++ k ++ ':' :: tail ∧ Word k ∧ (tail = [] ∨ ∃ v, v ≠ [] ∧ tail = ' ' :: v)

/-- Without white space at the ends. -/
def Trimmed (s : Str) : Prop := (∀ c ∈ s.head?, Str.isWs c = false) ∧ (∀ c ∈ s.getLast?, Str.isWs c = false)
instance (s) : Decidable (Trimmed s) := by unfold Trimmed; infer_instance

/-- A comment in normal form: all its parts can be told apart in its text. -/
structure Normal (c : Comment) : Prop where
  tags : ∀ t ∈ c.tags, Word t ∧ '\n' ∉ t
  keys : ∀ (k v : Str), c.valueTags[k]? = some v → Word k ∧ Trimmed k ∧ '\n' ∉ k
  values : ∀ (k v : Str), c.valueTags[k]? = some v → v ≠ [] ∧ Trimmed v ∧ '\n' ∉ v
  lines : ∀ l ∈ c.lines, l ≠ [] ∧ Trimmed l ∧ '\n' ∉ l ∧ ¬ HasFlags l
  /-- the first line can look like a key with a value if there are tags: it then follows them on their line -/
  notValue : ∀ l ∈ (if c.tags.isEmpty then c.lines else c.lines.tail), ¬ IsValueLine l

/-- A comment in normal form in which no line at all looks like a key with a value. -/
structure Plain (c : Comment) : Prop extends Normal c where
  noValues : ∀ l ∈ c.lines, ¬ IsValueLine l

/-- A comment whose text does not change any more. The lines of text that have a line of their own come in two parts: first
lines that do not look like a value, then `key:` for every key that has an empty value (that line is read as the empty value,
and `key: `, which is written for the empty value, is read as that line). -/
structure Stable (c : Comment) : Prop where
  tags : ∀ t ∈ c.tags, Word t ∧ '\n' ∉ t
  values : ∀ (k v : Str), c.valueTags[k]? = some v → Word k ∧ Trimmed k ∧ '\n' ∉ k ∧ Trimmed v ∧ '\n' ∉ v
  lines : ∀ l ∈ c.lines, l ≠ [] ∧ Trimmed l ∧ '\n' ∉ l ∧ ¬ HasFlags l
  own : ∃ text : List Str, (if c.tags.isEmpty then c.lines else c.lines.tail) =
      text ++ (c.valueTags.toList.filter (fun e => e.2 = [])).map (fun e => e.1 ++ ":".toList) ∧ ∀ l ∈ text, ¬ IsValueLine l

/-- Text with a separator in between. -/
def sepBy (sep : Str) : List Str → Str
  | [] => []
  | a :: as => a ++ as.flatMap (sep ++ ·)

/-- Number of bytes of a text in UTF-8. -/
def bytes (s : Str) : Nat := (s.map Char.utf8Size).sum

/-- The text of a comment as lines: the tags of at most 12 bytes on one line, then the other tags one by one, then the
lines of text, the first of which shares a line with the first tags, then the values. -/
def layout (c : Comment) : List Str :=
  let short := c.tags.toList.filter (fun t => bytes t ≤ 12)
  let long := c.tags.toList.filter (fun t => 12 < bytes t)
  let tags := (if short = [] then [] else [":".toList ++ sepBy ":".toList short ++ ":".toList]) ++
    long.map (fun t => ":".toList ++ t ++ ":".toList)
  let text := c.lines.map Str.trim
  let first := match tags, text with
    | t :: ts, l :: ls => (t ++ " ".toList ++ l) :: (ts ++ ls)
    | ts, ls => ts ++ ls
  first ++ c.valueTags.toList.map (fun e => Str.trim e.1 ++ ": ".toList ++ Str.trim e.2)

end Verif.Spec
