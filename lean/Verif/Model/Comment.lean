import Verif.Model.Ledger

/-!
# `Comment` (data and merging); parsing and formatting are in `Verif.Model.CommentText`.
-/

namespace Verif

/-- `Comment` (/repo/src/comment.rs:12-19). -/
structure Comment where
  /-- Plain text lines in the comment. -/
  lines : List Str
  /-- Tags that are present or not. -/
  tags : TagSet
  /-- Tags that have a string value. -/
  valueTags : StrMap

/-- Equality of comments (`PartialEq`, /repo/src/comment.rs:11), decided on the sorted contents. -/
instance : DecidableEq Comment := fun a b =>
  decidable_of_iff (a.lines = b.lines ∧ a.tags.toList = b.tags.toList ∧ a.valueTags.toList = b.valueTags.toList) <| by
    cases a; cases b
    simp [Std.ExtTreeSet.toList_inj, Std.ExtTreeMap.toList_inj]

namespace Comment

/-- `Comment::new` (/repo/src/comment.rs:23-29). -/
def empty : Comment := ⟨[], ∅, ∅⟩

instance : Inhabited Comment := ⟨empty⟩

/-- The loop over `other.lines` in `merge_from` (/repo/src/comment.rs:147-151). -/
def mergeLines (self : List Str) : List Str → List Str
  | [] => self
  | l :: ls => if self.any (fun s => s == l) then mergeLines self ls else mergeLines (self ++ [l]) ls

/-- `Comment::merge_from` (/repo/src/comment.rs:146-154). `HashSet::extend`/`HashMap::extend` insert every
element; the result of inserting a whole set/map does not depend on the order, so they are modelled by union
(right-biased for maps). -/
def mergeFrom (self other : Comment) : Comment :=
  { lines := mergeLines self.lines other.lines
    tags := self.tags ∪ other.tags
    valueTags := self.valueTags ∪ other.valueTags }

/-- `CommentBuilder::with_tag` (/repo/src/comment.rs:196-199). -/
def withTag (c : Comment) (t : Str) : Comment := { c with tags := c.tags.insert t }

/-- `CommentBuilder::with_option_tag` (/repo/src/comment.rs:189-194). -/
def withOptionTag (c : Comment) : Option Str → Comment
  | some t => c.withTag t
  | none => c

/-- `CommentBuilder::with_value_tag` (/repo/src/comment.rs:212-215). -/
def withValueTag (c : Comment) (k v : Str) : Comment := { c with valueTags := c.valueTags.insert k v }

/-- `CommentBuilder::with_option_value_tag` (/repo/src/comment.rs:201-210). -/
def withOptionValueTag (c : Comment) (k : Str) : Option Str → Comment
  | some v => c.withValueTag k v
  | none => c

end Comment
end Verif
