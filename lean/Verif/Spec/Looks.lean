import Verif.Spec.Rules

/-!
# Specification: what rules can see of a transaction, and what they write into it
-/

namespace Verif.Spec.Looks
open Verif

/-- What rules can see of a posting. -/
structure View where
  account : Str
  tags : TagSet
  valueTags : StrMap

/-- What rules can see of a transaction: its postings and, if it has any, its description. -/
structure Seen where
  description : Option Str
  posts : List View

def view (p : PostingInternal) : View := ⟨p.raw.account, p.comment.tags, p.comment.valueTags⟩

def seen (t : TransactionPostings) : Seen := ⟨if t.posts = [] then none else some t.trn.raw.description, t.posts.map view⟩

/-- A change of the tags of a header. -/
inductive TagEdit where
  | add (tag : Str)
  | remove (tag : Str)
  | set (key value : Str)
  | unset (key : Str)

def TagEdit.apply (c : Comment) : TagEdit → Comment
  | .add tag => ⟨c.lines, c.tags.insert tag, c.valueTags⟩
  | .remove tag => ⟨c.lines, c.tags.erase tag, c.valueTags⟩
  | .set key value => ⟨c.lines, c.tags, c.valueTags.insert key value⟩
  | .unset key => ⟨c.lines, c.tags, c.valueTags.erase key⟩

/-- What is written: a description or none, changes of the tags of the header, account and tags of each posting. -/
structure Written where
  description : Option Str
  header : List TagEdit
  posts : List View

/-- A posting with another account and other tags. -/
def dress (p : PostingInternal) (v : View) : PostingInternal :=
  ⟨{ p.raw with account := v.account }, ⟨p.comment.lines, v.tags, v.valueTags⟩⟩

/-- A transaction with that written into it. -/
def put (t : TransactionPostings) (w : Written) : TransactionPostings :=
  ⟨⟨{ t.trn.raw with description := w.description.getD t.trn.raw.description }, w.header.foldl TagEdit.apply t.trn.comment⟩,
    List.zipWith dress t.posts w.posts⟩

end Verif.Spec.Looks
