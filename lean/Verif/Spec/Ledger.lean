import Verif.Model.Convert
import Verif.Spec.Comment

/-!
# Specification: ledgers and internal transactions
-/

namespace Verif.Spec
open Comment

/-- An item that is neither a transaction nor a blank line. -/
def isOther : LedgerItem → Bool
  | .other _ => true
  | _ => false

/-- The transactions in the items of a ledger, in order. -/
def transactionsOf (items : List LedgerItem) : List Transaction :=
  items.filterMap fun
    | .transaction t => some t
    | _ => none

/-- A posting read back from its text: the comment is formatted and parsed, and moves out of the raw posting. -/
def rereadPost (h : HashOrder) (p : PostingInternal) : PostingInternal :=
  ⟨{ p.raw with comment := none }, fromOptComment (intoOptComment h p.comment)⟩

/-- A transaction read back from its text. -/
def reread (h : HashOrder) (t : TransactionPostings) : TransactionPostings :=
  ⟨⟨{ t.trn.raw with comment := none, postings := [] }, fromOptComment (intoOptComment h t.trn.comment)⟩,
   t.posts.map (rereadPost h)⟩

/-- The parts of an internal transaction are where they belong: no comment and no postings are left in the raw parts,
and the comments are in normal form. -/
structure Tidy (t : TransactionPostings) : Prop where
  trnComment : t.trn.raw.comment = none
  trnPostings : t.trn.raw.postings = []
  trn : Normal t.trn.comment
  postComment : ∀ p ∈ t.posts, p.raw.comment = none
  post : ∀ p ∈ t.posts, Normal p.comment

end Verif.Spec
