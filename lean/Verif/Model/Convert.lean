import Verif.Model.CommentText
import Verif.Model.Internal

/-!
# Conversions between ledgers and internal transactions (/repo/src/internal.rs, /repo/src/ledgerutil.rs)
-/

namespace Verif

/-- `From<Posting> for PostingInternal` (/repo/src/internal.rs:100-106). -/
def PostingInternal.ofPosting (raw : Posting) : PostingInternal :=
  ⟨{ raw with comment := none }, Comment.fromOptComment raw.comment⟩

/-- `Into<Posting> for PostingInternal` (/repo/src/internal.rs:109-114); `clone_into_posting`
(/repo/src/internal.rs:95-97) is the same function. -/
def PostingInternal.intoPosting (h : HashOrder) (self : PostingInternal) : Posting :=
  { self.raw with comment := self.comment.intoOptComment h }

/-- `From<Transaction> for TransactionInternal` (/repo/src/internal.rs:16-22). -/
def TransactionInternal.ofTransaction (raw : Transaction) : TransactionInternal :=
  ⟨{ raw with comment := none }, Comment.fromOptComment raw.comment⟩

/-- `Into<Transaction> for TransactionInternal` (/repo/src/internal.rs:25-30). -/
def TransactionInternal.intoTransaction (h : HashOrder) (self : TransactionInternal) : Transaction :=
  { self.raw with comment := self.comment.intoOptComment h }

namespace TransactionPostings

/-- `From<Transaction> for TransactionPostings` (/repo/src/internal.rs:62-69). `mem::take` leaves an empty list. -/
def ofTransaction (rawTrn : Transaction) : TransactionPostings :=
  let rawPosts := rawTrn.postings
  ⟨TransactionInternal.ofTransaction { rawTrn with postings := [] }, rawPosts.map PostingInternal.ofPosting⟩

/-- `Into<Transaction> for TransactionPostings` (/repo/src/internal.rs:72-79). -/
def intoTransaction (h : HashOrder) (self : TransactionPostings) : Transaction :=
  let rawPosts := self.posts.map (PostingInternal.intoPosting h)
  { self.trn.intoTransaction h with postings := rawPosts }

/-- `TransactionPostings::from_ledger` (/repo/src/internal.rs:42-55): `collect` stops at the first error. -/
def fromItems : List LedgerItem → Option (List TransactionPostings)
  | [] => some []
  | .transaction trn :: rest => (fromItems rest).map (ofTransaction trn :: ·)
  | .emptyLine :: rest => fromItems rest
  | .other _ :: _ => none

/-- `TransactionPostings::from_ledger` (/repo/src/internal.rs:42-55). `none` is the error. -/
def fromLedger (l : Ledger) : Option (List TransactionPostings) := fromItems l.items

end TransactionPostings

/-- `itertools::intersperse` (call site /repo/src/ledgerutil.rs:19). -/
def intersperse {α : Type} (sep : α) : List α → List α
  | [] => []
  | [a] => [a]
  | a :: b :: rest => a :: sep :: intersperse sep (b :: rest)

/-- `ledger_from_transactions` (/repo/src/ledgerutil.rs:14-25). -/
def ledgerFromTransactions (ts : List Transaction) : Ledger :=
  ⟨intersperse .emptyLine (ts.map .transaction)⟩

/-- `TransactionPostings::into_ledger` (/repo/src/internal.rs:57-59). -/
def TransactionPostings.intoLedger (h : HashOrder) (trns : List TransactionPostings) : Ledger :=
  ledgerFromTransactions (trns.map (TransactionPostings.intoTransaction h))

/-- `simple_posting_amount` (/repo/src/ledgerutil.rs:6-12). -/
def simplePostingAmount (amount : Amount) : PostingAmount := ⟨amount, none, none⟩

end Verif
