import Verif.Model.MergePosting

/-!
# Indexed transactions (/repo/src/merge/transaction.rs)
-/

namespace Verif

/-- `transaction::Holder` (/repo/src/merge/transaction.rs:76-80). -/
structure TrnHolder where
  trn : TransactionInternal
  postings : List Nat
  deriving DecidableEq, Inhabited

namespace TrnHolder

/-- `Holder::from_transaction_internal` (/repo/src/merge/transaction.rs:85-90). -/
def fromTransactionInternal (trn : TransactionInternal) : TrnHolder := ⟨trn, []⟩

/-- `Holder::into_transaction_postings` (/repo/src/merge/transaction.rs:92-97). -/
def intoTransactionPostings (self : TrnHolder) (postings : List PostingInternal) : TransactionPostings :=
  ⟨self.trn, postings⟩

end TrnHolder

/-- `IndexedTransactions` (/repo/src/merge/transaction.rs:14-17). -/
structure IndexedTransactions where
  arena : List TrnHolder
  byDate : Std.ExtTreeMap Date (List Nat) compare

namespace IndexedTransactions

/-- `IndexedTransactions::new` (/repo/src/merge/transaction.rs:20-25). -/
def new : IndexedTransactions := ⟨[], ∅⟩

/-- `IndexedTransactions::get` (/repo/src/merge/transaction.rs:52-54). -/
def get (self : IndexedTransactions) (idx : Nat) : Except MergeErr TrnHolder :=
  match self.arena[idx]? with
  | some t => .ok t
  | none => .error (.panic .badTransactionIndex)

/-- `IndexedTransactions::add` (/repo/src/merge/transaction.rs:62-67). -/
def add (self : IndexedTransactions) (trn : TrnHolder) : Nat × IndexedTransactions :=
  let date := trn.trn.raw.date
  let idx := self.arena.length
  (idx, { arena := self.arena ++ [trn]
          byDate := self.byDate.insert date ((self.byDate[date]?).getD [] ++ [idx]) })

/-- `IndexedTransactions::add_post_to_trn` with `get_mut` (/repo/src/merge/transaction.rs:56-60, 69-72). -/
def addPostToTrn (self : IndexedTransactions) (trnIdx postIdx : Nat) : Except MergeErr Unit × IndexedTransactions :=
  match self.arena[trnIdx]? with
  | none => (.error (.panic .badTransactionIndex), self)
  | some t => (.ok (), { self with arena := self.arena.set trnIdx { t with postings := t.postings ++ [postIdx] } })

/-- Removing the transactions of one date from the arena (/repo/src/merge/transaction.rs:36-39). -/
def takeHolders : List Nat → List (Option TrnHolder) → Except MergeErr (List TrnHolder × List (Option TrnHolder))
  | [], arena => .ok ([], arena)
  | i :: is, arena =>
    match arena[i]? with
    | some (some t) => do
      let (ts, arena) ← takeHolders is (arena.set i none)
      return (t :: ts, arena)
    | _ => .error (.panic .badTransactionIndex)

/-- The `map` over `trns_by_date` (/repo/src/merge/transaction.rs:31-42), in iteration order. -/
def takeDates : List (Date × List Nat) → List (Option TrnHolder) → Except MergeErr (List (Date × List TrnHolder))
  | [], _ => .ok []
  | (date, indices) :: rest, arena => do
    let (holders, arena) ← takeHolders indices arena
    let more ← takeDates rest arena
    return (date, holders) :: more

/-- `IndexedTransactions::into_iter` (/repo/src/merge/transaction.rs:29-48). `sort_by` is a stable sort. -/
def intoIter (h : HashOrder) (self : IndexedTransactions) : Except MergeErr (List TrnHolder) := do
  let dateTrns ← takeDates (h.iter .trnsByDate self.byDate.toList) (self.arena.map some)
  let sorted := dateTrns.mergeSort (fun a b => (compare a.1 b.1).isLE)
  return sorted.flatMap (fun e => e.2)

end IndexedTransactions
end Verif
