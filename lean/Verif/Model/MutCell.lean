/-!
# `MutCell` (/repo/src/mutcell.rs)
-/

namespace Verif

/-- A panic with its cause (/repo/src/mutcell.rs:25, /repo/src/merge/posting.rs:15,323, /repo/src/merge/transaction.rs:9). -/
inductive Panic where
  /-- `BAD_POSTING_INDEX` (/repo/src/merge/posting.rs:15). -/
  | badPostingIndex
  /-- `BAD_TRANSACTION_INDEX` (/repo/src/merge/transaction.rs:9). -/
  | badTransactionIndex
  /-- "must always have a fingerprint tag" (/repo/src/merge/posting.rs:323). -/
  | noPrimaryFingerprint
  /-- "poisoned" (/repo/src/mutcell.rs:25,49,60,70). -/
  | poisoned
  /-- any other panic raised inside a user function. -/
  | other
  deriving DecidableEq, Repr

/-- `MutCell<T>` and `State<T>` (/repo/src/mutcell.rs:8-13). -/
inductive MutCell (α : Type) where
  | poisoned
  | value (a : α)
  deriving DecidableEq, Repr

namespace MutCell
variable {α : Type}

/-- `MutCell::new` (/repo/src/mutcell.rs:17-19). -/
def new (v : α) : MutCell α := value v

/-- `MutCell::into_inner`, `AsRef::as_ref` (/repo/src/mutcell.rs:22-28, 65-73). -/
def intoInner : MutCell α → Except Panic α
  | poisoned => .error .poisoned
  | value v => .ok v

/-- `MutCell::is_poisoned` (/repo/src/mutcell.rs:31-37). -/
def isPoisoned : MutCell α → Bool
  | poisoned => true
  | value _ => false

/-- `MutCell::map_value` (/repo/src/mutcell.rs:43-52): the cell is poisoned while `f` runs and stays
poisoned when `f` panics. Returns whether the call panicked, and the cell afterwards. -/
def mapValue (c : MutCell α) (f : α → Except Panic α) : Except Panic Unit × MutCell α :=
  match c with
  | poisoned => (.error .poisoned, poisoned)
  | value v =>
    match f v with
    | .ok v' => (.ok (), value v')
    | .error p => (.error p, poisoned)

/-- `AsMut::as_mut` followed by an in-place update (/repo/src/mutcell.rs:55-63). -/
def asMut (c : MutCell α) (f : α → α) : Except Panic Unit × MutCell α :=
  match c with
  | poisoned => (.error .poisoned, poisoned)
  | value v => (.ok (), value (f v))

/-- `Clone for MutCell` (/repo/src/mutcell.rs:75-82). -/
def clone (c : MutCell α) : Except Panic (MutCell α) := c.intoInner.map value

/-- `PartialEq for MutCell` (/repo/src/mutcell.rs:120-127). -/
def eq [DecidableEq α] (a b : MutCell α) : Except Panic Bool := do
  let x ← a.intoInner
  let y ← b.intoInner
  return decide (x = y)

end MutCell
end Verif
