import Verif.Model.MatchSet
import Verif.Model.MutCell

/-!
# Specification: what small containers do
-/

namespace Verif.Spec

/-- An iterator gives these elements and then no more, and before each step it announces the right number of elements. -/
inductive Yields {α : Type} : MatchSet.Iter α → List α → Prop where
  | done {it} : it.next = (none, it) → it.sizeHint = (0, some 0) → Yields it []
  | step {it it' a l} : it.next = (some a, it') → it.sizeHint = (l.length + 1, some (l.length + 1)) → Yields it' l → Yields it (a :: l)

/-- The distinct elements of a sequence, in the order of their first occurrences. -/
def distinct {α : Type} [DecidableEq α] : List α → List α
  | [] => []
  | a :: l => a :: (distinct l).filter (· ≠ a)

/-- An access to a cell. -/
inductive CellOp (α : Type) where
  /-- replace the value by the result of a function that can panic -/
  | map (f : α → Except Panic α)
  /-- change the value in place -/
  | modify (f : α → α)
  /-- look at the value -/
  | read
  /-- copy the cell -/
  | clone
  /-- take the value out (of a copy of the cell) -/
  | inner

/-- What an access does to the value. -/
def CellOp.effect {α : Type} : CellOp α → α → Except Panic α
  | .map f, v => f v
  | .modify f, v => .ok (f v)
  | _, v => .ok v

/-- Run accesses on a cell: for each whether it panicked, and the cell at the end. -/
def runCell {α : Type} : MutCell α → List (CellOp α) → List (Except Panic Unit) × MutCell α
  | c, [] => ([], c)
  | c, op :: ops =>
    let (r, c') := match op with
      | .map f => c.mapValue f
      | .modify f => c.asMut f
      | .read => (c.intoInner.map fun _ => (), c)
      | .clone => (c.clone.map fun _ => (), c)
      | .inner => (c.intoInner.map fun _ => (), c)
    let (rs, c'') := runCell c' ops
    (r :: rs, c'')

end Verif.Spec
