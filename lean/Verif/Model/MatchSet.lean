/-!
# `MatchSet` (/repo/src/merge/matchset.rs)
-/

namespace Verif

/-- `MatchSet<T>` (/repo/src/merge/matchset.rs:1-10). -/
inductive MatchSet (α : Type) where
  | zero
  | one (a : α)
  | many (as : List α)
  deriving Repr, DecidableEq

namespace MatchSet
variable {α : Type} [DecidableEq α]

/-- `MatchSet::insert` (/repo/src/merge/matchset.rs:70-91). -/
def insert (m : MatchSet α) (v : α) : MatchSet α :=
  match m with
  | zero => one v
  | one e => if e = v then one e else many [e, v]
  | many vs => if vs.contains v then many vs else many (vs ++ [v])

/-- `FromIterator for MatchSet` (/repo/src/merge/matchset.rs:36-48). -/
def fromIter (l : List α) : MatchSet α := l.foldl insert zero

omit [DecidableEq α] in
/-- `MatchSet::len` (/repo/src/merge/matchset.rs:52-59). -/
def len : MatchSet α → Nat
  | zero => 0
  | one _ => 1
  | many vs => vs.length

/-- `IterInner` (/repo/src/merge/matchset.rs:177-181); `Vec`'s iterator is its remaining elements. -/
inductive Iter (α : Type) where
  | zero
  | one (a : α)
  | many (rest : List α)

/-- `IntoIterator for MatchSet` (/repo/src/merge/matchset.rs:12-34). -/
def intoIter : MatchSet α → Iter α
  | zero => .zero
  | one v => .one v
  | many vs => .many vs

/-- `Iterator::next` for `Iter`/`IntoIter` (/repo/src/merge/matchset.rs:109-128, 145-164). -/
def Iter.next : Iter α → Option α × Iter α
  | .zero => (none, .zero)
  | .one v => (some v, .zero)
  | .many [] => (none, .many [])
  | .many (v :: vs) => (some v, .many vs)

/-- `Iterator::size_hint` (/repo/src/merge/matchset.rs:130-137, 166-173); upper bound always present. -/
def Iter.sizeHint : Iter α → Nat × Option Nat
  | .zero => (0, some 0)
  | .one _ => (1, some 1)
  | .many vs => (vs.length, some vs.length)

/-- `Container::into_iter` collected into a `Vec` (/repo/src/merge/matchset.rs:98-104, call sites
/repo/src/merge/posting.rs:123,136). -/
def containerToList (vs : List α) : List α := vs

end MatchSet
end Verif
