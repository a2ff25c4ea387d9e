import Verif.Model.Merger

/-!
# Arenas and hash tables of indices

Model/MergePosting and Model/MergeTransaction have the arenas as lists and an index as a number, and the hash containers whose keys are indices as
finite maps. Here are the arenas with generations, the keys with the `Eq` and `Hash` that the code gives them, and hash tables that use these;
Props/Arena says that it makes no difference.
-/

namespace Verif

/-- `StandardIndex` (/repo/src/merge/posting.rs:18, /repo/src/merge/transaction.rs:12): a position and a generation. -/
structure GenIndex where
  arrIdx : Nat
  gen : Nat
  deriving DecidableEq, Repr

/-- `StandardArena` (/repo/src/merge/posting.rs:17, /repo/src/merge/transaction.rs:11). Code of the crate typed-generational-arena, from its
documentation. Simplified: the free places are a list and not linked to each other, and numbers are unbounded. -/
structure GenArena (α : Type) where
  slots : List (Option (Nat × α))
  generation : Nat
  free : List Nat
  deriving DecidableEq, Repr

namespace GenArena
variable {α : Type}

/-- `StandardArena::new` (/repo/src/merge/posting.rs:43, /repo/src/merge/transaction.rs:22), with places for `capacity` entries; the first
generation is 1. -/
def new (capacity : Nat) : GenArena α := ⟨List.replicate capacity none, 1, List.range capacity⟩

/-- `StandardArena::insert` (/repo/src/merge/posting.rs:60, /repo/src/merge/transaction.rs:64): takes a free place, or makes room for `more` other
entries besides. -/
def insert (more : Nat) (a : GenArena α) (v : α) : GenIndex × GenArena α :=
  match a.free with
  | i :: rest => (⟨i, a.generation⟩, { a with slots := a.slots.set i (some (a.generation, v)), free := rest })
  | [] => (⟨a.slots.length, a.generation⟩,
      { a with slots := a.slots ++ some (a.generation, v) :: List.replicate more none, free := List.range' (a.slots.length + 1) more })

/-- `StandardArena::get` (/repo/src/merge/posting.rs:74, /repo/src/merge/transaction.rs:53). -/
def get (a : GenArena α) (i : GenIndex) : Option α :=
  match a.slots[i.arrIdx]? with
  | some (some (g, v)) => if g = i.gen then some v else none
  | _ => none

/-- `StandardArena::get_mut` and a change of what it gives (/repo/src/merge/posting.rs:78, /repo/src/merge/transaction.rs:57-59). -/
def modify (a : GenArena α) (i : GenIndex) (f : α → α) : GenArena α :=
  match a.get i with
  | some v => { a with slots := a.slots.set i.arrIdx (some (i.gen, f v)) }
  | none => a

/-- `StandardArena::remove` (/repo/src/merge/posting.rs:167-168, /repo/src/merge/transaction.rs:37): the generation goes up. -/
def remove (a : GenArena α) (i : GenIndex) : Option α × GenArena α :=
  match a.get i with
  | some v => (some v, ⟨a.slots.set i.arrIdx none, a.generation + 1, i.arrIdx :: a.free⟩)
  | none => (none, a)

end GenArena

/-- `PartialEq` of `IndexHashable` and of `HashableTransactionIndex` (/repo/src/merge/posting.rs:23-27, /repo/src/merge/merger.rs:423-427). -/
def GenIndex.eq (a b : GenIndex) : Bool := a.arrIdx == b.arrIdx && a.gen == b.gen

/-- `Hash` of `IndexHashable` and of `HashableTransactionIndex` (/repo/src/merge/posting.rs:28-32, /repo/src/merge/merger.rs:428-432): only the
position is hashed. `hasher` is what the hash function, which differs from run to run, makes of a number. -/
def GenIndex.hash (hasher : Nat → Nat) (a : GenIndex) : Nat := hasher a.arrIdx

/-- `HashMap` (/repo/src/merge/merger.rs:60-61) and `HashSet` (/repo/src/merge/merger.rs:300). Code of Rust's standard library, from its documentation.
Simplified: a list of entries for each value of the hash function modulo the number of these lists. -/
structure HashTable (κ ν : Type) where
  buckets : List (List (κ × ν))

namespace HashTable
variable {κ ν : Type}

/-- What iterating yields (/repo/src/merge/merger.rs:88, 313-319). -/
def entries (t : HashTable κ ν) : List (κ × ν) := t.buckets.flatten

/-- Every entry is put where it belongs when there are `n + 1` lists: what happens when a table grows (/repo/src/merge/merger.rs:80, 300-311;
as `HashTable`). -/
def rehash (hash : κ → Nat) (n : Nat) (t : HashTable κ ν) : HashTable κ ν :=
  ⟨(List.range (n + 1)).map fun i => t.entries.filter fun e => hash e.1 % (n + 1) == i⟩

/-- In one list: the value of the first entry whose key equals the given one is changed, or there is a new entry
(/repo/src/merge/merger.rs:80; as `HashTable`). -/
def upsertBucket (eq : κ → κ → Bool) (k : κ) (f : Option ν → ν) : List (κ × ν) → List (κ × ν)
  | [] => [(k, f none)]
  | e :: es => if eq k e.1 then (e.1, f (some e.2)) :: es else e :: upsertBucket eq k f es

/-- `entry`, `or_default` and a change of the value; `insert` of a set (/repo/src/merge/merger.rs:80, 300-311; as `HashTable`). `grow` says whether
the table grows before. -/
def upsert (hash : κ → Nat) (eq : κ → κ → Bool) (grow : Option Nat) (k : κ) (f : Option ν → ν) (t : HashTable κ ν) : HashTable κ ν :=
  let t := match grow with
    | some n => t.rehash hash n
    | none => t
  ⟨t.buckets.modify (hash k % t.buckets.length) (upsertBucket eq k f)⟩

/-- A table with one list (/repo/src/merge/merger.rs:61, 300; as `HashTable`). -/
def empty : HashTable κ ν := ⟨[[]]⟩

/-- Several changes one after the other; `grow` is asked before each of them (/repo/src/merge/merger.rs:62-86, 300-311; as `HashTable`). -/
def upserts (hash : κ → Nat) (eq : κ → κ → Bool) (grow : Nat → Option Nat) : Nat → List (κ × (Option ν → ν)) → HashTable κ ν → HashTable κ ν
  | _, [], t => t
  | n, c :: cs, t => upserts hash eq grow (n + 1) cs (t.upsert hash eq (grow n) c.1 c.2)

end HashTable

/-- The changes that `check_pending` makes to `src_idx_by_dest` (/repo/src/merge/merger.rs:62-86), with the positions of the destinations. -/
def pushes : List TransactionMergeAction → List (Nat × (Option (List Input) → List Input))
  | [] => []
  | .new _ :: rest => pushes rest
  | .leaveUnmerged _ :: rest => pushes rest
  | .mergeInto pending _ :: rest =>
    (pending.postActions.filterMap fun a =>
      match a.2 with
      | .new => none
      | .mergeIntoExisting d => some (d, fun vs => vs.getD [] ++ [a.1])) ++ pushes rest

/-- `src_idx_by_dest` as a hash table (/repo/src/merge/merger.rs:60-86), with indices of generation `g`. -/
def srcByDestTable (hasher : Nat → Nat) (grow : Nat → Option Nat) (g : Nat) (pending : List TransactionMergeAction) : HashTable GenIndex (List Input) :=
  HashTable.empty.upserts (GenIndex.hash hasher) GenIndex.eq grow 0 ((pushes pending).map fun c => (⟨c.1, g⟩, c.2))

/-- `candidate_trns` as a hash table (/repo/src/merge/merger.rs:300-311), with indices of generation `g`. -/
def candidatesTable (hasher : Nat → Nat) (grow : Nat → Option Nat) (g : Nat) (parents : List Nat) : HashTable GenIndex Unit :=
  HashTable.empty.upserts (GenIndex.hash hasher) GenIndex.eq grow 0 (parents.map fun d => (⟨d, g⟩, fun _ => ()))

end Verif
