import Verif.Base.Str

/-!
# Hash iteration order

Rust's `HashMap`/`HashSet` iterate in an arbitrary order that changes from run to run.
Every iteration of a hash container in the code is modelled by asking an oracle for
the order in which the elements come out. The oracle may answer with any permutation,
and may answer differently at every program point.
-/

namespace Verif

/-- Program points that iterate over a hash container. Each is cited below, e.g. /repo/src/merge/transaction.rs:33. -/
inductive Site where
  /-- tags of the `n`-th posting of the input of a merge call (/repo/src/merge/posting.rs:327-333). -/
  | inputTags (n : Nat)
  /-- tags of the stored posting with the given arena index (/repo/src/merge/posting.rs:320-324). -/
  | storedTags (idx : Nat)
  /-- tags of the input posting being registered for the stored posting with the given arena index
  (/repo/src/merge/posting.rs:56,88-90). -/
  | registerTags (idx : Nat)
  /-- `candidate_trns` (/repo/src/merge/merger.rs:313). -/
  | destTrns
  /-- `src_idx_by_dest` (/repo/src/merge/merger.rs:88). -/
  | srcByDest
  /-- `trns_by_date` (/repo/src/merge/transaction.rs:33). -/
  | trnsByDate
  /-- `trns_by_source` (/repo/src/merge/sources.rs:35). -/
  | sources
  /-- `tags` when formatting a comment (/repo/src/comment.rs:104). -/
  | fmtTags
  /-- `value_tags` when formatting a comment (/repo/src/comment.rs:129). -/
  | fmtValueTags
  deriving DecidableEq

/-- One choice of iteration orders: for every program point and every container contents,
a permutation of the contents. The containers are those of /repo/src/comment.rs:16,18, /repo/src/merge/posting.rs:36-37,
/repo/src/merge/transaction.rs:16, /repo/src/merge/sources.rs:19 and /repo/src/merge/merger.rs:43,60,300. -/
structure HashOrder where
  iter : {α : Type} → Site → List α → List α
  iter_perm : ∀ {α : Type} (s : Site) (l : List α), (iter s l).Perm l

/-- The oracle that yields the elements in key order. Only used to state examples and tests. One possible order for the containers of
/repo/src/comment.rs:16,18 and others. -/
def HashOrder.sorted : HashOrder := ⟨fun _ l => l, fun _ l => List.Perm.refl l⟩

/-- The oracle that yields the elements in reverse key order. Only used in examples. One possible order for the containers of
/repo/src/comment.rs:16,18 and others. -/
def HashOrder.rev : HashOrder := ⟨fun _ l => l.reverse, fun _ l => List.reverse_perm l⟩

instance : Inhabited HashOrder := ⟨HashOrder.sorted⟩

end Verif
