import Verif.Spec.History
import Verif.Spec.Outcome
import Verif.Spec.DaysCmd

/-!
# Running `merge` again and again

The user runs `merge` with the journal and some other files, the result becomes the journal, and they do the same again.
-/

namespace Verif.Spec
open Verif Spec.Book

/-- The merge calls of one run, one after the other. `none` if one of them is refused; otherwise what each of them hands back. -/
def mergeEach (m : Merger) : History → Option (List (List TransactionPostings) × Merger)
  | [] => some ([], m)
  | c :: cs =>
    match m.merge c.1 c.2 with
    | (.ok u, m') => (mergeEach m' cs).map fun x => (u :: x.1, x.2)
    | (.error _, _) => none

/-- One run: the journal that it makes, and what each of its calls hands back. -/
def oneRun (calls : History) : Option (List TransactionPostings × List (List TransactionPostings)) :=
  (mergeEach Merger.new calls).bind fun x => (x.2.build HashOrder.sorted).toOption.map fun j => (j, x.1)

/-- The journal after `n` runs. Run number `n` has the journal as its first input, and then `runs n`; a run that is refused writes
nothing. -/
def runAgain (runs : Nat → HashOrder × History) (js : List TransactionPostings) : Nat → List TransactionPostings
  | 0 => js
  | n + 1 =>
    match oneRun (((runs n).1, runAgain runs js n) :: (runs n).2) with
    | some x => x.1
    | none => runAgain runs js n

/-- What run number `n` makes. -/
def resultOf (runs : Nat → HashOrder × History) (js : List TransactionPostings) (n : Nat) :
    Option (List TransactionPostings × List (List TransactionPostings)) :=
  oneRun (((runs n).1, runAgain runs js n) :: (runs n).2)

/-- `u` is `t` with candidate tags at its postings, and the same otherwise. -/
def AsGiven (t u : TransactionPostings) : Prop :=
  u.trn = t.trn ∧ List.Forall₂ (fun p q => ∃ named, Annotated named p q) t.posts u.posts

/-- The run merges the files `qs` into the journal `p`, and writes what it cannot decide to `v`; no operation fails and nothing stops it. -/
structure MergesAgain (p v : Str) (qs : List Str) (s : Step) : Prop where
  cmd : s.cmd = .merge ⟨.path p :: qs.map .path, some (.path v), .path p⟩
  fault : ∀ n, s.fault n = none
  killed : s.killed = none

end Verif.Spec
