import Verif.Spec.Reorder
import Verif.Spec.History

/-!
# Downloads of whole days

A bank offers the transactions `W` of an account for download, a range of days at a time. Which ranges the user chooses, in which order they
merge them, and whether the ranges overlap, is up to them.
-/

namespace Verif.Spec
open Verif Spec.Book

/-- The transactions of one day, in their order. -/
def ofDay (d : Date) (ts : List TransactionPostings) : List TransactionPostings := ts.filter (dateOf · = d)

/-- The download `D` consists of whole days of `W`: of each day it has all transactions in the same order, or none. -/
def WholeDays (W D : List TransactionPostings) : Prop := ∀ d : Date, ofDay d D = [] ∨ ofDay d D = ofDay d W

/-- The day is in one of the downloads. -/
def Downloaded (Ds : List (List TransactionPostings)) (d : Date) : Prop := ∃ D ∈ Ds, ∃ t ∈ D, dateOf t = d
instance (Ds d) : Decidable (Downloaded Ds d) := by unfold Downloaded; infer_instance

/-- The transactions of `W` of the days that were downloaded. -/
def soFar (W : List TransactionPostings) (Ds : List (List TransactionPostings)) : List TransactionPostings :=
  W.filter fun t => Downloaded Ds (dateOf t)

/-- What is already known of `W` in the journal is there under the date that `W` gives. -/
def DatesAgree (js W : List TransactionPostings) : Prop :=
  ∀ T ∈ js, ∀ r ∈ T.posts, ∀ t ∈ W, ∀ p ∈ t.posts, SharesFp r p → dateOf T = dateOf t
instance (js W) : Decidable (DatesAgree js W) := by unfold DatesAgree; infer_instance

/-- The merger after a number of calls all of which succeed and leave nothing over. -/
def mergeAll (m : Merger) : History → Option Merger
  | [] => some m
  | c :: cs =>
    match m.merge c.1 c.2 with
    | (.ok [], m') => mergeAll m' cs
    | _ => none

/-- The journal that a run of the program makes of its inputs, if all of them can be merged and nothing is left over. -/
def journalOf (calls : History) : Option (List TransactionPostings) :=
  (mergeAll Merger.new calls).bind fun m => (m.build HashOrder.sorted).toOption

/-- The journal after several runs: each merges some files into the journal that the run before it has written. -/
def journalAfter (js : List TransactionPostings) : List (HashOrder × History) → Option (List TransactionPostings)
  | [] => some js
  | r :: rs => (journalOf ((r.1, js) :: r.2)).bind fun js' => journalAfter js' rs

/-- All files that the runs merge into the journal. -/
def filesOf (runs : List (HashOrder × History)) : List (List TransactionPostings) := runs.flatMap fun r => inputs r.2

end Verif.Spec
