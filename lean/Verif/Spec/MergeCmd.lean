import Verif.Spec.Files
import Verif.Spec.Sources
import Verif.Spec.Outcome
import Verif.Model.Commands

/-!
# Specification: the `merge` command
-/

namespace Verif.Spec
open Book

/-- The merge calls that the input files ask for, in order: for each file, its transactions by source. `none` if some file
cannot be read or has other things than transactions and blank lines in it. -/
def mergeInputs (sys : Sys) : Bool → List FileSpec → Option (List (List TransactionPostings))
  | _, [] => some []
  | again, f :: fs =>
    (ledgerAt sys sys.start again f).bind fun ledger =>
    (TransactionPostings.fromLedger ledger).bind fun ts =>
    (mergeInputs sys (again || f = .stdio) fs).map (Sources.groups HashOrder.sorted (f.display sys) ts ++ ·)

/-- One of the merge calls is refused. -/
def Refused : Book → List (List TransactionPostings) → Prop
  | _, [] => False
  | J, g :: gs => J.Bad g ∨ Refused (J.after g) gs

/-- The transactions that the merge calls leave unmerged. -/
def leftOver : Book → List (List TransactionPostings) → List TransactionPostings
  | _, [] => []
  | J, g :: gs => g.filter (Undecided J) ++ leftOver (J.after g) gs

/-- The book after the merge calls. -/
def bookAfter (gs : List (List TransactionPostings)) : Book := gs.foldl Book.after Book.empty

/-- `u` is the transaction `t` handed back: the candidate tags name postings of the journal, and each posting that is unclear has one for every
posting that it could be; the others have none. -/
def HandedBackBy (J : Book) (t u : TransactionPostings) : Prop :=
  HandedBack J.journal t u ∧ List.Forall₂
    (fun p q => Annotated (if J.Unclear (dateOf t) p then J.softMatches (dateOf t) p else []) p q) t.posts u.posts

/-- The transactions as they are handed back by the merge calls, each with the candidates of the time. -/
def HandedBackAll : Book → List (List TransactionPostings) → List TransactionPostings → Prop
  | _, [], u => u = []
  | J, g :: gs, u => ∃ u₁ u₂, u = u₁ ++ u₂ ∧ List.Forall₂ (HandedBackBy J) (g.filter (Undecided J)) u₁ ∧
    HandedBackAll (J.after g) gs u₂

/-- The transaction without a note of its source. -/
def unsourced (t : TransactionPostings) : TransactionPostings :=
  { t with trn := { t.trn with comment := { t.trn.comment with valueTags := t.trn.comment.valueTags.erase srcKey } } }

/-- What the `merge` command writes, in order: the unmerged transactions if there are any, and then the journal. -/
def mergePlan (sys : Sys) (h : HashOrder) (args : MergeCmd.Args) (unmerged merged : List TransactionPostings) :
    List (FileSpec × Str) :=
  (match args.unmerged with
   | some f => if unmerged = [] then [] else [(f, sys.render (TransactionPostings.intoLedger h unmerged))]
   | none => []) ++ [(args.output, sys.render (TransactionPostings.intoLedger h merged))]

end Verif.Spec
