import Verif.Spec.MergeCmd
import Verif.Spec.Reorder
import Verif.Spec.Ledger

/-!
# Specification: what the `merge` command does, but for order
-/

namespace Verif.Spec
open Book

/-- The same transaction of a ledger, but for the order of its postings. -/
def ShuffledTrn (t t' : Transaction) : Prop := { t with postings := [] } = { t' with postings := [] } ∧ t.postings.Perm t'.postings

/-- The same transactions, but for the order of the transactions and of the postings in each of them; and other items in both of the ledgers or
in none. -/
def SameLedger (L L' : Ledger) : Prop :=
  ButOrder ShuffledTrn (transactionsOf L.items) (transactionsOf L'.items) ∧ L.items.any isOther = L'.items.any isOther

/-- Neither can be read, or both can and are the same but for order. -/
def SameReading : Option Ledger → Option Ledger → Prop
  | none, none => True
  | some L, some L' => SameLedger L L'
  | _, _ => False

/-- A transaction that is handed back: its header, and its postings with the candidates of each. -/
abbrev Query := TransactionInternal × List (PostingInternal × List PostingInternal)

/-- What the merge calls hand back, with the candidates at the time. -/
def queries : Book → List (List TransactionPostings) → List Query
  | _, [] => []
  | J, g :: gs => (g.filter (Undecided J)).map (fun t => (t.trn, t.posts.map fun p =>
      (p, if J.Unclear (dateOf t) p then J.softMatches (dateOf t) p else []))) ++ queries (J.after g) gs

/-- The same but for order. -/
def SameQuery (x x' : Query) : Prop := x.1 = x'.1 ∧ ButOrder (fun a b => a.1 = b.1 ∧ a.2.Perm b.2) x.2 x'.2

/-- The transaction is what is handed back, with a tag for each candidate. -/
def Asks (x : Query) (t : TransactionPostings) : Prop := t.trn = x.1 ∧ List.Forall₂ (fun a q => Annotated a.2 a.1 q) x.2 t.posts

/-- The transactions of the files, with the name of each file. -/
def filesRead (sys : Sys) : Bool → List FileSpec → Option (List (Str × List TransactionPostings))
  | _, [] => some []
  | again, f :: fs =>
    (ledgerAt sys sys.start again f).bind fun ledger =>
    (TransactionPostings.fromLedger ledger).bind fun ts =>
    (filesRead sys (again || f = .stdio) fs).map ((f.display sys, ts) :: ·)

/-- What the two runs of the `merge` command did is the same but for order. If neither fails because of its files, both succeed or both fail;
then the unmerged transactions ask for the same things, and the journals are the same. -/
def SameRuns (sys sys' : Sys) (args args' : MergeCmd.Args) (run run' : Except CmdErr Unit × World) : Prop :=
  (run.1 = .ok () ↔ run'.1 = .ok ()) ∧ (run.1 ≠ .ok () → run.2.log = [] ∧ run'.2.log = []) ∧
  (run.1 = .ok () → ∃ (X X' : List Query) (u u' : List TransactionPostings) (J J' : Ledger) (h h' : HashOrder),
    ButOrder SameQuery X X' ∧ List.Forall₂ Asks X u ∧ List.Forall₂ Asks X' u' ∧ SameLedger J J' ∧
    run.2.log = wholeWrites sys ((match args.unmerged with
      | some f => if u = [] then [] else [(f, sys.render (TransactionPostings.intoLedger h u))]
      | none => []) ++ [(args.output, sys.render J)]) ∧
    run'.2.log = wholeWrites sys' ((match args'.unmerged with
      | some f => if u' = [] then [] else [(f, sys'.render (TransactionPostings.intoLedger h' u'))]
      | none => []) ++ [(args'.output, sys'.render J')]))

end Verif.Spec
