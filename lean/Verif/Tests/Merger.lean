import Verif.Examples.Base
import Verif.Model.MatchSet
import Verif.Model.CommentText

/-!
# The unit tests of the merger, run on the model

These are tests of the model against the code (/repo/src/merge/merger.rs:442-724, /repo/src/merge/posting.rs:343-467,
/repo/src/merge/matchset.rs:190-198, /repo/src/mutcell.rs:130-172), not proofs of properties. Every test is run with two orders of
iteration.
-/

namespace Verif.Tests
open Verif Ex

/-- An amount in pence. -/
private def pence (q : Int) : Amount := ⟨⟨q < 0, q.natAbs, 2⟩, ⟨"GBP".toList, .left⟩⟩

/-- A posting with an amount, a balance and the text of a comment. -/
private def pb (acct : String) (q : Int) (balance : Option Int) (comment : String) : PostingInternal :=
  ⟨⟨acct.toList, .real, some ⟨pence q, none, none⟩, balance.map fun b => .amount (pence b), none, none⟩,
   Comment.fromOptComment (if comment.isEmpty then none else some comment.toList)⟩

private def p (acct : String) (q : Int) (comment : String) : PostingInternal := pb acct q none comment

/-- A transaction on a day of 2000. -/
private def t (m d : Nat) (desc : String) (ps : List PostingInternal) : TransactionPostings :=
  ⟨⟨⟨none, ⟨2000, m, d⟩, none, none, none, desc.toList, []⟩, Comment.empty⟩, ps⟩

/-- Several inputs one after the other: what each call returns, and the journal. -/
private def session (h : HashOrder) (inputs : List (List TransactionPostings)) :
    List (Except MergeErr (List TransactionPostings)) × Except MergeErr (List TransactionPostings) :=
  let go := inputs.foldl (fun (r, m) ts => ((r ++ [(m.merge h ts).1], (m.merge h ts).2) : List _ × Merger)) ([], Merger.new)
  (go.1, buildEval h go.2)

private theorem session_build (h : HashOrder) (ts : List TransactionPostings) :
    (session h [ts]).2 = ((Merger.new.merge h ts).2).build h := by rw [build_eval]; rfl

/-- `merge_error` (/repo/src/merge/merger.rs:456-459). -/
private def mergeError (first : List TransactionPostings) : Bool :=
  [HashOrder.sorted, HashOrder.rev].all fun h => !(Merger.new.merge h first).1.isOk

/-- `merge_merge_error` (/repo/src/merge/merger.rs:503-521). -/
private def mergeMergeError (first second : List TransactionPostings) : Bool :=
  [HashOrder.sorted, HashOrder.rev].all fun h =>
    match session h [first, second] with
    | ([.ok [], .error _], .ok js) => (session h [first]).2 = .ok js
    | _ => false

/-- `merge_build` (/repo/src/merge/merger.rs:570-578). -/
private def mergeBuild (first want : List TransactionPostings) : Bool :=
  [HashOrder.sorted, HashOrder.rev].all fun h => session h [first] = ([.ok []], .ok want)

/-- `merge_merge_build` (/repo/src/merge/merger.rs:708-723). -/
private def mergeMergeBuild (first second wantUnmerged want : List TransactionPostings) : Bool :=
  [HashOrder.sorted, HashOrder.rev].all fun h => session h [first, second] = ([.ok [], .ok wantUnmerged], .ok want)

set_option maxRecDepth 100000

/-! ### `merge_error` -/

example : mergeError [t 1 1 "Salary" [p "assets:checking" 10000 ""]] := by decide +kernel
example : mergeError [t 1 1 "Salary" [p "assets:checking" 10000 ":fp-1:candidate-fp-2:"]] := by decide +kernel

/-! ### `merge_merge_error` -/

example : mergeMergeError
    [t 1 1 "Salary" [p "assets:checking" 10000 ":fp-1:"], t 1 2 "Transfer to savings" [p "assets:savings" 10000 ":fp-2:"]]
    [t 1 1 "Salary" [p "assets:checking" 10000 ":fp-1:fp-2:"]] := by decide +kernel
example : mergeMergeError
    [t 1 1 "Transfer to checking" [p "assets:checking" 10000 ":fp-1:"], t 1 1 "Transfer to savings" [p "assets:savings" 10000 ":fp-2:"]]
    [t 1 1 "Mixed" [p "assets:checking" 10000 ":fp-1:", p "assets:savings" 10000 ":fp-2:"]] := by decide +kernel
example : mergeMergeError
    [t 1 1 "Foo" [p "assets:checking" 10000 ":fp-1:fp-2:"]]
    [t 1 1 "Foo-1" [p "assets:checking" 10000 ":fp-1:"], t 1 1 "Foo-2" [p "assets:checking" 10000 ":fp-2:"]] := by decide +kernel

/-! ### `merge_build` -/

example : mergeBuild
    [t 2 1 "Salary" [p "assets:checking" 10000 ":fp-1:", p "income:salary" (-10000) ":fp-2:"],
     t 1 1 "Salary" [p "assets:checking" 10000 ":fp-3:", p "income:salary" (-10000) ":fp-4:"],
     t 2 1 "Lunch" [p "assets:checking" (-500) ":fp-5:", p "expenses:dining" 500 ":fp-6:"]]
    [t 1 1 "Salary" [p "assets:checking" 10000 ":fp-3:", p "income:salary" (-10000) ":fp-4:"],
     t 2 1 "Salary" [p "assets:checking" 10000 ":fp-1:", p "income:salary" (-10000) ":fp-2:"],
     t 2 1 "Lunch" [p "assets:checking" (-500) ":fp-5:", p "expenses:dining" 500 ":fp-6:"]] := by decide +kernel
example : mergeBuild
    [t 1 1 "Foo" [p "assets:foo" 1000 ":fp-1:"], t 1 1 "Foo" [p "assets:foo" 1000 ":fp-2:"],
     t 1 1 "Foo" [p "assets:foo" 1000 ":fp-3:"], t 1 1 "Foo" [p "assets:foo" 1000 ":fp-4:"]]
    [t 1 1 "Foo" [p "assets:foo" 1000 ":fp-1:"], t 1 1 "Foo" [p "assets:foo" 1000 ":fp-2:"],
     t 1 1 "Foo" [p "assets:foo" 1000 ":fp-3:"], t 1 1 "Foo" [p "assets:foo" 1000 ":fp-4:"]] := by decide +kernel

/-! ### `merge_merge_build` -/

example : mergeMergeBuild
    [t 1 1 "Salary" [p "assets:checking" 10000 ":fp-1:", p "income:salary" (-10000) ":fp-2:"]]
    [t 1 1 "Salary" [p "assets:checking" 10000 ":fp-3:", p "income:salary" (-10000) ":fp-4:"],
     t 1 2 "Lunch" [p "assets:checking" (-500) ":fp-5:", p "expenses:dining" 500 ":fp-6:"]]
    []
    [t 1 1 "Salary" [p "assets:checking" 10000 ":fp-1:fp-3:", p "income:salary" (-10000) ":fp-2:fp-4:"],
     t 1 2 "Lunch" [p "assets:checking" (-500) ":fp-5:", p "expenses:dining" 500 ":fp-6:"]] := by decide +kernel
example : mergeMergeBuild
    [t 1 1 "Salary" [p "assets:checking" 10000 ":fp-1:fp-2:fp-3:"]]
    [t 1 2 "Salary" [p "assets:checking" 10000 ":fp-1:fp-2:fp-4:"]]
    []
    [t 1 1 "Salary" [p "assets:checking" 10000 ":fp-1:fp-2:fp-3:fp-4:"]] := by decide +kernel
example : mergeMergeBuild
    [t 1 1 "Salary" [p "income:salary" (-10000) ":fp-sal1:", p "assets:checking" 10000 ":fp-orig1:"],
     t 1 1 "Salary" [p "assets:checking" 10000 ":fp-orig2:", p "income:salary" (-10000) ":fp-sal2:"],
     t 1 1 "Salary" [p "assets:checking" 10000 ":fp-orig3:", p "income:salary" (-10000) ":fp-sal3:"]]
    [t 1 1 "Salary" [p "income:salary" (-10000) ":fp-sal1:", p "assets:checking" 10000 ":fp-new1:"],
     t 1 1 "Salary" [p "assets:checking" 10000 ":fp-new2:", p "income:salary" (-10000) ":fp-sal2:"]]
    [t 1 1 "Salary" [p "income:salary" (-10000) ":fp-sal1:",
       p "assets:checking" 10000 ":candidate-fp-orig1:candidate-fp-orig2:candidate-fp-orig3:fp-new1:"],
     t 1 1 "Salary" [p "assets:checking" 10000 ":candidate-fp-orig1:candidate-fp-orig2:candidate-fp-orig3:fp-new2:",
       p "income:salary" (-10000) ":fp-sal2:"]]
    [t 1 1 "Salary" [p "income:salary" (-10000) ":fp-sal1:", p "assets:checking" 10000 ":fp-orig1:"],
     t 1 1 "Salary" [p "assets:checking" 10000 ":fp-orig2:", p "income:salary" (-10000) ":fp-sal2:"],
     t 1 1 "Salary" [p "assets:checking" 10000 ":fp-orig3:", p "income:salary" (-10000) ":fp-sal3:"]] := by decide +kernel
example : mergeMergeBuild
    [t 1 1 "Salary" [p "assets:checking" 10000 ":fp-1:"]]
    [t 1 1 "Salary" [pb "assets:checking" 10000 (some 123400) ":fp-1:"]]
    []
    [t 1 1 "Salary" [pb "assets:checking" 10000 (some 123400) ":fp-1:"]] := by decide +kernel
example : mergeMergeBuild
    [t 1 1 "Salary" [p "assets:checking" 10000 ":fp-1:", p "income:salary" (-10000) ":fp-2:"]]
    [t 1 1 "Salary" [pb "assets:checking" 10000 (some 123400) ":fp-1:", p "income:salary" (-10000) ":fp-2:"]]
    []
    [t 1 1 "Salary" [pb "assets:checking" 10000 (some 123400) ":fp-1:", p "income:salary" (-10000) ":fp-2:"]] := by decide +kernel

/-! ### Postings -/

private def day : Date := ⟨2000, 1, 1⟩

/-- `input_from_posting` (/repo/src/merge/posting.rs:380-394). -/
private def inputFromPosting (dest src want : PostingInternal) : Bool :=
  match Input.fromPostingInternal dest day, Input.fromPostingInternal src day with
  | .ok d, .ok s => ((PostHolder.fromInput d 0).1.mergeFromInputPosting s).posting = want
  | _, _ => false

/-- `holding_matches` (/repo/src/merge/posting.rs:453-466). -/
private def holdingMatches (dest src : PostingInternal) (want : Bool) : Bool :=
  match Input.fromPostingInternal dest day, Input.fromPostingInternal src day with
  | .ok d, .ok s => (PostHolder.fromInput d 0).1.isMatch s = want
  | _, _ => false

example : inputFromPosting (p "foo" 1000 ":fp-1:") (pb "foo" 1000 (some 9000) ":fp-1:") (pb "foo" 1000 (some 9000) ":fp-1:") := by
  decide +kernel
example : inputFromPosting (pb "foo" 1000 (some 5000) ":fp-1:") (pb "foo" 1000 (some 9000) ":fp-1:") (pb "foo" 1000 (some 5000) ":fp-1:") := by
  decide +kernel
example : inputFromPosting (pb "foo" 1000 (some 5000) ":fp-1:\n key: old-value") (pb "foo" 1000 (some 9000) ":fp-2:\n key: new-value")
    (pb "foo" 1000 (some 5000) ":fp-1:fp-2:\n key: new-value") := by decide +kernel
example : inputFromPosting (p "foo" 1000 ":fp-1:") (p "bar" 1000 ":fp-1:unknown-account:") (p "foo" 1000 ":fp-1:") := by decide +kernel
example : inputFromPosting (p "foo" 1000 ":fp-1:unknown-account:") (p "bar" 1000 ":fp-1:unknown-account:")
    (p "foo" 1000 ":fp-1:unknown-account:") := by decide +kernel
example : inputFromPosting (p "foo" 1000 ":fp-1:unknown-account:") (p "bar" 1000 ":fp-1:") (p "bar" 1000 ":fp-1:") := by decide +kernel

example : holdingMatches (pb "foo" 1000 (some 9000) ":fp-1:") (pb "foo" 1000 (some 9000) ":fp-1:") true := by decide +kernel
example : holdingMatches (pb "foo" 1000 (some 2300) ":fp-1:") (pb "foo" 1000 (some 9000) ":fp-1:") false := by decide +kernel
example : holdingMatches (p "foo" 1000 ":fp-1:") (pb "foo" 1000 (some 9000) ":fp-1:") true := by decide +kernel
example : holdingMatches (pb "foo" 1000 (some 9000) ":fp-1:") (p "foo" 1000 ":fp-1:") true := by decide +kernel
example : holdingMatches (p "foo" 1000 ":fp-1:") (p "foo" 1000 ":fp-1:") true := by decide +kernel
example : holdingMatches (p "foo" 2300 ":fp-1:") (p "foo" 1000 ":fp-1:") false := by decide +kernel
example : holdingMatches (p "foo" 1000 ":fp-1:") (p "bar" 1000 ":fp-1:unknown-account:") true := by decide +kernel
example : holdingMatches (p "foo" 1000 ":fp-1:unknown-account:") (p "bar" 1000 ":fp-1:") true := by decide +kernel
example : holdingMatches (p "foo" 1000 ":fp-1:unknown-account:") (p "bar" 1000 ":fp-1:unknown-account:") true := by decide +kernel
example : holdingMatches (p "foo" 1000 ":fp-1:") (p "bar" 1000 ":fp-1:") false := by decide +kernel

/-! ### Match set -/

/-- Everything that an iterator yields in a number of steps. -/
private def drain : Nat → MatchSet.Iter Int → List Int
  | 0, _ => []
  | n + 1, i => match i.next with
    | (some v, i) => v :: drain n i
    | (none, _) => []

/-- `add_dedupes` (/repo/src/merge/matchset.rs:194-198). -/
private def addDedupes (input want : List Int) : Bool := drain (input.length + 1) (MatchSet.fromIter input).intoIter = want

example : addDedupes [] [] := by decide +kernel
example : addDedupes [1, 1, 1, 1] [1] := by decide +kernel
example : addDedupes [1, 2, 1, 2] [1, 2] := by decide +kernel
example : addDedupes [1, 2, 3, 4] [1, 2, 3, 4] := by decide +kernel

/-! ### Cell -/

/-- `TestEnum` (/repo/src/mutcell.rs:134-155). -/
private inductive TestEnum where
  | one (v : Int)
  | two (v : Int)
  deriving DecidableEq

private def TestEnum.flip : TestEnum → TestEnum
  | .one v => .two v
  | .two v => .one v

private def TestEnum.inc : TestEnum → TestEnum
  | .one v => .one (v + 1)
  | .two v => .two (v + 1)

/-- `mut_cell` (/repo/src/mutcell.rs:157-171). -/
example : (MutCell.new (TestEnum.one 5)).intoInner = .ok (.one 5) ∧
    ((MutCell.new (TestEnum.one 5)).mapValue fun v => .ok v.flip).1 = .ok () ∧
    ((MutCell.new (TestEnum.one 5)).mapValue fun v => .ok v.flip).2.intoInner = .ok (.two 5) ∧
    (((MutCell.new (TestEnum.one 5)).mapValue fun v => .ok v.flip).2.asMut TestEnum.inc).2.intoInner = .ok (.two 6) := by decide +kernel

end Verif.Tests
