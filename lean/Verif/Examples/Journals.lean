import Verif.Examples.Base

/-!
# The journals used in the examples
-/

namespace Verif.Ex
open Spec

/-- What a first bank statement might import to. The second posting of the first transaction has an unknown account. -/
def bankA : List TransactionPostings :=
  [trn 2 "shop" [post "assets:a" (-500) ["fp-a1"], post "expenses" 500 ["fp-a2", "unknown-account"]],
   trn 1 "cafe" [post "assets:a" (-200) ["fp-a3"], post "expenses:food" 200 ["fp-a4"]]]

/-- A second bank statement: it knows better what the first transaction was, and has one more transaction. -/
def bankB : List TransactionPostings :=
  [trn 2 "transfer" [post "assets:b" 500 ["fp-b1"]],
   trn 1 "fee" [post "assets:b" (-1) ["fp-b2"], post "expenses:fee" 1 ["fp-b3"]]]

/-- Two equal postings on one day. -/
def twins : List TransactionPostings :=
  [trn 3 "bus" [post "expenses:bus" 150 ["fp-t1"]], trn 3 "bus back" [post "expenses:bus" 150 ["fp-t2"]]]

/-- A posting that could be either of the `twins`. -/
def unclear : List TransactionPostings := [trn 3 "ticket" [post "expenses:bus" 150 ["fp-c1"]]]

/-- Bad input: the two postings share a fingerprint. -/
def bad : List TransactionPostings := [trn 4 "x" [post "a" 1 ["fp-x"], post "b" 2 ["fp-x"]]]

/-- A history with a failing call and a call that leaves something unmerged. -/
def hist : History :=
  [(HashOrder.sorted, bankA), (HashOrder.rev, bankB), (HashOrder.sorted, bad), (HashOrder.sorted, twins),
   (HashOrder.rev, unclear)]

set_option maxRecDepth 100000 in
theorem hist_bad : ((run (hist.take 2)).merge HashOrder.sorted bad).1 = .error .duplicateFingerprint := by decide +kernel

set_option maxRecDepth 100000 in
theorem hist_unclear : ((run (hist.take 4)).merge HashOrder.rev unclear).1 =
    .ok [trn 3 "ticket" [post "expenses:bus" 150 ["fp-c1", "candidate-fp-t1", "candidate-fp-t2"]]] := by decide +kernel

set_option maxRecDepth 100000 in
theorem hist_build : (run hist).build HashOrder.rev = .ok
    [trn 1 "cafe" [post "assets:a" (-200) ["fp-a3"], post "expenses:food" 200 ["fp-a4"]],
     trn 1 "fee" [post "assets:b" (-1) ["fp-b2"], post "expenses:fee" 1 ["fp-b3"]],
     trn 2 "shop" [post "assets:a" (-500) ["fp-a1"], post "assets:b" 500 ["fp-a2", "fp-b1"]],
     trn 3 "bus" [post "expenses:bus" 150 ["fp-t1"]], trn 3 "bus back" [post "expenses:bus" 150 ["fp-t2"]]] := by
  rw [build_eval]; decide +kernel

set_option maxRecDepth 100000 in
/-- The journal after the first statement. -/
theorem build_A : (run (hist.take 1)).build HashOrder.sorted = .ok
    [trn 1 "cafe" [post "assets:a" (-200) ["fp-a3"], post "expenses:food" 200 ["fp-a4"]],
     trn 2 "shop" [post "assets:a" (-500) ["fp-a1"], post "expenses" 500 ["fp-a2", "unknown-account"]]] := by
  rw [build_eval]; decide +kernel

set_option maxRecDepth 100000 in
/-- The journal after both statements: the unknown account is known, and "fee" is filed after "cafe". -/
theorem build_AB : (run (hist.take 1 ++ [(HashOrder.rev, bankB)])).build HashOrder.rev = .ok
    [trn 1 "cafe" [post "assets:a" (-200) ["fp-a3"], post "expenses:food" 200 ["fp-a4"]],
     trn 1 "fee" [post "assets:b" (-1) ["fp-b2"], post "expenses:fee" 1 ["fp-b3"]],
     trn 2 "shop" [post "assets:a" (-500) ["fp-a1"], post "assets:b" 500 ["fp-a2", "fp-b1"]]] := by
  rw [build_eval]; decide +kernel

set_option maxRecDepth 100000 in
/-- Merging the second statement leaves nothing. -/
theorem merge_B : ((run (hist.take 1)).merge HashOrder.rev bankB).1 = .ok [] := by decide +kernel

end Verif.Ex
