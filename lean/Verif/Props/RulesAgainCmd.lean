import Verif.Props.RulesAgain
import Verif.Props.Looks
import Verif.Props.RewriteAgain
import Verif.Props.Matching2

/-!
# C105 with files
-/

namespace Verif
open Verif.Rules Spec Spec.RulesAgain

/-- After a run of `apply-rules` a second one reads what the first one wrote, if that can be read back. -/
theorem rules_second {lower : Str → Str} {T : Table} {fuel : Nat} {sys : Sys} {h : HashOrder} {input output : FileSpec} {n : Nat} {w : World}
    {L : Ledger} {ts us vs : List TransactionPostings} (ho : fileOf sys output = some n)
    (h1 : applyRules sys h lower fuel (some T) input output World.start = (.ok (), w))
    (hL : ledgerAt sys sys.start false input = some L) (hts : TransactionPostings.fromLedger L = some ts)
    (hu : T.updateTransactions lower fuel ts = .ok us) (htidy : ∀ t ∈ us, Tidy t)
    (hparse : sys.parse (sys.render (TransactionPostings.intoLedger h us)) = some (TransactionPostings.intoLedger h us))
    (hv : T.updateTransactions lower fuel us = .ok vs) (stdin : Bytes) (random : Nat → Str) (h' : HashOrder) :
    contentsAfter sys.start w.log n = some (encodeUtf8 (sys.render (TransactionPostings.intoLedger h us))) ∧
    ∃ w', applyRules (sysAfter sys w.log stdin (fun _ => none) random) h' lower fuel (some T) output output World.start = (.ok (), w') ∧
      contentsAfter (contentsAfter sys.start w.log) w'.log n = some (encodeUtf8 (sys.render (TransactionPostings.intoLedger h vs))) ∧
      ∀ m, m ≠ n → contentsAfter (contentsAfter sys.start w.log) w'.log m = contentsAfter sys.start w.log m := by
  obtain ⟨T', L', ts', us', hT, hL', hts', hu', hlog⟩ := (applyRules_sat sys h lower fuel (some T) input output).ok h1
  cases hT
  cases hL.symm.trans hL'
  cases hts.symm.trans hts'
  cases hu.symm.trans hu'
  have hc : contentsAfter sys.start w.log n = some (encodeUtf8 (sys.render (TransactionPostings.intoLedger h us))) := by
    rw [hlog, contentsAfter_whole, if_pos ho]
  refine ⟨hc, ?_⟩
  have ho' : fileOf (sysAfter sys w.log stdin (fun _ => none) random) output = some n := by
    cases output <;> exact ho
  have hL' : ledgerAt (sysAfter sys w.log stdin (fun _ => none) random) (sysAfter sys w.log stdin (fun _ => none) random).start false output =
      some (TransactionPostings.intoLedger h us) := by
    rw [ledgerAt_path ho', show (sysAfter sys w.log stdin (fun _ => none) random).start n = _ from hc, Option.bind_some, decode_encode]
    exact hparse
  obtain ⟨w', h2, h3⟩ := (applyRules_calm (h := h') (output := output) (fun _ => rfl) hL' (C62_round_trip h us htidy)).1 vs hv
  refine ⟨w', h2, ?_, fun m hm => ?_⟩
  · rw [h3, contentsAfter_whole, if_pos ho', intoLedger_order h' h]
    rfl
  · rw [h3, contentsAfter_whole, if_neg fun h => hm (Option.some.inj (h.symm.trans ho'))]

/-- **C105 with files.** If rules of one of the two kinds were applied to a file, and what was written can be read back, then applying them to
the result in place, with no failing operation, succeeds and leaves all files as they are. -/
theorem C105_command (lower : Str → Str) (T : Table) (hT : Separate T ∨ ∃ mark, Guarded mark T) (fuel : Nat) (sys : Sys) (h h' : HashOrder)
    (input output : FileSpec) (n : Nat) (w : World) (L : Ledger) (ts us : List TransactionPostings) (ho : fileOf sys output = some n)
    (h1 : applyRules sys h lower fuel (some T) input output World.start = (.ok (), w))
    (hL : ledgerAt sys sys.start false input = some L) (hts : TransactionPostings.fromLedger L = some ts)
    (hu : T.updateTransactions lower fuel ts = .ok us) (htidy : ∀ t ∈ us, Tidy t)
    (hparse : sys.parse (sys.render (TransactionPostings.intoLedger h us)) = some (TransactionPostings.intoLedger h us))
    (stdin : Bytes) (random : Nat → Str) :
    ∃ w', applyRules (sysAfter sys w.log stdin (fun _ => none) random) h' lower fuel (some T) output output World.start = (.ok (), w') ∧
      contentsAfter (contentsAfter sys.start w.log) w'.log = contentsAfter sys.start w.log := by
  have hv : T.updateTransactions lower fuel us = .ok us := by
    rcases hT with hT | ⟨mark, hT⟩
    · exact C105_again lower T hT fuel ts us hu
    · exact C105_guarded lower T mark hT fuel ts us hu
  obtain ⟨hc, w', h2, h3, h4⟩ := rules_second ho h1 hL hts hu htidy hparse hv stdin random h'
  refine ⟨w', h2, funext fun m => ?_⟩
  by_cases hm : m = n
  · rw [hm, h3, hc]
  · exact h4 m hm

/-- The rules of the example, applied to a file and then to the result in place: every posting of it is marked as one whose account is not
known, whatever had been found. -/
theorem C105_example_command (lower : Str → Str) (k : Nat) (sys : Sys) (h h' : HashOrder)
    (input output : FileSpec) (n : Nat) (w : World) (L : Ledger) (ts us : List TransactionPostings) (ho : fileOf sys output = some n)
    (h1 : applyRules sys h lower (k + 4) (some exampleTable) input output World.start = (.ok (), w))
    (hL : ledgerAt sys sys.start false input = some L) (hts : TransactionPostings.fromLedger L = some ts)
    (hu : exampleTable.updateTransactions lower (k + 4) ts = .ok us) (htidy : ∀ t ∈ us, Tidy t)
    (hparse : sys.parse (sys.render (TransactionPostings.intoLedger h us)) = some (TransactionPostings.intoLedger h us))
    (stdin : Bytes) (random : Nat → Str) :
    ∃ w', applyRules (sysAfter sys w.log stdin (fun _ => none) random) h' lower (k + 4) (some exampleTable) output output World.start = (.ok (), w') ∧
      contentsAfter (contentsAfter sys.start w.log) w'.log n = some (encodeUtf8 (sys.render (TransactionPostings.intoLedger h (us.map allUnknown)))) := by
  obtain ⟨-, w', h2, h3, -⟩ := rules_second ho h1 hL hts hu htidy hparse (C105_example lower k ts us hu).1 stdin random h'
  exact ⟨w', h2, h3⟩

/-- After the rules of the example were applied twice, accounts play no role any more when something is merged into that journal: any posting of
the same date, sum and balance is taken for the one in the journal, whichever account it is of. -/
theorem C105_example_matches (lower : Str → Str) (n : Nat) (ts us vs : List TransactionPostings)
    (h1 : exampleTable.updateTransactions lower (n + 4) ts = .ok us) (h2 : exampleTable.updateTransactions lower (n + 4) us = .ok vs)
    (t : TransactionPostings) (ht : t ∈ vs) (p : PostingInternal) (hp : p ∈ t.posts) (q : PostingInternal) :
    postingMatches p q = true ↔ OptRel SamePostingAmount p.raw.amount q.raw.amount ∧
      ∀ a b, p.raw.balance = some a → q.raw.balance = some b → SameBalance a b := by
  rw [(C105_example lower n ts us h1).1] at h2
  cases h2
  obtain ⟨t', _, rfl⟩ := List.mem_map.1 ht
  obtain ⟨p', _, rfl⟩ := List.mem_map.1 hp
  rw [C09_soft_match]
  exact and_iff_right (.inl (Std.ExtTreeSet.mem_insert.2 (.inl (Std.LawfulEqOrd.compare_eq_iff_eq.2 rfl))))

/-! ### Examples -/

theorem ruleOf_table {ch : Chain} {r : Rule} (h : RuleOf (Looks.table ch) r) : r ∈ ch := by
  obtain ⟨name, ch', h1, h2⟩ := h
  rw [Looks.table, Std.ExtTreeMap.ofList_singleton, Std.ExtTreeMap.getElem?_insert] at h1
  split at h1
  · cases h1; exact h2
  · rw [Std.ExtTreeMap.getElem?_empty] at h1; cases h1

/-- Rules that read the description and one tag, and write accounts and other tags. -/
def Ex.calmRules : Table := Looks.table [
  ⟨.transactionDescription (.eq "shop".toList), .setAccount "food".toList, .continue_⟩,
  ⟨.postingHasFlagTag "bank".toList, .all [.addPostingFlagTag "seen".toList, .addTransactionFlagTag "done".toList], .return_⟩]

/-- Rules for new postings: they read accounts and write accounts. -/
def Ex.newRules : Table := Looks.table [
  ⟨.all [.postingHasFlagTag "new".toList, .account (.eq "expenses".toList)], .setAccount "food".toList, .continue_⟩,
  ⟨.postingHasFlagTag "new".toList, .removePostingFlagTag "new".toList, .return_⟩]

set_option maxRecDepth 100000 in
/-- The hypothesis of `C105_again` is met, by rules that do something. -/
theorem Ex.calmRules_separate : Separate Ex.calmRules where
  apart r r' l hr hr' h h' := by
    have hr := ruleOf_table hr
    have hr' := ruleOf_table hr'
    simp only [List.mem_cons, List.not_mem_nil, or_false] at hr hr'
    have h1 : l = .description ∨ l = .postTag "bank".toList := by
      rcases hr with rfl | rfl <;> cases h
      · exact .inl rfl
      · exact .inr rfl
    have h2 : l = .account ∨ l = .postTag "seen".toList ∨ l = .trnTag "done".toList := by
      rcases hr' with rfl | rfl
      · cases h'
        exact .inl rfl
      · cases h' with
        | all ha h =>
          simp only [List.mem_cons, List.not_mem_nil, or_false] at ha
          rcases ha with rfl | rfl <;> cases h
          · exact .inr (.inl rfl)
          · exact .inr (.inr rfl)
    rcases h1 with rfl | rfl <;> rcases h2 with h | h | h <;> cases h
  descriptions r r' f g hr hr' h h' := by
    have hr := ruleOf_table hr
    simp only [List.mem_cons, List.not_mem_nil, or_false] at hr
    rcases hr with rfl | rfl
    · cases h
    · cases h with
      | inside ha h =>
        simp only [List.mem_cons, List.not_mem_nil, or_false] at ha
        rcases ha with rfl | rfl <;> cases h

set_option maxRecDepth 100000 in
example : Ex.calmRules.updateTransactions id 3 [Ex.trn 1 "shop" [Ex.post "expenses" 5 [], Ex.post "cash" (-5) ["bank"]]] =
    .ok [let t := Ex.trn 1 "shop" [Ex.post "food" 5 [], Ex.post "food" (-5) ["bank", "seen"]]
      ⟨{ t.trn with comment := { t.trn.comment with tags := t.trn.comment.tags.insert "done".toList } }, t.posts⟩] := by
  decide +kernel

/-- The hypothesis of `C105_guarded` is met, by rules that are not separate. -/
theorem Ex.newRules_guarded : Guarded "new".toList Ex.newRules := by
  refine ⟨[_], _, Std.ExtTreeMap.getElem?_ofList_of_mem (k := "start".toList) (Std.LawfulEqOrd.compare_eq_iff_eq.2 rfl) (by simp)
    List.mem_cons_self, fun r hr => ?_, rfl, rfl⟩
  rw [List.mem_singleton.1 hr]
  exact ⟨.all List.mem_cons_self .here, rfl⟩

set_option maxRecDepth 100000 in
example : Ex.newRules.updateTransactions id 3 [Ex.trn 1 "shop" [Ex.post "expenses" 5 ["new"], Ex.post "expenses" (-5) ["old"]]] =
    .ok [Ex.trn 1 "shop" [Ex.post "food" 5 [], Ex.post "expenses" (-5) ["old"]]] := by
  decide +kernel

example : ¬ Separate Ex.newRules := fun h =>
  have hs : Ex.newRules["start".toList]? = some _ := Std.ExtTreeMap.getElem?_ofList_of_mem (k := "start".toList)
    (Std.LawfulEqOrd.compare_eq_iff_eq.2 rfl) (by simp) List.mem_cons_self
  h.apart _ _ .account ⟨_, _, hs, List.mem_cons_self⟩ ⟨_, _, hs, List.mem_cons_self⟩
    (.all (List.mem_cons_of_mem _ List.mem_cons_self) .account) .setAccount

/-- A posting as the import of a CSV file of Nationwide makes it. -/
def Ex.fromBank (acct : String) : PostingInternal :=
  let p := Ex.post acct 5 ["unknown-account"]
  ⟨p.raw, ⟨p.comment.lines, p.comment.tags, Std.ExtTreeMap.ofList [("bank".toList, "Nationwide".toList), ("account".toList, "Current".toList),
    ("trn_type".toList, "Payment to".toList)] compare⟩⟩

set_option maxRecDepth 100000 in
/-- The rules of the example, once and twice: the account was found and is marked as not known all the same. -/
example : exampleTable.updateTransactions id 4 [Ex.trn 1 "ATM Withdrawal" [Ex.fromBank "assets:unknown", Ex.post "expenses:unknown" (-5) ["unknown-account"]]] =
      .ok [Ex.trn 1 "ATM Withdrawal" [Ex.post "assets:nationwide:current" 5 [], Ex.post "expenses:petty" (-5) []]] ∧
    exampleTable.updateTransactions id 4 [Ex.trn 1 "ATM Withdrawal" [Ex.post "assets:nationwide:current" 5 [], Ex.post "expenses:petty" (-5) []]] =
      .ok [Ex.trn 1 "ATM Withdrawal" [Ex.post "assets:nationwide:current" 5 ["unknown-account"], Ex.post "expenses:petty" (-5) ["unknown-account"]]] := by
  decide +kernel

set_option maxRecDepth 100000 in
/-- The hypotheses of `C105_command` are met, by a run that changes something. -/
example (h h' : HashOrder) (stdin : Bytes) (random : Nat → Str) : ∃ sys w w',
    applyRules sys h id 3 (some Ex.newRules) (.path "a".toList) (.path "b".toList) World.start = (.ok (), w) ∧
    applyRules (sysAfter sys w.log stdin (fun _ => none) random) h' id 3 (some Ex.newRules) (.path "b".toList) (.path "b".toList) World.start =
      (.ok (), w') ∧ contentsAfter (contentsAfter sys.start w.log) w'.log = contentsAfter sys.start w.log := by
  have hs : Simple (Ex.trn 1 "shop" [Ex.post "expenses" 5 ["new"], Ex.post "expenses" (-5) ["old"]]) ∧
    Simple (Ex.trn 1 "shop" [Ex.post "food" 5 [], Ex.post "expenses" (-5) ["old"]]) := by decide +kernel
  have hu : Ex.newRules.updateTransactions id 3 [Ex.trn 1 "shop" [Ex.post "expenses" 5 ["new"], Ex.post "expenses" (-5) ["old"]]] =
    .ok [Ex.trn 1 "shop" [Ex.post "food" 5 [], Ex.post "expenses" (-5) ["old"]]] := by decide +kernel
  obtain ⟨L, hL, hts⟩ := Ex.filled_content (fun t ht => by rw [List.mem_singleton.1 ht]; exact hs.1.readable1) "a".toList
  obtain ⟨w, h1, _⟩ := (applyRules_calm (h := h) (output := .path "b".toList) (fun _ => rfl) hL hts).1 _ hu
  obtain ⟨w', h2, h3⟩ := C105_command id Ex.newRules (.inr ⟨_, Ex.newRules_guarded⟩) 3 _ h h' _ (.path "b".toList) _ w L _ _ rfl h1 hL hts hu
    (fun t ht => by rw [List.mem_singleton.1 ht]; exact hs.2.tidy) (by rw [intoLedger_order h HashOrder.sorted]; exact daySystem_back _) stdin random
  exact ⟨_, w, w', h1, h2, h3⟩

set_option maxRecDepth 100000 in
/-- The hypotheses of `C105_example_command` are met. -/
example (h h' : HashOrder) (stdin : Bytes) (random : Nat → Str) : ∃ sys w w' n,
    applyRules sys h id 4 (some exampleTable) (.path "a".toList) (.path "b".toList) World.start = (.ok (), w) ∧
    applyRules (sysAfter sys w.log stdin (fun _ => none) random) h' id 4 (some exampleTable) (.path "b".toList) (.path "b".toList) World.start =
      (.ok (), w') ∧
    contentsAfter sys.start w.log n = some (encodeUtf8 (sys.render (TransactionPostings.intoLedger h
      [Ex.trn 1 "Payroll" [Ex.post "assets:mine" 5 ["unknown-account"], Ex.post "income:salary" (-5) []]]))) ∧
    contentsAfter (contentsAfter sys.start w.log) w'.log n = some (encodeUtf8 (sys.render (TransactionPostings.intoLedger h
      [Ex.trn 1 "Payroll" [Ex.post "assets:mine" 5 ["unknown-account"], Ex.post "income:salary" (-5) ["unknown-account"]]]))) := by
  have hs : Simple (Ex.trn 1 "Payroll" [Ex.post "assets:mine" 5 [], Ex.post "income:unknown" (-5) ["unknown-account"]]) ∧
    Simple (Ex.trn 1 "Payroll" [Ex.post "assets:mine" 5 ["unknown-account"], Ex.post "income:salary" (-5) []]) := by decide +kernel
  have hu : exampleTable.updateTransactions id (0 + 4) [Ex.trn 1 "Payroll" [Ex.post "assets:mine" 5 [], Ex.post "income:unknown" (-5) ["unknown-account"]]] =
    .ok [Ex.trn 1 "Payroll" [Ex.post "assets:mine" 5 ["unknown-account"], Ex.post "income:salary" (-5) []]] := by decide +kernel
  have hm : [Ex.trn 1 "Payroll" [Ex.post "assets:mine" 5 ["unknown-account"], Ex.post "income:salary" (-5) []]].map allUnknown =
    [Ex.trn 1 "Payroll" [Ex.post "assets:mine" 5 ["unknown-account"], Ex.post "income:salary" (-5) ["unknown-account"]]] := by decide +kernel
  obtain ⟨L, hL, hts⟩ := Ex.filled_content (fun t ht => by rw [List.mem_singleton.1 ht]; exact hs.1.readable1) "a".toList
  obtain ⟨w, h1, hlog⟩ := (applyRules_calm (h := h) (output := .path "b".toList) (fun _ => rfl) hL hts).1 _ hu
  obtain ⟨w', h2, h3⟩ := C105_example_command id 0 _ h h' _ (.path "b".toList) _ w L _ _ rfl h1 hL hts hu
    (fun t ht => by rw [List.mem_singleton.1 ht]; exact hs.2.tidy) (by rw [intoLedger_order h HashOrder.sorted]; exact daySystem_back _) stdin random
  rw [hm] at h3
  exact ⟨_, w, w', _, h1, h2, by rw [hlog, contentsAfter_whole]; exact if_pos rfl, h3⟩

/-- A payment from the current account, after the rules of the example. -/
def Ex.fromCurrent : List TransactionPostings :=
  [Ex.trn 1 "ATM Withdrawal" [Ex.post "assets:nationwide:current" (-500) ["fp-a1"], Ex.post "expenses:petty" 500 ["fp-a2"]]]

/-- One of the same day and sum from the savings account. -/
def Ex.fromSavings : List TransactionPostings :=
  [Ex.trn 1 "CHEQUE" [Ex.post "assets:nationwide:savings" (-500) ["fp-b1"], Ex.post "expenses:unknown" 500 ["fp-b2"]]]

set_option maxRecDepth 100000 in
/-- What this means for a journal: two payments of one day and sum from two accounts stay two, but if the rules were applied to the journal once
more, then merging makes them one, which is from the account that comes later. Nothing is handed back. -/
theorem C105_payment_lost :
    exampleTable.updateTransactions id 4 Ex.fromCurrent = .ok (Ex.fromCurrent.map allUnknown) ∧
    ((run [(HashOrder.sorted, Ex.fromCurrent)]).merge HashOrder.sorted Ex.fromSavings).1 = .ok [] ∧
    ((run [(HashOrder.sorted, Ex.fromCurrent.map allUnknown)]).merge HashOrder.sorted Ex.fromSavings).1 = .ok [] ∧
    (run [(HashOrder.sorted, Ex.fromCurrent), (HashOrder.sorted, Ex.fromSavings)]).build HashOrder.sorted = .ok (Ex.fromCurrent ++ Ex.fromSavings) ∧
    (run [(HashOrder.sorted, Ex.fromCurrent.map allUnknown), (HashOrder.sorted, Ex.fromSavings)]).build HashOrder.sorted = .ok
      [Ex.trn 1 "ATM Withdrawal" [Ex.post "assets:nationwide:savings" (-500) ["fp-a1", "fp-b1"], Ex.post "expenses:unknown" 500 ["fp-a2", "fp-b2"]]] := by
  rw [Ex.build_eval, Ex.build_eval]
  decide +kernel

end Verif
