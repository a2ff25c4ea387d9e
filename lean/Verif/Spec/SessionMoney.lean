import Verif.Spec.Session

/-!
# Specification: what no session changes about money
-/

namespace Verif.Spec

/-- What a posting says about money is kept: the amount and the reality stay, a balance stays, and a status stays or is cleared. A balance
or a status may be added where there was none. -/
structure KeptMoney (p p' : PostingInternal) : Prop where
  amount : p'.raw.amount = p.raw.amount
  reality : p'.raw.reality = p.raw.reality
  balance : p.raw.balance = none ∨ p'.raw.balance = p.raw.balance
  status : p'.raw.status = p.raw.status ∨ p.raw.status = none ∨ (p.raw.status = some .pending ∧ p'.raw.status = some .cleared)

/-- What a transaction says about money is kept: dates, status and code stay, the postings stay in their order with what they say about
money, and postings may be added behind them. -/
structure KeptEntry (T T' : TransactionPostings) : Prop where
  date : T'.trn.raw.date = T.trn.raw.date
  effectiveDate : T'.trn.raw.effectiveDate = T.trn.raw.effectiveDate
  status : T'.trn.raw.status = T.trn.raw.status
  code : T'.trn.raw.code = T.trn.raw.code
  posts : ∃ old new, T'.posts = old ++ new ∧ List.Forall₂ KeptMoney T.posts old

/-- Every transaction with postings is still there, each as one of its own, with all it says about money. -/
def KeepsMoney (sys : Sys) (n : Nat) (before after : Nat → Option Bytes) : Prop :=
  ∀ ts, readable sys before n = some ts →
    ∃ ts' kept, readable sys after n = some ts' ∧
      List.Forall₂ KeptEntry (ts.filter fun T => decide (T.posts ≠ [])) kept ∧ kept.Subperm ts'

/-- All that is said about money in a ledger: dates, statuses and codes, and the amounts, balances, realities and statuses of postings. -/
def moneyIn (L : Ledger) : List ((Date × Option Date × Option Status × Option Str) × List (Option PostingAmount × Option Balance × Reality × Option Status)) :=
  (transactionsOf L.items).map fun t =>
    ((t.date, t.effectiveDate, t.status, t.code), t.postings.map fun p => (p.amount, p.balance, p.reality, p.status))

/-- The printed ledger can be parsed, and it says the same about money. -/
def MoneyComesBack (sys : Sys) (L : Ledger) : Prop := ∃ L', sys.parse (sys.render L) = some L' ∧ moneyIn L' = moneyIn L

/-- The run is not one that writes to the file; or it is a run of `fmt`, `generate-fingerprints`, `apply-rules` or `merge` that is not stopped
and does not fail in the middle of writing. If it is `apply-rules`, the journal is read and written back; the rules may be any rules. If
it is `merge`, the journal is the first input and the output, and it notes no sources. What is printed must be parsed with what
was printed about money. -/
def CareOfMoney (base : Sys) (n : Nat) (files : Nat → Option Bytes) (s : Step) : Prop :=
  (∀ f, Target s.cmd f → fileOf base f ≠ some n) ∨
  (s.killed = none ∧ (s.run base files).1 ≠ .error .write ∧
    match s.cmd with
    | .format _ => ∀ text L, base.parse text = some L → MoneyComesBack base L
    | .generateFingerprints _ => ∀ text L ts k, base.parse text = some L → TransactionPostings.fromLedger L = some ts →
        MoneyComesBack base (TransactionPostings.intoLedger HashOrder.sorted (FpGen.updateTransactions s.random k ts).2)
    | .applyRules rules input output => fileOf base input = some n ∧ fileOf base output = some n ∧
        ∀ T ts ts', rules files = some T → readable base files n = some ts →
          T.updateTransactions s.outside.lower s.outside.fuel ts = .ok ts' →
          MoneyComesBack base (TransactionPostings.intoLedger HashOrder.sorted ts')
    | .merge args =>
      fileOf base args.output = some n ∧ (∀ f, args.unmerged = some f → fileOf base f ≠ some n) ∧
      (∃ p fs, args.inputs = .path p :: fs ∧ base.file p = n) ∧
      (∀ ts, readable base files n = some ts → ∀ T ∈ ts, srcKey ∉ T.trn.comment.valueTags) ∧
      ∀ gs, mergeInputs (s.sys base files) false args.inputs = some gs →
        MoneyComesBack base (TransactionPostings.intoLedger HashOrder.sorted ((bookAfter gs).journal.map unsourced))
    | _ => False)

end Verif.Spec
