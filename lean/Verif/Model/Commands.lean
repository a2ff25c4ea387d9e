import Verif.Model.Files

/-!
# The commands `fmt`, `generate-fingerprints` and `merge`
-/

namespace Verif

/-! ### `fmt` (/repo/src/fmt.rs) -/

/-- `Cmd::run` of `fmt` (/repo/src/fmt.rs:13-20). -/
def fmtRun (sys : Sys) : List FileSpec → Prog Unit
  | [] => pure ()
  | f :: fs => do
    let ledger ← Files.readLedgerFile sys f
    Files.writeLedgerFile sys f ledger
    fmtRun sys fs

/-! ### `generate-fingerprints` (/repo/src/fpgen.rs) -/

namespace FpGen

/-- The loop over the postings of one transaction (/repo/src/fpgen.rs:32-48), starting with random identifier
number `n`. Returns the next number. -/
def updatePosts (random : Nat → Str) : Nat → List PostingInternal → Nat × List PostingInternal
  | n, [] => (n, [])
  | n, p :: ps =>
    if !p.comment.tags.toList.any isFingerprint then
      let tag := Tags.fingerprintPrefix ++ "uuidb64-".toList ++ random n
      let p' := { p with comment := { p.comment with tags := p.comment.tags.insert tag } }
      let (n', ps') := updatePosts random (n + 1) ps
      (n', p' :: ps')
    else
      let (n', ps') := updatePosts random n ps
      (n', p :: ps')

/-- `update_transactions` (/repo/src/fpgen.rs:30-50). -/
def updateTransactions (random : Nat → Str) : Nat → List TransactionPostings → Nat × List TransactionPostings
  | n, [] => (n, [])
  | n, t :: ts =>
    let (n', ps) := updatePosts random n t.posts
    let (n'', ts') := updateTransactions random n' ts
    (n'', { t with posts := ps } :: ts')

/-- `update_transactions` as part of a run: random identifiers are drawn (/repo/src/fpgen.rs:21,30-50). -/
def update (sys : Sys) (ts : List TransactionPostings) : Prog (List TransactionPostings) := fun w =>
  let (n, ts) := updateTransactions sys.random w.drawn ts
  (.ok ts, { w with drawn := n })

/-- `Cmd::run` of `generate-fingerprints` (/repo/src/fpgen.rs:17-27). -/
def run (sys : Sys) (h : HashOrder) : List FileSpec → Prog Unit
  | [] => pure ()
  | f :: fs => do
    let ledger ← Files.readLedgerFile sys f
    let trns ← Prog.ofOption .unhandledItem (TransactionPostings.fromLedger ledger)
    let trns ← update sys trns
    let ledger := TransactionPostings.intoLedger h trns
    Files.writeLedgerFile sys f ledger
    run sys h fs

end FpGen

/-! ### `merge` (/repo/src/merge/sources.rs, /repo/src/merge/cmd.rs) -/

namespace Sources

/-- Transactions by source (/repo/src/merge/sources.rs:19). -/
abbrev BySource := Std.ExtTreeMap Str (List TransactionPostings) compare

/-- The loop of `read_ledger_file` (/repo/src/merge/sources.rs:20-32). -/
def group (defaultSource : Str) : List TransactionPostings → BySource → BySource
  | [], m => m
  | t :: ts, m =>
    let source := (t.trn.comment.valueTags[Tags.sourceKey]?).getD defaultSource
    let t := { t with trn := { t.trn with comment := { t.trn.comment with
      valueTags := t.trn.comment.valueTags.insert Tags.sourceKey source } } }
    group defaultSource ts (m.insert source ((m[source]?).getD [] ++ [t]))

/-- Groups of transactions in the order of their sources (/repo/src/merge/sources.rs:34-42). -/
def groups (h : HashOrder) (defaultSource : Str) (ts : List TransactionPostings) : List (List TransactionPostings) :=
  let sourceTrnPosts := h.iter .sources (group defaultSource ts ∅).toList
  (sortBy (fun a b => (compare a.1 b.1).isLE) sourceTrnPosts).map (·.2)

/-- `sources::read_ledger_file` (/repo/src/merge/sources.rs:12-42). -/
def readLedgerFile (sys : Sys) (h : HashOrder) (f : FileSpec) : Prog (List (List TransactionPostings)) := do
  let ledger ← Files.readLedgerFile sys f
  let trns ← Prog.ofOption .unhandledItem (TransactionPostings.fromLedger ledger)
  return groups h (f.display sys) trns

/-- `strip_sources` (/repo/src/merge/sources.rs:45-53). -/
def stripSources (ts : List TransactionPostings) : List TransactionPostings :=
  ts.map fun t => { t with trn := { t.trn with comment := { t.trn.comment with
    valueTags := t.trn.comment.valueTags.erase Tags.sourceKey } } }

end Sources

namespace MergeCmd

/-- `Command` of `merge` (/repo/src/merge/cmd.rs:9-20). -/
structure Args where
  inputs : List FileSpec
  unmerged : Option FileSpec
  output : FileSpec

/-- The state of the loop over the inputs (/repo/src/merge/cmd.rs:24-26): the number of merge calls so far, the merger and
the unmerged transactions. -/
structure Acc where
  calls : Nat
  merger : Merger
  unmerged : List TransactionPostings

/-- The loop over the sources in one file (/repo/src/merge/cmd.rs:29-32). Every merge call has its own hash iteration
orders. -/
def mergeGroups (ho : Nat → HashOrder) : List (List TransactionPostings) → Acc → Except CmdErr Acc
  | [], acc => .ok acc
  | g :: gs, acc =>
    match acc.merger.merge (ho acc.calls) g with
    | (.error e, _) => .error (.merge e)
    | (.ok us, merger) => mergeGroups ho gs ⟨acc.calls + 1, merger, acc.unmerged ++ us⟩

/-- The loop over the input files (/repo/src/merge/cmd.rs:28-33). -/
def readInputs (sys : Sys) (ho : Nat → HashOrder) : List FileSpec → Acc → Prog Acc
  | [], acc => pure acc
  | f :: fs, acc => do
    let gs ← Sources.readLedgerFile sys (ho acc.calls) f
    match mergeGroups ho gs acc with
    | .error e => Prog.fail e
    | .ok acc => readInputs sys ho fs acc

/-- Writing the unmerged transactions (/repo/src/merge/cmd.rs:35-53). -/
def writeUnmerged (sys : Sys) (h : HashOrder) (args : Args) (unmerged : List TransactionPostings) : Prog Unit :=
  if unmerged.isEmpty then pure ()
  else
    match args.unmerged with
    | some fs => Files.writeLedgerFile sys fs (TransactionPostings.intoLedger h unmerged)
    | none => Prog.fail .unmerged

/-- `Command::run` of `merge` (/repo/src/merge/cmd.rs:23-60). -/
def run (sys : Sys) (ho : Nat → HashOrder) (args : Args) : Prog Unit := do
  let acc ← readInputs sys ho args.inputs ⟨0, Merger.new, []⟩
  writeUnmerged sys (ho acc.calls) args acc.unmerged
  match acc.merger.build (ho acc.calls) with
  | .error e => Prog.fail (.merge e)
  | .ok trns =>
    let trns := Sources.stripSources trns
    let ledger := TransactionPostings.intoLedger (ho acc.calls) trns
    Files.writeLedgerFile sys args.output ledger

end MergeCmd
end Verif
