import Verif.Model.Main

/-!
# Commands that run at the same time

The program takes no locks (/repo/src/filespec.rs:33-51), so nothing keeps two runs of it from using the same files at the same time. The commands
are modelled once more, step by step: one step opens or creates a file, or reads or writes one byte. Between any two steps of one
process, others can do any number of steps. That a command is the same as in Model/Commands, Model/ImportFiles and Model/Rules if it runs
alone is the theorem `task_prog`.
-/

namespace Verif

/-- What a command does next, depending on the answers that it gets from outside (the calls at /repo/src/filespec.rs:33-51,67-88,
/repo/src/fpgen.rs:45, /repo/src/importers/cmd.rs:87, /repo/src/importers/nationwide_pdf.rs:46 and /repo/src/rules/cmd.rs:38). -/
inductive Task (α : Type) where
  /-- the command is done -/
  | done (r : Except CmdErr α)
  /-- it reads a file or standard input to the end (/repo/src/filespec.rs:33-41,67-72) -/
  | read (f : FileSpec) (k : Except CmdErr Bytes → Task α)
  /-- it has other programs read a file (/repo/src/importers/nationwide_pdf.rs:46) -/
  | look (p : Str) (k : Option Bytes → Task α)
  /-- it writes to a file or to standard output (/repo/src/filespec.rs:43-51,79-83) -/
  | write (f : FileSpec) (bytes : Bytes) (k : Except CmdErr Unit → Task α)
  /-- it creates directories (/repo/src/importers/cmd.rs:87) -/
  | dirs (k : Except CmdErr Unit → Task α)
  /-- it loads rules (/repo/src/rules/cmd.rs:38) -/
  | load (k : (Nat → Option Bytes) → Task α)
  /-- it draws random identifiers; the argument is how many were drawn before (/repo/src/fpgen.rs:45) -/
  | draw (drawn : Nat → Nat) (k : Nat → Task α)

namespace Task

/-- The `?` operator (as in /repo/src/fmt.rs:15-17). -/
def bind {α β : Type} : Task α → (α → Task β) → Task β
  | .done (.ok a), g => g a
  | .done (.error e), _ => .done (.error e)
  | .read f k, g => .read f fun r => bind (k r) g
  | .look p k, g => .look p fun r => bind (k r) g
  | .write f bytes k, g => .write f bytes fun r => bind (k r) g
  | .dirs k, g => .dirs fun r => bind (k r) g
  | .load k, g => .load fun r => bind (k r) g
  | .draw d k, g => .draw d fun r => bind (k r) g

instance : Monad Task where
  pure a := .done (.ok a)
  bind := bind

/-- An optional result as a result (as in /repo/src/internal.rs:42-55). -/
def ofOption {α : Type} (e : CmdErr) : Option α → Task α
  | some a => .done (.ok a)
  | none => .done (.error e)

/-- The result of an importer as a result of the command (/repo/src/importers/cmd.rs:62). -/
def ofExcept {ε α : Type} : Except ε α → Task α
  | .ok a => .done (.ok a)
  | .error _ => .done (.error .other)

/-- `FileSpec::reader`, read to the end (/repo/src/filespec.rs:33-41). -/
def readBytes (f : FileSpec) : Task Bytes := .read f .done

/-- `read_file` (/repo/src/filespec.rs:67-72). -/
def readFile (f : FileSpec) : Task Str := do
  let bytes ← readBytes f
  ofOption .utf8 (decodeUtf8 bytes)

/-- `read_ledger_file` (/repo/src/filespec.rs:74-77). -/
def readLedgerFile (sys : Sys) (f : FileSpec) : Task Ledger := do
  let content ← readFile f
  ofOption .parse (sys.parse content)

/-- `write_ledger_file` (/repo/src/filespec.rs:79-88). -/
def writeLedgerFile (sys : Sys) (f : FileSpec) (ledger : Ledger) : Task Unit := .write f (encodeUtf8 (sys.render ledger)) .done

/-- `Cmd::run` of `fmt` (/repo/src/fmt.rs:13-20). -/
def fmt (sys : Sys) : List FileSpec → Task Unit
  | [] => pure ()
  | f :: fs => do
    let ledger ← readLedgerFile sys f
    writeLedgerFile sys f ledger
    fmt sys fs

/-- `Cmd::run` of `generate-fingerprints` (/repo/src/fpgen.rs:17-27). -/
def fpGen (sys : Sys) (h : HashOrder) : List FileSpec → Task Unit
  | [] => pure ()
  | f :: fs => do
    let ledger ← readLedgerFile sys f
    let trns ← ofOption .unhandledItem (TransactionPostings.fromLedger ledger)
    let trns ← .draw (fun n => (FpGen.updateTransactions sys.random n trns).1)
      fun n => .done (.ok (FpGen.updateTransactions sys.random n trns).2)
    writeLedgerFile sys f (TransactionPostings.intoLedger h trns)
    fpGen sys h fs

/-- The loop over the input files of `merge` (/repo/src/merge/cmd.rs:28-33). -/
def readInputs (sys : Sys) (ho : Nat → HashOrder) : List FileSpec → MergeCmd.Acc → Task MergeCmd.Acc
  | [], acc => pure acc
  | f :: fs, acc => do
    let ledger ← readLedgerFile sys f
    let trns ← ofOption .unhandledItem (TransactionPostings.fromLedger ledger)
    match MergeCmd.mergeGroups ho (Sources.groups (ho acc.calls) (f.display sys) trns) acc with
    | .error e => .done (.error e)
    | .ok acc => readInputs sys ho fs acc

/-- Writing the unmerged transactions (/repo/src/merge/cmd.rs:35-53). -/
def writeUnmerged (sys : Sys) (h : HashOrder) (args : MergeCmd.Args) (unmerged : List TransactionPostings) : Task Unit :=
  if unmerged.isEmpty then pure ()
  else
    match args.unmerged with
    | some f => writeLedgerFile sys f (TransactionPostings.intoLedger h unmerged)
    | none => .done (.error .unmerged)

/-- `Command::run` of `merge` (/repo/src/merge/cmd.rs:23-60). -/
def merge (sys : Sys) (ho : Nat → HashOrder) (args : MergeCmd.Args) : Task Unit := do
  let acc ← readInputs sys ho args.inputs ⟨0, Merger.new, []⟩
  writeUnmerged sys (ho acc.calls) args acc.unmerged
  match acc.merger.build (ho acc.calls) with
  | .error e => .done (.error (.merge e))
  | .ok trns => writeLedgerFile sys args.output (TransactionPostings.intoLedger (ho acc.calls) (Sources.stripSources trns))

/-- `Command::run` of `apply-rules` (/repo/src/rules/cmd.rs:37-47). Simplified: all rules files are read in one step. -/
def applyRules (sys : Sys) (h : HashOrder) (lower : Str → Str) (fuel : Nat) (rules : (Nat → Option Bytes) → Option Rules.Table)
    (input output : FileSpec) : Task Unit := do
  let table ← .load fun files => ofOption .other (rules files)
  let ledger ← readLedgerFile sys input
  let trns ← ofOption .unhandledItem (TransactionPostings.fromLedger ledger)
  match table.updateTransactions lower fuel trns with
  | .error _ => .done (.error .other)
  | .ok trns => writeLedgerFile sys output (TransactionPostings.intoLedger h trns)

/-- What the importers read (/repo/src/importers/nationwide_csv.rs:58-68, /repo/src/importers/nationwide_pdf.rs:46,
/repo/src/importers/paypal_csv.rs:44-53; simplified as `ImportCmd.Source.importer`). Simplified: the other programs read the file in one
step. -/
def importer : ImportCmd.Source → Task ImportCmd.Importer
  | .nationwideCsv fpNs legacy input => do
    let bytes ← readBytes input
    ofExcept (ImportCmd.Texts.nationwideCsv fpNs legacy (Windows1252.decode bytes)).importer
  | .nationwidePdf fpNs input programs =>
    .look input fun b => ofExcept ((Ocr.ocrDocument (programs b)).map (ImportCmd.Importer.nationwidePdf fpNs))
  | .paypalCsv ns legacy input tz => do
    let text ← readFile input
    let tzText ← readFile tz
    ofExcept (ImportCmd.Texts.paypalCsv ns legacy text tzText).importer

/-- Creating parent directories (/repo/src/importers/cmd.rs:80-91). -/
def makeDirs (hasParent : Str → Bool) (args : ImportCmd.Args) (output : FileSpec) : Task Unit :=
  if args.makeParentDirs then
    match output with
    | .stdio => .done (.error .other)
    | .path p => if hasParent p then .dirs .done else pure ()
  else pure ()

/-- `Command::run` of `import` (/repo/src/importers/cmd.rs:61-95). -/
def importFiles (sys : Sys) (L : ImportLib) (hasParent : Str → Bool) (source : ImportCmd.Source) (args : ImportCmd.Args) : Task Unit := do
  let imp ← importer source
  match imp.doImport L with
  | .error _ => .done (.error .other)
  | .ok imp => do
    let output ← ofOption .other (ImportCmd.outputFor args imp.userFpNamespace)
    makeDirs hasParent args output
    writeLedgerFile sys output (ledgerFromTransactions imp.transactions)

end Task

/-- `main` (/repo/src/main.rs:49-60). -/
def SubCommand.task (sys : Sys) (o : Outside) : SubCommand → Task Unit
  | .applyRules rules input output => Task.applyRules sys (o.orders 0) o.lower o.fuel rules input output
  | .format files => Task.fmt sys files
  | .generateFingerprints files => Task.fpGen sys (o.orders 0) files
  | .importFrom source args => Task.importFiles sys o.lib o.hasParent source args
  | .merge args => Task.merge sys o.orders args

/-- What a process is doing (within the calls at /repo/src/filespec.rs:38,48,70,81). -/
inductive Doing where
  /-- it is about to do the next thing -/
  | next (t : Task Unit)
  /-- it has opened a file and has read so much of it (/repo/src/filespec.rs:70) -/
  | reading (n : Nat) (got : Bytes) (k : Except CmdErr Bytes → Task Unit)
  /-- it has created a file, has written up to a position in it, still has to write the rest, and will then have a result
  (/repo/src/filespec.rs:81) -/
  | writing (n pos : Nat) (rest : Bytes) (r : Except CmdErr Unit) (k : Except CmdErr Unit → Task Unit)
  /-- the same for standard output (/repo/src/filespec.rs:81) -/
  | printing (rest : Bytes) (r : Except CmdErr Unit) (k : Except CmdErr Unit → Task Unit)

/-- A process that runs the program: what is special to it, what it did so far, and what it is doing (/repo/src/main.rs:49-60). The
files are not part of it: `sys.start` is not used. -/
structure Proc where
  sys : Sys
  world : World
  doing : Doing

/-- A byte is written at a position of a file, whatever others have made of the file meanwhile (the process has its own position in the file
since `File::create`, /repo/src/filespec.rs:48; a gap is filled with zeros). -/
def putByte (old : Bytes) (pos : Nat) (b : UInt8) : Bytes :=
  old.take pos ++ List.replicate (pos - old.length) 0 ++ b :: old.drop (pos + 1)

/-- The files, with one of them changed (by the calls at /repo/src/filespec.rs:48,81). -/
def setFile (files : Nat → Option Bytes) (n : Nat) (b : Bytes) : Nat → Option Bytes := fun m => if m = n then some b else files m

namespace Proc

/-- The process has done one more operation on files (the calls at /repo/src/filespec.rs:38,48). -/
def op (p : Proc) (d : Doing) : Proc := { p with world := { p.world with ops := p.world.ops + 1 }, doing := d }

/-- The process has done something that can be seen from outside (the calls at /repo/src/filespec.rs:48,81). -/
def did (p : Proc) (e : Eff) (d : Doing) : Proc := { p with world := { p.world with log := p.world.log ++ [e] }, doing := d }

/-- One step of a process: what becomes of the files and of the process (/repo/src/filespec.rs:33-51,67-83, /repo/src/fpgen.rs:45,
/repo/src/importers/cmd.rs:87). Simplified: standard input is read in one step, and if reading a file fails then it fails at the
beginning. -/
def step (files : Nat → Option Bytes) (p : Proc) : (Nat → Option Bytes) × Proc :=
  match p.doing with
  | .next (.done _) => (files, p)
  | .next (.read .stdio k) =>
    let q := { p with world := { p.world with ops := p.world.ops + 1, stdinRead := true } }
    match p.sys.fault p.world.ops with
    | some _ => (files, { q with doing := .next (k (.error .read)) })
    | none => (files, { q with doing := .next (k (.ok (if p.world.stdinRead then [] else p.sys.stdin))) })
  | .next (.read (.path s) k) =>
    match files (p.sys.file s), p.sys.fault p.world.ops with
    | none, _ => (files, p.op (.next (k (.error .open_))))
    | some _, some 0 => (files, p.op (.next (k (.error .open_))))
    | some _, some (_ + 1) => (files, p.op (.next (k (.error .read))))
    | some _, none => (files, p.op (.reading (p.sys.file s) [] k))
  | .next (.look s k) => (files, { p with doing := .next (k (files (p.sys.file s))) })
  | .next (.write .stdio bytes k) =>
    match p.sys.fault p.world.ops with
    | some m => (files, p.op (.printing (bytes.take m) (.error .write) k))
    | none => (files, p.op (.printing bytes (.ok ()) k))
  | .next (.write (.path s) bytes k) =>
    match p.sys.fault p.world.ops with
    | some 0 => (files, p.op (.next (k (.error .create))))
    | some (m + 1) =>
      (setFile files (p.sys.file s) [],
        (p.op p.doing).did (.create (p.sys.file s)) (.writing (p.sys.file s) 0 (bytes.take m) (.error .write) k))
    | none =>
      (setFile files (p.sys.file s) [], (p.op p.doing).did (.create (p.sys.file s)) (.writing (p.sys.file s) 0 bytes (.ok ()) k))
  | .next (.dirs k) =>
    match p.sys.fault p.world.ops with
    | some _ => (files, p.op (.next (k (.error .other))))
    | none => (files, p.op (.next (k (.ok ()))))
  | .next (.load k) => (files, { p with doing := .next (k files) })
  | .next (.draw d k) =>
    (files, { p with world := { p.world with drawn := d p.world.drawn }, doing := .next (k p.world.drawn) })
  | .reading n got k =>
    match ((files n).getD [])[got.length]? with
    | none => (files, { p with doing := .next (k (.ok got)) })
    | some b => (files, { p with doing := .reading n (got ++ [b]) k })
  | .writing _ _ [] r k => (files, { p with doing := .next (k r) })
  | .writing n pos (b :: rest) r k =>
    (setFile files n (putByte ((files n).getD []) pos b), p.did (.write n b) (.writing n (pos + 1) rest r k))
  | .printing [] r k => (files, { p with doing := .next (k r) })
  | .printing (b :: rest) r k => (files, p.did (.print b) (.printing rest r k))

/-- The process has come to an end, with this result (/repo/src/main.rs:49-60). -/
def Finished (p : Proc) (r : Except CmdErr Unit) : Prop := p.doing = .next (.done r)

end Proc

/-- Several processes and the files that they share (not a value of the code; the files are those of the calls at
/repo/src/filespec.rs:38,48). -/
structure Shared (ι : Type) where
  files : Nat → Option Bytes
  procs : ι → Proc

/-- One process does one step (/repo/src/filespec.rs:33-51,67-83). -/
def Shared.step {ι : Type} [DecidableEq ι] (s : Shared ι) (i : ι) : Shared ι :=
  ⟨((s.procs i).step s.files).1, fun j => if j = i then ((s.procs i).step s.files).2 else s.procs j⟩

/-- The processes do their steps in the given order (not code: it is the operating system that decides who is next; the steps are those of
/repo/src/filespec.rs:33-51,67-83). -/
def Shared.run {ι : Type} [DecidableEq ι] : Shared ι → List ι → Shared ι
  | s, [] => s
  | s, i :: is => Shared.run (s.step i) is

end Verif
