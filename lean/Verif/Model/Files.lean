import Verif.Base.Digest
import Verif.Model.Merger
import Verif.Model.Convert

/-!
# Files (/repo/src/filespec.rs) and the operating system

A run of a command leaves a log of effects on files and standard output, byte by byte. What the files contain at some
moment follows from what they contained at the start and the effects so far; a crash at any moment is a prefix of
the log.
-/

namespace Verif

/-- `FileSpec` (/repo/src/filespec.rs:15-20). -/
inductive FileSpec where
  | stdio
  | path (p : Str)
  deriving DecidableEq

/-- `FromStr for FileSpec` (/repo/src/filespec.rs:54-65). -/
def FileSpec.fromStr (s : Str) : FileSpec := if s = ['-'] then .stdio else .path s

/-- One effect of a run on the outside world. Files are identified by number; several paths can name one file
(/repo/src/filespec.rs:43-51,79-88). -/
inductive Eff where
  /-- the file exists and is empty from now on: `File::create` (/repo/src/filespec.rs:48) -/
  | create (file : Nat)
  /-- one byte is written to the end of the file (/repo/src/filespec.rs:81) -/
  | write (file : Nat) (b : UInt8)
  /-- one byte is written to standard output (/repo/src/filespec.rs:81) -/
  | print (b : UInt8)
  deriving DecidableEq

/-- Everything outside that a run depends on (/repo/src/filespec.rs:33-51,67-88, /repo/src/fpgen.rs:45). -/
structure Sys where
  /-- the file that a path names; fixed while the command runs -/
  file : Str → Nat
  /-- what the files contain at the start -/
  start : Nat → Option Bytes
  /-- what can be read from standard input -/
  stdin : Bytes
  /-- the `n`-th operation on files fails: opening fails, or writing fails after so many bytes -/
  fault : Nat → Option Nat
  /-- `{:?}` of a path (/repo/src/filespec.rs:27) -/
  showPath : Str → Str
  /-- `ledger_parser::parse` (/repo/src/filespec.rs:76) -/
  parse : Str → Option Ledger
  /-- `Display for Ledger` (/repo/src/filespec.rs:86) -/
  render : Ledger → Str
  /-- the `n`-th random identifier `UuidB64::new().to_istring()` (/repo/src/fpgen.rs:45) -/
  random : Nat → Str

/-- The state of a run: what it did so far (not a value of the code; it records the calls at /repo/src/filespec.rs:33-51,67-88 and
/repo/src/fpgen.rs:45). -/
structure World where
  log : List Eff
  /-- operations on files so far -/
  ops : Nat
  /-- standard input has been read to its end -/
  stdinRead : Bool
  /-- random identifiers drawn so far -/
  drawn : Nat

/-- Nothing was done yet (the start of `main`, /repo/src/main.rs:50). -/
def World.start : World := ⟨[], 0, false, 0⟩

/-- The contents of the files after some effects (what the calls at /repo/src/filespec.rs:48,81 do to the file system). -/
def contentsAfter (start : Nat → Option Bytes) : List Eff → Nat → Option Bytes
  | [] => start
  | .create n :: es => contentsAfter (fun m => if m = n then some [] else start m) es
  | .write n b :: es => contentsAfter (fun m => if m = n then some ((start m).getD [] ++ [b]) else start m) es
  | .print _ :: es => contentsAfter start es

/-- Why a command fails, by kind (/repo/src/filespec.rs:38,48,70,76,81, /repo/src/internal.rs:49, /repo/src/merge/cmd.rs:49). -/
inductive CmdErr where
  | open_
  | read
  | utf8
  | parse
  | unhandledItem
  | merge (e : MergeErr)
  | unmerged
  | create
  | write
  /-- an error of a rules engine or an importer -/
  | other
  deriving DecidableEq

/-- A command: the result and the state afterwards; the state is also there if the command failed. Stands for functions with result
`anyhow::Result` such as /repo/src/fmt.rs:13-20. -/
def Prog (α : Type) := World → Except CmdErr α × World

namespace Prog

/-- `Ok(a)` (as in /repo/src/fmt.rs:19). -/
def pure {α : Type} (a : α) : Prog α := fun w => (.ok a, w)

/-- The `?` operator (as in /repo/src/fmt.rs:15-17). -/
def bind {α β : Type} (p : Prog α) (f : α → Prog β) : Prog β := fun w =>
  match p w with
  | (.ok a, w) => f a w
  | (.error e, w) => (.error e, w)

/-- `bail!` (as in /repo/src/merge/cmd.rs:49). -/
def fail {α : Type} (e : CmdErr) : Prog α := fun w => (.error e, w)

/-- An optional result as a result (as in /repo/src/internal.rs:42-55; the error is by kind). -/
def ofOption {α : Type} (e : CmdErr) : Option α → Prog α
  | some a => pure a
  | none => fail e

instance : Monad Prog where
  pure := pure
  bind := bind

end Prog

namespace Files
variable (sys : Sys)

/-- `FileSpec::reader` and `read_file` (/repo/src/filespec.rs:33-41, 67-72). Reading standard input a second time finds
its end. -/
def readFile : FileSpec → Prog Str
  | .stdio => fun w =>
    match sys.fault w.ops with
    | some _ => (.error .read, { w with ops := w.ops + 1, stdinRead := true })
    | none => Prog.ofOption .utf8 (decodeUtf8 (if w.stdinRead then [] else sys.stdin)) { w with ops := w.ops + 1, stdinRead := true }
  | .path p => fun w =>
    match contentsAfter sys.start w.log (sys.file p) with
    | none => (.error .open_, { w with ops := w.ops + 1 })
    | some b =>
      match sys.fault w.ops with
      | some 0 => (.error .open_, { w with ops := w.ops + 1 })
      | some _ => (.error .read, { w with ops := w.ops + 1 })
      | none => Prog.ofOption .utf8 (decodeUtf8 b) { w with ops := w.ops + 1 }

/-- `filespec::read_ledger_file` (/repo/src/filespec.rs:74-77). -/
def readLedgerFile (fs : FileSpec) : Prog Ledger := do
  let content ← readFile sys fs
  Prog.ofOption .parse (sys.parse content)

/-- `FileSpec::writer` and `write_file` (/repo/src/filespec.rs:43-51, 79-83). With fault `0` the file cannot be created;
with fault `k + 1`, writing fails after `k` bytes. -/
def writeFile (fs : FileSpec) (content : Str) : Prog Unit := fun w =>
  let bytes := encodeUtf8 content
  match fs, sys.fault w.ops with
  | .stdio, none => (.ok (), { w with ops := w.ops + 1, log := w.log ++ bytes.map .print })
  | .stdio, some k => (.error .write, { w with ops := w.ops + 1, log := w.log ++ (bytes.take k).map .print })
  | .path p, none => (.ok (), { w with ops := w.ops + 1, log := w.log ++ (.create (sys.file p) :: bytes.map (.write (sys.file p))) })
  | .path _, some 0 => (.error .create, { w with ops := w.ops + 1 })
  | .path p, some (k + 1) =>
    (.error .write, { w with ops := w.ops + 1, log := w.log ++ (.create (sys.file p) :: (bytes.take k).map (.write (sys.file p))) })

/-- `filespec::write_ledger_file` (/repo/src/filespec.rs:85-88). -/
def writeLedgerFile (fs : FileSpec) (ledger : Ledger) : Prog Unit := writeFile sys fs (sys.render ledger)

end Files

/-- `Display for FileSpec` (/repo/src/filespec.rs:22-30). -/
def FileSpec.display (sys : Sys) : FileSpec → Str
  | .stdio => "<stdio>".toList
  | .path p => sys.showPath p

end Verif
