import Verif.Model.Files

/-!
Standard output as the program sees it: `stdout()` of Rust is a line buffer in front of the file descriptor. `Model/Files`
writes standard output at once; this file models the buffer, so that the two can be compared. The code of the buffer is not
in /repo but in Rust's standard library (`LineWriter`, `BufWriter`, `handle_ebadf` and the clean-up after `main`); it is
modelled from its documentation and source, the lines cited are those that call it.
-/

namespace Verif.Stdout

/-- What happens to one call that writes bytes to the file descriptor (below /repo/src/filespec.rs:81). -/
inductive Answer where
  /-- all bytes are written -/
  | all
  /-- so many bytes are written, then there is an error -/
  | fails (k : Nat)
  /-- there is no such file descriptor (`EBADF`); the standard library takes this for success -/
  | closed
  deriving DecidableEq

/-- The file descriptor: the answer to each call, by its number (below /repo/src/filespec.rs:81). -/
abbrev Device := Nat → Answer

/-- The state of standard output (/repo/src/filespec.rs:46). -/
structure St where
  /-- bytes that are in the buffer -/
  buf : Bytes
  /-- bytes that were printed -/
  printed : Bytes
  /-- calls of the file descriptor so far -/
  calls : Nat
  deriving DecidableEq

/-- The start of the program (/repo/src/main.rs:50). -/
def St.start : St := ⟨[], [], 0⟩

/-- The size of the buffer of `stdout()` (/repo/src/filespec.rs:46). -/
def capacity : Nat := 1024

/-- The byte that ends a line, which the buffer of `stdout()` looks for (/repo/src/filespec.rs:46). -/
def newline : UInt8 := 10

variable (dev : Device)

/-- `StdoutRaw::write_all`, past the buffer (below /repo/src/filespec.rs:81). `true` stands for success. -/
def rawWriteAll (b : Bytes) (s : St) : Bool × St :=
  match dev s.calls with
  | .all => (true, { s with printed := s.printed ++ b, calls := s.calls + 1 })
  | .fails k => (false, { s with printed := s.printed ++ b.take k, calls := s.calls + 1 })
  | .closed => (true, { s with calls := s.calls + 1 })

/-- `BufWriter::flush_buf`: what was written leaves the buffer, also if there is an error (below /repo/src/filespec.rs:81). No
call is made if the buffer is empty. -/
def flushBuf (s : St) : Bool × St :=
  if s.buf = [] then (true, s)
  else match dev s.calls with
    | .all => (true, { buf := [], printed := s.printed ++ s.buf, calls := s.calls + 1 })
    | .fails k => (false, { buf := s.buf.drop k, printed := s.printed ++ s.buf.take k, calls := s.calls + 1 })
    | .closed => (true, { buf := [], printed := s.printed, calls := s.calls + 1 })

/-- `BufWriter::write_all` with `write_all_cold` (below /repo/src/filespec.rs:81). -/
def bufWriteAll (b : Bytes) (s : St) : Bool × St :=
  if b.length < capacity - s.buf.length then (true, { s with buf := s.buf ++ b })
  else
    match (if b.length > capacity - s.buf.length then flushBuf dev s else (true, s)) with
    | (false, s) => (false, s)
    | (true, s) =>
      if b.length ≥ capacity then rawWriteAll dev b s
      else (true, { s with buf := s.buf ++ b })

/-- The bytes up to the last end of a line and those after it (`memrchr` and `split_at`, below /repo/src/filespec.rs:81). -/
def splitLines (b : Bytes) : Bytes × Bytes :=
  ((b.reverse.dropWhile (· != newline)).reverse, (b.reverse.takeWhile (· != newline)).reverse)

/-- `LineWriterShim::write_all` (called at /repo/src/filespec.rs:81 for standard output). -/
def writeAll (b : Bytes) (s : St) : Bool × St :=
  if newline ∈ b then
    let (lines, tail) := splitLines b
    match (if s.buf = [] then rawWriteAll dev lines s
           else match bufWriteAll dev lines s with
             | (false, s) => (false, s)
             | (true, s) => flushBuf dev s) with
    | (false, s) => (false, s)
    | (true, s) => bufWriteAll dev tail s
  else
    match (if s.buf.getLast? = some newline then flushBuf dev s else (true, s)) with
    | (false, s) => (false, s)
    | (true, s) => bufWriteAll dev b s

/-- Several calls of `write_file` with standard output, up to the first error (as in the loop of /repo/src/fmt.rs:14-17, or
/repo/src/merge/cmd.rs:46,60). -/
def writes : List Bytes → St → Bool × St
  | [], s => (true, s)
  | b :: bs, s =>
    match writeAll dev b s with
    | (false, s) => (false, s)
    | (true, s) => writes bs s

/-- After `main` the buffer is written out; an error of this is ignored (after /repo/src/main.rs:50-60). -/
def exit (s : St) : St := (flushBuf dev s).2

/-- A program that prints these texts: whether it reports success, and what was printed in the end
(/repo/src/main.rs:50-60). -/
def program (texts : List Bytes) : Bool × Bytes :=
  let r := writes dev texts .start
  (r.1, (exit dev r.2).printed)

end Verif.Stdout
