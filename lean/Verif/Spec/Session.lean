import Verif.Model.Main
import Verif.Spec.MergeCmd
import Verif.Spec.ImportCmd
import Verif.Spec.Ledger

/-!
# Specification: a session

A session is one run of the program after the other, with any commands, over the same files.
-/

namespace Verif.Spec

/-- One run of a session: what is run, and what is special to this run. -/
structure Step where
  cmd : SubCommand
  outside : Outside
  stdin : Bytes
  fault : Nat → Option Nat
  random : Nat → Str
  /-- the machine stops after so many effects, or not at all -/
  killed : Option Nat

/-- What the run finds when the files have the given contents. -/
def Step.sys (base : Sys) (files : Nat → Option Bytes) (s : Step) : Sys :=
  { base with start := files, stdin := s.stdin, fault := s.fault, random := s.random }

/-- The result of the run, and what it did. -/
def Step.run (base : Sys) (files : Nat → Option Bytes) (s : Step) : Except CmdErr Unit × World :=
  s.cmd.run (s.sys base files) s.outside World.start

/-- The files after the run. -/
def Step.after (base : Sys) (files : Nat → Option Bytes) (s : Step) : Nat → Option Bytes :=
  contentsAfter files (match s.killed with
    | none => (s.run base files).2.log
    | some k => (s.run base files).2.log.take k)

/-- The files after a session. -/
def afterSession (base : Sys) : (Nat → Option Bytes) → List Step → Nat → Option Bytes
  | files, [] => files
  | files, s :: ss => afterSession base (s.after base files) ss

/-- The file arguments that a command may write to. -/
def Target : SubCommand → FileSpec → Prop
  | .applyRules _ _ output, f => f = output
  | .format files, f => f ∈ files
  | .generateFingerprints files, f => f ∈ files
  | .importFrom _ args, f => ∃ ns, WritesTo args ns f
  | .merge args, f => f = args.output ∨ args.unmerged = some f

/-- The transactions that can be read from a file. -/
def readable (sys : Sys) (files : Nat → Option Bytes) (n : Nat) : Option (List TransactionPostings) :=
  (((files n).bind decodeUtf8).bind sys.parse).map fun L => (transactionsOf L.items).map TransactionPostings.ofTransaction

/-- Every posting of `T` is a posting of `T'` as well, with at least the same tags; only the mark for unknown accounts may be gone. -/
def StaysTogether (T T' : TransactionPostings) : Prop :=
  ∀ p ∈ T.posts, ∃ p' ∈ T'.posts, ∀ t ∈ tagsOf p, t ≠ unknownTag → t ∈ tagsOf p'

/-- Whatever transactions with postings can be read from the file before can be read from it afterwards: their postings, together, with
their tags. -/
def KeepsTags (sys : Sys) (n : Nat) (before after : Nat → Option Bytes) : Prop :=
  ∀ ts, readable sys before n = some ts →
    ∃ ts', readable sys after n = some ts' ∧ ∀ T ∈ ts, T.posts ≠ [] → ∃ T' ∈ ts', StaysTogether T T'

/-- The comments of postings, by transaction. -/
def postingComments (L : Ledger) : List (List (Option Str)) := (transactionsOf L.items).map fun t => t.postings.map (·.comment)

/-- The printed ledger can be parsed, and comments of postings come back as they were. -/
def CommentsComeBack (sys : Sys) (L : Ledger) : Prop :=
  ∃ L', sys.parse (sys.render L) = some L' ∧ postingComments L' = postingComments L

/-- The run is not one that writes to the file; or it is a run of `fmt`, `generate-fingerprints` or `merge` that is not stopped and does not
fail in the middle of writing. If it is `merge`, then the file is the output and one of the inputs, and not the file for what is
unmerged. There is no such file at all, or the journal is the first input and notes no sources. What is printed must be parsed with the
comments that were printed, and random identifiers must not contain colons or white space. -/
def CareOfTags (base : Sys) (n : Nat) (files : Nat → Option Bytes) (s : Step) : Prop :=
  (∀ f, Target s.cmd f → fileOf base f ≠ some n) ∨
  (s.killed = none ∧ (s.run base files).1 ≠ .error .write ∧
    match s.cmd with
    | .format _ => ∀ text L, base.parse text = some L → CommentsComeBack base L
    | .generateFingerprints _ =>
      (∀ k, ∀ c ∈ s.random k, c ≠ ':' ∧ c ≠ ' ' ∧ c ≠ '\n') ∧
      ∀ text L ts k, base.parse text = some L → TransactionPostings.fromLedger L = some ts →
        CommentsComeBack base (TransactionPostings.intoLedger HashOrder.sorted (FpGen.updateTransactions s.random k ts).2)
    | .merge args =>
      fileOf base args.output = some n ∧ (∀ f, args.unmerged = some f → fileOf base f ≠ some n) ∧
      ((args.unmerged = none ∧ ∃ f ∈ args.inputs, fileOf base f = some n) ∨
       (∃ p fs, args.inputs = .path p :: fs ∧ base.file p = n ∧
         ∀ ts, readable base files n = some ts → ∀ T ∈ ts, srcKey ∉ T.trn.comment.valueTags)) ∧
      ∀ gs, mergeInputs (s.sys base files) false args.inputs = some gs →
        CommentsComeBack base (TransactionPostings.intoLedger HashOrder.sorted ((bookAfter gs).journal.map unsourced))
    | _ => False)

/-- Every run of the session satisfies the condition when its turn comes. -/
def EveryStep (base : Sys) (P : (Nat → Option Bytes) → Step → Prop) : (Nat → Option Bytes) → List Step → Prop
  | _, [] => True
  | files, s :: ss => P files s ∧ EveryStep base P (s.after base files) ss

/-! ### Journals that only grow -/

/-- What may become of a posting on disk: nothing is lost or changed, but that an account that is marked as unknown may become known, and
a status and a balance may be added or, in the case of a pending status, cleared. -/
structure KeptPosting (p p' : PostingInternal) : Prop where
  amount : p'.raw.amount = p.raw.amount
  reality : p'.raw.reality = p.raw.reality
  balance : p.raw.balance = none ∨ p'.raw.balance = p.raw.balance
  status : p'.raw.status = p.raw.status ∨ p.raw.status = none ∨ (p.raw.status = some .pending ∧ p'.raw.status = some .cleared)
  account : p'.raw.account = p.raw.account ∨ UnknownAccount p
  unknown : UnknownAccount p' → UnknownAccount p
  tags : ∀ t ∈ tagsOf p, t = unknownTag ∨ t ∈ tagsOf p'

/-- What may become of a transaction on disk: date, status, code and description stay, the postings stay in their order, and postings
may be added behind them. -/
def KeptTransaction (T T' : TransactionPostings) : Prop :=
  T'.trn.raw = T.trn.raw ∧ ∃ old new, T'.posts = old ++ new ∧ List.Forall₂ KeptPosting T.posts old

/-- The journal only grows: every transaction with postings is still there, each as one of its own. -/
def OnlyGrows (sys : Sys) (n : Nat) (before after : Nat → Option Bytes) : Prop :=
  ∀ ts, readable sys before n = some ts →
    ∃ ts' kept, readable sys after n = some ts' ∧
      List.Forall₂ KeptTransaction (ts.filter fun T => decide (T.posts ≠ [])) kept ∧ kept.Subperm ts'

/-- No posting has a value under a key that is nothing but white space. -/
def NoBlankKeys (ts : List TransactionPostings) : Prop :=
  ∀ T ∈ ts, ∀ p ∈ T.posts, ∀ (k v : Str), p.comment.valueTags[k]? = some v → k.trim ≠ []

/-- As `CareOfTags`, but `merge` always has the journal as its first input, the journal notes no sources, whole ledgers are parsed as they
were printed, and no key is blank. -/
def CareOfJournal (base : Sys) (n : Nat) (files : Nat → Option Bytes) (s : Step) : Prop :=
  (∀ f, Target s.cmd f → fileOf base f ≠ some n) ∨
  (s.killed = none ∧ (s.run base files).1 ≠ .error .write ∧
    match s.cmd with
    | .format _ => ∀ text L, base.parse text = some L → base.parse (base.render L) = some L
    | .generateFingerprints fs =>
      (fs.filterMap (fileOf base)).Nodup ∧
      (∀ k, ∀ c ∈ s.random k, c ≠ ':' ∧ c ≠ ' ' ∧ c ≠ '\n') ∧
      (∀ ts, readable base files n = some ts → NoBlankKeys ts) ∧
      ∀ ts k, readable base files n = some ts →
        let L := TransactionPostings.intoLedger HashOrder.sorted (FpGen.updateTransactions s.random k ts).2
        base.parse (base.render L) = some L
    | .merge args =>
      fileOf base args.output = some n ∧ (∀ f, args.unmerged = some f → fileOf base f ≠ some n) ∧
      (∃ p fs, args.inputs = .path p :: fs ∧ base.file p = n) ∧
      (∀ ts, readable base files n = some ts → ∀ T ∈ ts, srcKey ∉ T.trn.comment.valueTags) ∧
      ∀ gs, mergeInputs (s.sys base files) false args.inputs = some gs →
        (∀ g ∈ gs, NoBlankKeys g) ∧
        let L := TransactionPostings.intoLedger HashOrder.sorted ((bookAfter gs).journal.map unsourced)
        base.parse (base.render L) = some L
    | _ => False)

end Verif.Spec
