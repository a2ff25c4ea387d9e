import Verif.Model.Comment

/-!
# Internal wrappers and tag constants

The conversions from and to `ledger_parser` types (/repo/src/internal.rs:16-114) need the comment
parser and are in `Verif.Model.Convert`.
-/

namespace Verif

/-- `PostingInternal` (/repo/src/internal.rs:84-87). -/
structure PostingInternal where
  raw : Posting
  comment : Comment
  deriving Inhabited

/-- Equality of the parts. Only the model uses it: the code derives no `PartialEq` here (/repo/src/internal.rs:83). -/
instance : DecidableEq PostingInternal := fun a b =>
  decidable_of_iff (a.raw = b.raw ∧ a.comment = b.comment) <| by cases a; cases b; simp

/-- `TransactionInternal` (/repo/src/internal.rs:11-14). -/
structure TransactionInternal where
  raw : Transaction
  comment : Comment
  deriving Inhabited

/-- Equality of the parts. Only the model uses it: the code derives no `PartialEq` here (/repo/src/internal.rs:10). -/
instance : DecidableEq TransactionInternal := fun a b =>
  decidable_of_iff (a.raw = b.raw ∧ a.comment = b.comment) <| by cases a; cases b; simp

/-- `TransactionPostings` (/repo/src/internal.rs:36-39). -/
structure TransactionPostings where
  trn : TransactionInternal
  posts : List PostingInternal
  deriving Inhabited

/-- Equality of the parts. Only the model uses it: the code derives no `PartialEq` here (/repo/src/internal.rs:35). -/
instance : DecidableEq TransactionPostings := fun a b =>
  decidable_of_iff (a.trn = b.trn ∧ a.posts = b.posts) <| by cases a; cases b; simp

namespace Tags
/-- `ACCOUNT` (/repo/src/tags.rs:2). -/
def account : Str := "account".toList
/-- `BANK` (/repo/src/tags.rs:4). -/
def bank : Str := "bank".toList
/-- `SEQ` (/repo/src/tags.rs:6). -/
def seq : Str := "seq".toList
/-- `IMPORT_PEER` (/repo/src/tags.rs:10). -/
def importPeer : Str := "import-peer".toList
/-- `IMPORT_SELF` (/repo/src/tags.rs:13). -/
def importSelf : Str := "import-self".toList
/-- `UNKNOWN_ACCOUNT` (/repo/src/tags.rs:15). -/
def unknownAccount : Str := "unknown-account".toList
/-- `CANDIDATE_FP_PREFIX` (/repo/src/tags.rs:19). -/
def candidatePrefix : Str := "candidate-".toList
/-- `FINGERPRINT_PREFIX` (/repo/src/tags.rs:23). -/
def fingerprintPrefix : Str := "fp-".toList
/-- `TRANSACTION_SOURCE_KEY` (/repo/src/tags.rs:26). -/
def sourceKey : Str := "source-file".toList
end Tags

/-- `fingerprint::is_fingerprint` (/repo/src/fingerprint.rs:12-14). -/
def isFingerprint (tag : Str) : Bool := tag.startsWith Tags.fingerprintPrefix

/-- `tag.starts_with(tags::CANDIDATE_FP_PREFIX)` (/repo/src/merge/posting.rs:190). -/
def isCandidate (tag : Str) : Bool := tag.startsWith Tags.candidatePrefix

end Verif
