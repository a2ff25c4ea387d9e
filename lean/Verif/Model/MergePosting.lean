import Verif.Base.Hash
import Verif.Model.Internal
import Verif.Model.MatchSet
import Verif.Model.MutCell

/-!
# Indexed postings (/repo/src/merge/posting.rs)

Arena indices: nothing is removed from the arenas before `build`, so a generational index is modelled by
the insertion number. `HashMap` fields are finite maps.
-/

namespace Verif

/-- Why a merge call fails. `anyhow` errors are modelled by their kind; the message text is not
(/repo/src/merge/merger.rs:100,186,251,316, /repo/src/merge/posting.rs:108,192,208). -/
inductive MergeErr where
  /-- "… has a candidate tag" (/repo/src/merge/posting.rs:192). -/
  | candidateTag
  /-- "… does not have a fingerprint tag" (/repo/src/merge/posting.rs:208). -/
  | noFingerprint
  /-- "multiple postings with same fingerprint" (/repo/src/merge/merger.rs:187). -/
  | duplicateFingerprint
  /-- "input posting matches multiple same destination postings by fingerprints" (/repo/src/merge/merger.rs:251). -/
  | multipleDestinations
  /-- "input transaction … matches multiple existing transactions" (/repo/src/merge/merger.rs:316). -/
  | splitTransaction
  /-- "input postings match the same destination posting" (/repo/src/merge/merger.rs:100). -/
  | sameDestination
  /-- "internal merge error: multiple posts claiming fingerprint" (/repo/src/merge/posting.rs:108). -/
  | internalFingerprint
  /-- a Rust panic. -/
  | panic (p : Panic)
  deriving DecidableEq, Repr

/-- `posting::Input` (/repo/src/merge/posting.rs:177-180). -/
structure Input where
  trnDate : Date
  posting : PostingInternal
  deriving DecidableEq, Inhabited

/-- `posting::Holder` (/repo/src/merge/posting.rs:231-234). -/
structure PostHolder where
  parentTrn : Nat
  posting : PostingInternal
  deriving DecidableEq, Inhabited

/-- `fingerprints_from_comment` (/repo/src/merge/posting.rs:327-333): iterates the tag hash set. -/
def fingerprintsFromComment (h : HashOrder) (site : Site) (c : Comment) : List Str :=
  (h.iter site c.tags.toList).filter isFingerprint

/-- `primary_fingerprint` (/repo/src/merge/posting.rs:320-324). -/
def primaryFingerprint (h : HashOrder) (site : Site) (c : Comment) : Except MergeErr Str :=
  match (fingerprintsFromComment h site c).head? with
  | some fp => .ok fp
  | none => .error (.panic .noPrimaryFingerprint)

/-- `matches` (/repo/src/merge/posting.rs:268-287). -/
def postingMatches (a b : PostingInternal) : Bool :=
  let accountsMatch :=
    if !a.comment.tags.contains Tags.unknownAccount && !b.comment.tags.contains Tags.unknownAccount then
      decide (a.raw.account = b.raw.account)
    else true
  let amountsMatch := optEqv PostingAmount.eqv a.raw.amount b.raw.amount
  let balancesMatch :=
    match a.raw.balance, b.raw.balance with
    | some aBal, some bBal => aBal.eqv bBal
    | _, _ => true
  accountsMatch && amountsMatch && balancesMatch

/-- The status part of `merge` (/repo/src/merge/posting.rs:291-305). -/
def mergeStatus : Option Status → Option Status → Option Status
  | none, src => src
  | some d, none => some d
  | some .pending, some .cleared => some .cleared
  | some d, some _ => some d

/-- `merge` (/repo/src/merge/posting.rs:289-318). -/
def postingMerge (dest src : PostingInternal) : PostingInternal :=
  let status := mergeStatus dest.raw.status src.raw.status
  let balance := if dest.raw.balance.isNone then src.raw.balance else dest.raw.balance
  let takeAccount :=
    dest.comment.tags.contains Tags.unknownAccount && !src.comment.tags.contains Tags.unknownAccount
  let destTags := if takeAccount then dest.comment.tags.erase Tags.unknownAccount else dest.comment.tags
  let account := if takeAccount then src.raw.account else dest.raw.account
  let srcComment : Comment := { src.comment with tags := src.comment.tags.erase Tags.unknownAccount }
  { raw := { dest.raw with status := status, balance := balance, account := account }
    comment := Comment.mergeFrom { dest.comment with tags := destTags } srcComment }

namespace Input

/-- `Input::from_posting_internal` (/repo/src/merge/posting.rs:183-216). `any` over a hash set
does not depend on the order, so it is taken over the sorted list. -/
def fromPostingInternal (posting : PostingInternal) (trnDate : Date) : Except MergeErr Input :=
  if posting.comment.tags.toList.any isCandidate then .error .candidateTag
  else if !posting.comment.tags.toList.any isFingerprint then .error .noFingerprint
  else .ok ⟨trnDate, posting⟩

/-- `Input::into_posting_internal` (/repo/src/merge/posting.rs:218-220). -/
def intoPostingInternal (i : Input) : PostingInternal := i.posting

/-- `Input::add_tag` (/repo/src/merge/posting.rs:222-224). -/
def addTag (i : Input) (tag : Str) : Input :=
  { i with posting := { i.posting with comment := { i.posting.comment with tags := i.posting.comment.tags.insert tag } } }

/-- `Input::iter_fingerprints` (/repo/src/merge/posting.rs:226-228). -/
def iterFingerprints (h : HashOrder) (site : Site) (i : Input) : List Str :=
  fingerprintsFromComment h site i.posting.comment

end Input

namespace PostHolder

/-- `Holder::from_input` (/repo/src/merge/posting.rs:237-245). -/
def fromInput (proto : Input) (parentTrn : Nat) : PostHolder × Date :=
  (⟨parentTrn, proto.posting⟩, proto.trnDate)

/-- `Holder::matches` (/repo/src/merge/posting.rs:259-261). -/
def isMatch (self : PostHolder) (input : Input) : Bool := postingMatches self.posting input.posting

/-- `Holder::merge_from_input_posting` (/repo/src/merge/posting.rs:263-265). -/
def mergeFromInputPosting (self : PostHolder) (src : Input) : PostHolder :=
  { self with posting := postingMerge self.posting src.posting }

end PostHolder

/-- `posting::MatchedIndices` (/repo/src/merge/posting.rs:158-161). -/
inductive MatchedIndices where
  | one (i : Nat)
  | many (is : List Nat)
  deriving DecidableEq

/-- `posting::Match` (/repo/src/merge/posting.rs:152-156). -/
inductive Match where
  | fingerprint (m : MatchedIndices)
  | soft (m : MatchedIndices)
  | zero
  deriving DecidableEq

/-- `IndexedPostings` (/repo/src/merge/posting.rs:34-38). -/
structure IndexedPostings where
  arena : List PostHolder
  byDate : Std.ExtTreeMap Date (List Nat) compare
  byFp : Std.ExtTreeMap Str Nat compare

namespace IndexedPostings

/-- `IndexedPostings::new` (/repo/src/merge/posting.rs:41-47). -/
def new : IndexedPostings := ⟨[], ∅, ∅⟩

/-- `IndexedPostings::register_fingerprints` (/repo/src/merge/posting.rs:98-117). Returns the map as it is when
the loop ends or bails out. -/
def registerFingerprints : List Str → Nat → Std.ExtTreeMap Str Nat compare →
    Except MergeErr Unit × Std.ExtTreeMap Str Nat compare
  | [], _, byFp => (.ok (), byFp)
  | fp :: fps, idx, byFp =>
    match byFp[fp]? with
    | some existing =>
      if existing ≠ idx then (.error .internalFingerprint, byFp)
      else registerFingerprints fps idx byFp
    | none => registerFingerprints fps idx (byFp.insert fp idx)

/-- `IndexedPostings::add` (/repo/src/merge/posting.rs:54-65). -/
def add (h : HashOrder) (self : IndexedPostings) (input : Input) (parentTrn : Nat) :
    Except MergeErr Nat × IndexedPostings :=
  let idx := self.arena.length
  let fingerprints := fingerprintsFromComment h (.registerTags idx) input.posting.comment
  let (holder, trnDate) := PostHolder.fromInput input parentTrn
  let arena := self.arena ++ [holder]
  match registerFingerprints fingerprints idx self.byFp with
  | (.error e, byFp) => (.error e, { self with arena := arena, byFp := byFp })
  | (.ok (), byFp) =>
    (.ok idx, { arena := arena
                byFp := byFp
                byDate := self.byDate.insert trnDate ((self.byDate[trnDate]?).getD [] ++ [idx]) })

/-- `IndexedPostings::fingerprint_to_index` (/repo/src/merge/posting.rs:67-69). -/
def fingerprintToIndex (self : IndexedPostings) (fp : Str) : Option Nat := self.byFp[fp]?

/-- `IndexedPostings::get` (/repo/src/merge/posting.rs:73-75). -/
def get (self : IndexedPostings) (idx : Nat) : Except MergeErr PostHolder :=
  match self.arena[idx]? with
  | some p => .ok p
  | none => .error (.panic .badPostingIndex)

/-- `IndexedPostings::date_to_indices` (/repo/src/merge/posting.rs:81-84). -/
def dateToIndices (self : IndexedPostings) (d : Date) : List Nat := (self.byDate[d]?).getD []

/-- `IndexedPostings::merge_into` with `get_mut` (/repo/src/merge/posting.rs:77-79, 87-95). -/
def mergeInto (h : HashOrder) (self : IndexedPostings) (existingIdx : Nat) (input : Input) :
    Except MergeErr Unit × IndexedPostings :=
  match registerFingerprints
      (fingerprintsFromComment h (.registerTags existingIdx) input.posting.comment) existingIdx self.byFp with
  | (.error e, byFp) => (.error e, { self with byFp := byFp })
  | (.ok (), byFp) =>
    match self.arena[existingIdx]? with
    | none => (.error (.panic .badPostingIndex), { self with byFp := byFp })
    | some dest =>
      (.ok (), { self with byFp := byFp, arena := self.arena.set existingIdx (dest.mergeFromInputPosting input) })

/-- `IndexedPostings::find_posting_by_fingerprints` (/repo/src/merge/posting.rs:145-149). -/
def findPostingByFingerprints (h : HashOrder) (site : Site) (self : IndexedPostings) (post : Input) :
    MatchSet Nat :=
  MatchSet.fromIter ((post.iterFingerprints h site).filterMap self.fingerprintToIndex)

/-- The `filter` over `date_to_indices` (/repo/src/merge/posting.rs:126-132). -/
def softFilter (self : IndexedPostings) (post : Input) : List Nat → Except MergeErr (List Nat)
  | [] => .ok []
  | idx :: idxs => do
    let candidate ← self.get idx
    let rest ← softFilter self post idxs
    return if candidate.isMatch post then idx :: rest else rest

/-- `IndexedPostings::find_matching_postings` (/repo/src/merge/posting.rs:119-141). -/
def findMatchingPostings (h : HashOrder) (site : Site) (self : IndexedPostings) (post : Input) :
    Except MergeErr Match :=
  match self.findPostingByFingerprints h site post with
  | .one idx => .ok (.fingerprint (.one idx))
  | .many idxs => .ok (.fingerprint (.many (MatchSet.containerToList idxs)))
  | .zero => do
    let softIdxs ← self.softFilter post (self.dateToIndices post.trnDate)
    match MatchSet.fromIter softIdxs with
    | .one idx => return .soft (.one idx)
    | .many idxs => return .soft (.many (MatchSet.containerToList idxs))
    | .zero => return .zero

end IndexedPostings

/-- `ConsumePostings` (/repo/src/merge/posting.rs:163): an arena from which entries are removed. -/
abbrev ConsumePostings := List (Option PostHolder)

/-- `IndexedPostings::into_consume` (/repo/src/merge/posting.rs:49-51). -/
def IndexedPostings.intoConsume (self : IndexedPostings) : ConsumePostings := self.arena.map some

/-- `ConsumePostings::take` (/repo/src/merge/posting.rs:166-171). -/
def ConsumePostings.take (c : ConsumePostings) (idx : Nat) : Except MergeErr (PostingInternal × ConsumePostings) :=
  match c[idx]? with
  | some (some holder) => .ok (holder.posting, c.set idx none)
  | _ => .error (.panic .badPostingIndex)

end Verif
