import Verif.Model.MergeTransaction

/-!
# The merger (/repo/src/merge/merger.rs)
-/

namespace Verif

/-- `PostingMergeAction` (/repo/src/merge/merger.rs:397-402). -/
inductive PostingMergeAction where
  | new
  | mergeIntoExisting (idx : Nat)
  deriving DecidableEq

/-- `MergeActions` (/repo/src/merge/merger.rs:390-395). -/
inductive MergeActions where
  | actions (as : List (Input × PostingMergeAction))
  | leaveUnmerged (ps : List Input)

/-- `PendingTransaction` (/repo/src/merge/merger.rs:404-407). -/
structure PendingTransaction where
  srcTrn : TrnHolder
  postActions : List (Input × PostingMergeAction)

/-- `TransactionMergeAction` (/repo/src/merge/merger.rs:409-419). -/
inductive TransactionMergeAction where
  | new (pending : PendingTransaction)
  | mergeInto (pending : PendingTransaction) (destTrn : Nat)
  | leaveUnmerged (t : TransactionPostings)

/-- A panic of the accumulator cell as a merge error (the cell is used at /repo/src/merge/merger.rs:352-388). -/
def panicToErr {α : Type} : Except Panic α → Except MergeErr α
  | .ok a => .ok a
  | .error p => .error (.panic p)

/-- `MergeActionsAccumulator` (/repo/src/merge/merger.rs:352). -/
abbrev MergeActionsAccumulator := MutCell MergeActions

namespace MergeActionsAccumulator

/-- `MergeActionsAccumulator::new` (/repo/src/merge/merger.rs:355-357). -/
def new : MergeActionsAccumulator := MutCell.new (.actions [])

/-- The closure passed to `map_value` in `push` (/repo/src/merge/merger.rs:360-383). -/
def pushInner (posting : Input) (action : Option PostingMergeAction) : MergeActions → MergeActions
  | .actions postActions =>
    match action with
    | some action => .actions (postActions ++ [(posting, action)])
    | none => .leaveUnmerged (postActions.map (·.1) ++ [posting])
  | .leaveUnmerged postings => .leaveUnmerged (postings ++ [posting])

/-- `MergeActionsAccumulator::push` (/repo/src/merge/merger.rs:359-384). -/
def push (self : MergeActionsAccumulator) (posting : Input) (action : Option PostingMergeAction) :
    Except MergeErr MergeActionsAccumulator :=
  match self.mapValue (fun inner => .ok (pushInner posting action inner)) with
  | (.ok (), c) => .ok c
  | (.error p, _) => .error (.panic p)

/-- `MergeActionsAccumulator::into_inner` (/repo/src/merge/merger.rs:386-388). -/
def intoInner (self : MergeActionsAccumulator) : Except MergeErr MergeActions := panicToErr (MutCell.intoInner self)

end MergeActionsAccumulator

/-- `Merger` (/repo/src/merge/merger.rs:14-17). -/
structure Merger where
  posts : IndexedPostings
  trns : IndexedTransactions

namespace Merger

/-- `Merger::new` (/repo/src/merge/merger.rs:20-25). -/
def new : Merger := ⟨IndexedPostings.new, IndexedTransactions.new⟩

/-- The loop adding candidate tags (/repo/src/merge/merger.rs:268-275). -/
def addCandidateTags (h : HashOrder) (self : Merger) : List Nat → Input → Except MergeErr Input
  | [], src => .ok src
  | idx :: idxs, src => do
    let candidate ← self.posts.get idx
    let fp ← primaryFingerprint h (.storedTags idx) candidate.posting.comment
    addCandidateTags h self idxs (src.addTag (Tags.candidatePrefix ++ fp))

/-- `Merger::determine_posting_action` (/repo/src/merge/merger.rs:228-287). The posting is `&mut` in the code;
here the updated posting is returned. Rendering of destinations for the error text (lines 245-250) is reduced to
the index lookups it performs. -/
def determinePostingAction (h : HashOrder) (site : Site) (self : Merger) (srcPost : Input) :
    Except MergeErr (Input × Option PostingMergeAction) := do
  match ← self.posts.findMatchingPostings h site srcPost with
  | .fingerprint (.one destIdx) => return (srcPost, some (.mergeIntoExisting destIdx))
  | .fingerprint (.many matchedIdxs) =>
    let _ ← matchedIdxs.mapM self.posts.get
    throw .multipleDestinations
  | .soft (.one destIdx) => return (srcPost, some (.mergeIntoExisting destIdx))
  | .soft (.many matchedIdxs) =>
    let srcPost ← self.addCandidateTags h matchedIdxs srcPost
    return (srcPost, none)
  | .zero => return (srcPost, some .new)

/-- The destination indices of a list of actions (/repo/src/merge/merger.rs:302-308). -/
def mergeDests (as : List (Input × PostingMergeAction)) : List Nat :=
  as.filterMap fun a =>
    match a.2 with
    | .new => none
    | .mergeIntoExisting idx => some idx

/-- `Merger::find_existing_dest_trn` (/repo/src/merge/merger.rs:293-330). The hash set of parent transactions
is a finite set of indices; in the error case the titles of the candidate transactions are looked up (line 320),
which could panic. -/
def findExistingDestTrn (h : HashOrder) (self : Merger) (as : List (Input × PostingMergeAction)) :
    Except MergeErr (Option Nat) := do
  let parents ← (mergeDests as).mapM (fun i => (self.posts.get i).map (·.parentTrn))
  let candidateTrns : Std.ExtTreeSet Nat compare := Std.ExtTreeSet.ofList parents
  if candidateTrns.size ≤ 1 then
    return (h.iter .destTrns candidateTrns.toList).head?
  else
    let _ ← (h.iter .destTrns candidateTrns.toList).mapM self.trns.get
    throw .splitTransaction

/-- The duplicate fingerprint check (/repo/src/merge/merger.rs:185-190). -/
def checkSeen : List Str → TagSet → Except MergeErr TagSet
  | [], seen => .ok seen
  | fp :: fps, seen =>
    if seen.contains fp then .error .duplicateFingerprint else checkSeen fps (seen.insert fp)

/-- The loop over the postings of one input transaction (/repo/src/merge/merger.rs:181-194). `n` counts the
input postings of the whole merge call; it only names the hash sets for the oracle. -/
def processPosts (h : HashOrder) (self : Merger) (date : Date) :
    List PostingInternal → Nat → TagSet → MergeActionsAccumulator →
    Except MergeErr (Nat × TagSet × MergeActionsAccumulator)
  | [], n, seen, acc => .ok (n, seen, acc)
  | origPost :: rest, n, seen, acc => do
    let srcPost ← Input.fromPostingInternal origPost date
    let seen ← checkSeen (srcPost.iterFingerprints h (.inputTags n)) seen
    let (srcPost, action) ← self.determinePostingAction h (.inputTags n) srcPost
    let acc ← acc.push srcPost action
    processPosts h self date rest (n + 1) seen acc

/-- `Merger::to_transaction_merge_action` (/repo/src/merge/merger.rs:162-226). -/
def toTransactionMergeAction (h : HashOrder) (self : Merger) (n : Nat) (seen : TagSet) (orig : TransactionPostings) :
    Except MergeErr (Nat × TagSet × TransactionMergeAction) :=
  if orig.posts.isEmpty then .ok (n, seen, .leaveUnmerged orig)
  else do
    let srcTrn := TrnHolder.fromTransactionInternal orig.trn
    let (n, seen, acc) ← self.processPosts h srcTrn.trn.raw.date orig.posts n seen MergeActionsAccumulator.new
    match ← acc.intoInner with
    | .leaveUnmerged inputs =>
      return (n, seen, .leaveUnmerged (srcTrn.intoTransactionPostings (inputs.map Input.intoPostingInternal)))
    | .actions as =>
      let pending : PendingTransaction := ⟨srcTrn, as⟩
      match ← self.findExistingDestTrn h as with
      | some destTrn => return (n, seen, .mergeInto pending destTrn)
      | none => return (n, seen, .new pending)

/-- The loop of `make_pending` (/repo/src/merge/merger.rs:45-48). -/
def makePendingLoop (h : HashOrder) (self : Merger) : List TransactionPostings → Nat → TagSet →
    Except MergeErr (List TransactionMergeAction)
  | [], _, _ => .ok []
  | t :: ts, n, seen => do
    let (n, seen, a) ← self.toTransactionMergeAction h n seen t
    let rest ← makePendingLoop h self ts n seen
    return a :: rest

/-- `Merger::make_pending` (/repo/src/merge/merger.rs:35-51). -/
def makePending (h : HashOrder) (self : Merger) (ts : List TransactionPostings) :
    Except MergeErr (List TransactionMergeAction) := self.makePendingLoop h ts 0 ∅

/-- The map `src_idx_by_dest` of `check_pending` (/repo/src/merge/merger.rs:60-86). -/
def srcByDest (m : Std.ExtTreeMap Nat (List Input) compare) : List TransactionMergeAction →
    Std.ExtTreeMap Nat (List Input) compare
  | [] => m
  | .new _ :: rest => srcByDest m rest
  | .leaveUnmerged _ :: rest => srcByDest m rest
  | .mergeInto pending _ :: rest =>
    srcByDest (pending.postActions.foldl (fun m a =>
      match a.2 with
      | .new => m
      | .mergeIntoExisting d => m.insert d ((m[d]?).getD [] ++ [a.1])) m) rest

/-- The loop over `src_idx_by_dest` (/repo/src/merge/merger.rs:88-107). -/
def checkDests (self : Merger) : List (Nat × List Input) → Except MergeErr Unit
  | [] => .ok ()
  | (dest, srcs) :: rest =>
    if srcs.length > 1 then do
      let _ ← self.posts.get dest
      throw .sameDestination
    else checkDests self rest

/-- `Merger::check_pending` (/repo/src/merge/merger.rs:53-111). -/
def checkPending (h : HashOrder) (self : Merger) (pending : List TransactionMergeAction) : Except MergeErr Unit :=
  self.checkDests (h.iter .srcByDest (srcByDest ∅ pending).toList)

/-- `Merger::apply_post_actions_to_trn` (/repo/src/merge/merger.rs:143-160). Returns the state at the point where
the loop ends, bails out or panics. -/
def applyPostActionsToTrn (h : HashOrder) (destTrn : Nat) : List (Input × PostingMergeAction) → Merger →
    Except MergeErr Unit × Merger
  | [], self => (.ok (), self)
  | (post, .new) :: rest, self =>
    match self.posts.add h post destTrn with
    | (.error e, posts) => (.error e, { self with posts := posts })
    | (.ok postIdx, posts) =>
      match self.trns.addPostToTrn destTrn postIdx with
      | (.error e, trns) => (.error e, { posts := posts, trns := trns })
      | (.ok (), trns) => applyPostActionsToTrn h destTrn rest { posts := posts, trns := trns }
  | (post, .mergeIntoExisting destPost) :: rest, self =>
    match self.posts.mergeInto h destPost post with
    | (.error e, posts) => (.error e, { self with posts := posts })
    | (.ok (), posts) => applyPostActionsToTrn h destTrn rest { self with posts := posts }

/-- `Merger::apply_pending` (/repo/src/merge/merger.rs:113-141). Returns the state at the point where the loop ends
or fails. -/
def applyPending (h : HashOrder) : List TransactionMergeAction → Merger →
    Except MergeErr (List TransactionPostings) × Merger
  | [], self => (.ok [], self)
  | .new pending :: rest, self =>
    let (destTrn, trns) := self.trns.add pending.srcTrn
    match applyPostActionsToTrn h destTrn pending.postActions { self with trns := trns } with
    | (.error e, self) => (.error e, self)
    | (.ok (), self) => applyPending h rest self
  | .mergeInto pending destTrn :: rest, self =>
    match applyPostActionsToTrn h destTrn pending.postActions self with
    | (.error e, self) => (.error e, self)
    | (.ok (), self) => applyPending h rest self
  | .leaveUnmerged t :: rest, self =>
    match applyPending h rest self with
    | (.error e, self) => (.error e, self)
    | (.ok unmerged, self) => (.ok (t :: unmerged), self)

/-- `Merger::merge` (/repo/src/merge/merger.rs:29-33): the result of the call and the merger after it. -/
def merge (h : HashOrder) (self : Merger) (src : List TransactionPostings) :
    Except MergeErr (List TransactionPostings) × Merger :=
  match self.makePending h src with
  | .error e => (.error e, self)
  | .ok pending =>
    match self.checkPending h pending with
    | .error e => (.error e, self)
    | .ok () => applyPending h pending self

/-- Taking the postings of one transaction (/repo/src/merge/merger.rs:337-340). -/
def takePosts : List Nat → ConsumePostings → Except MergeErr (List PostingInternal × ConsumePostings)
  | [], c => .ok ([], c)
  | i :: is, c => do
    let (p, c) ← c.take i
    let (ps, c) ← takePosts is c
    return (p :: ps, c)

/-- The loop of `build` (/repo/src/merge/merger.rs:336-343). -/
def buildLoop : List TrnHolder → ConsumePostings → Except MergeErr (List TransactionPostings)
  | [], _ => .ok []
  | t :: ts, c => do
    let (ps, c) ← takePosts t.postings c
    let rest ← buildLoop ts c
    return t.intoTransactionPostings ps :: rest

/-- `Merger::build` (/repo/src/merge/merger.rs:332-346). -/
def build (h : HashOrder) (self : Merger) : Except MergeErr (List TransactionPostings) := do
  let holders ← self.trns.intoIter h
  buildLoop holders self.posts.intoConsume

end Merger
end Verif
