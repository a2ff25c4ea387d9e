import Verif.Spec.Posting

/-!
# Specification: the journal book

An index-free description of what merging does. A book is the list of transaction headers in
the order they arrived and the list of posting records in the order they arrived; a record says
which transaction it belongs to and under which date it was filed.
-/

namespace Verif.Spec

/-- A posting in the book. -/
structure Rec where
  /-- position of the transaction it belongs to -/
  trn : Nat
  /-- the date under which it is filed for soft matching -/
  date : Date
  post : PostingInternal
  deriving DecidableEq

/-- The journal as it is being built up. -/
structure Book where
  hdrs : List TransactionInternal
  recs : List Rec
  deriving DecidableEq

namespace Book

/-- The empty book. -/
def empty : Book := ⟨[], []⟩

/-- Positions of the records that satisfy a predicate, ascending. -/
def where_ (J : Book) (P : Rec → Bool) : List Nat :=
  (List.range J.recs.length).filter fun i => (J.recs[i]?).any P

/-- Records that share a fingerprint with `p`. -/
def fpHits (J : Book) (p : PostingInternal) : List Nat := J.where_ fun r => decide (SharesFp r.post p)

/-- Records filed under the date `d` that softly match `p`. -/
def softHits (J : Book) (d : Date) (p : PostingInternal) : List Nat :=
  J.where_ fun r => decide (r.date = d ∧ SoftMatch r.post p)

/-- What should happen to an input posting. -/
inductive Verdict where
  /-- nothing like it in the book -/
  | new
  /-- it is the record at this position -/
  | into (i : Nat)
  /-- it could be any of these records: a human must decide -/
  | ambiguous (is : List Nat)
  /-- its fingerprints belong to several records -/
  | conflict
  deriving DecidableEq

/-- README "Matching algorithm": fingerprints first, then soft matching. -/
def verdict (J : Book) (d : Date) (p : PostingInternal) : Verdict :=
  match J.fpHits p with
  | [i] => .into i
  | _ :: _ :: _ => .conflict
  | [] =>
    match J.softHits d p with
    | [] => .new
    | [i] => .into i
    | is => .ambiguous is

/-- The date of an input transaction. -/
abbrev dateOf (t : TransactionPostings) : Date := t.trn.raw.date

/-- The verdicts on the postings of a transaction. -/
def verdicts (J : Book) (t : TransactionPostings) : List Verdict := t.posts.map (J.verdict (dateOf t))

/-- Is this verdict "ambiguous"? -/
def Verdict.isAmbiguous : Verdict → Bool
  | .ambiguous _ => true
  | _ => false

/-- The destination record, if there is one. -/
def Verdict.dest? : Verdict → Option Nat
  | .into i => some i
  | _ => none

/-- A transaction is left to the human if it has no postings or an ambiguous one. -/
def Undecided (J : Book) (t : TransactionPostings) : Prop :=
  t.posts = [] ∨ ∃ v ∈ J.verdicts t, v.isAmbiguous = true
instance (J t) : Decidable (Undecided J t) := by unfold Undecided; infer_instance

/-- The records into which the postings of a transaction go. -/
def dests (J : Book) (t : TransactionPostings) : List Nat := (J.verdicts t).filterMap Verdict.dest?

/-- The transaction a record belongs to. -/
def trnOf (J : Book) (i : Nat) : Option Nat := (J.recs[i]?).map (·.trn)

/-- Add the tags `candidate-<fingerprint>` for the given records; `pick` says which fingerprint names a record. -/
def annotate (pick : Nat → Str) (is : List Nat) (p : PostingInternal) : PostingInternal :=
  { p with comment := { p.comment with
      tags := is.foldl (fun ts i => ts.insert (candPrefix ++ pick i)) p.comment.tags } }

/-- An input posting as it is handed back to the human. -/
def handBackPost (J : Book) (pick : Nat → Str) (d : Date) (p : PostingInternal) : PostingInternal :=
  match J.verdict d p with
  | .ambiguous is => annotate pick is p
  | _ => p

/-- An input transaction as it is handed back to the human. -/
def handBack (J : Book) (pick : Nat → Str) (t : TransactionPostings) : TransactionPostings :=
  { t with posts := t.posts.map (J.handBackPost pick (dateOf t)) }

/-- Put one posting of an input transaction of date `d` into the book, as part of transaction `k`. -/
def putPost (J : Book) (k : Nat) (d : Date) (p : PostingInternal) : Verdict → Book
  | .into i => { J with recs := J.recs.modify i fun r => { r with post := absorb r.post p } }
  | _ => { J with recs := J.recs ++ [⟨k, d, p⟩] }

/-- Put the postings of one transaction into the book, given the verdicts on them. -/
def putPosts (J : Book) (k : Nat) (d : Date) : List PostingInternal → List Verdict → Book
  | p :: ps, v :: vs => putPosts (J.putPost k d p v) k d ps vs
  | _, _ => J

/-- Put one input transaction into the book, according to decisions made on the book `J₀` as it was when
the merge call started. -/
def putTrn (J₀ J : Book) (t : TransactionPostings) : Book :=
  if Undecided J₀ t then J
  else
    match (J₀.dests t).head?.bind J₀.trnOf with
    | some k => J.putPosts k (dateOf t) t.posts (J₀.verdicts t)
    | none => { J with hdrs := J.hdrs ++ [t.trn] }.putPosts J.hdrs.length (dateOf t) t.posts (J₀.verdicts t)

/-- The book after a successful merge call. -/
def after (J : Book) (ts : List TransactionPostings) : Book := ts.foldl (J.putTrn ·) J

/-- The transactions handed back by a successful merge call. -/
def handedBack (J : Book) (pick : Nat → Str) (ts : List TransactionPostings) : List TransactionPostings :=
  (ts.filter (fun t => Undecided J t)).map (J.handBack pick)

/-! ### Bad input -/

/-- The postings of the input, in order. -/
def allPosts (ts : List TransactionPostings) : List PostingInternal := ts.flatMap (·.posts)

/-- The input postings that will be merged into existing records, as the list of those records. -/
def allDests (J : Book) (ts : List TransactionPostings) : List Nat :=
  (ts.filter (fun t => ¬ Undecided J t)).flatMap J.dests

/-- Some posting has a candidate tag. -/
def HasCandidate (ts : List TransactionPostings) : Prop := ∃ p ∈ allPosts ts, ∃ t ∈ tagsOf p, IsCand t
/-- Some posting has no fingerprint. -/
def LacksFingerprint (ts : List TransactionPostings) : Prop := ∃ p ∈ allPosts ts, fps p = []
/-- Two postings of the input share a fingerprint. -/
def DuplicateFp (ts : List TransactionPostings) : Prop :=
  ¬ (allPosts ts).Pairwise (fun p q => ¬ SharesFp p q)
/-- The fingerprints of some posting belong to several records. -/
def Conflicting (J : Book) (ts : List TransactionPostings) : Prop :=
  ∃ t ∈ ts, Verdict.conflict ∈ J.verdicts t
/-- The postings of some transaction go into records of different transactions. -/
def Split (J : Book) (ts : List TransactionPostings) : Prop :=
  ∃ t ∈ ts, ¬ Undecided J t ∧ ∃ i ∈ J.dests t, ∃ j ∈ J.dests t, J.trnOf i ≠ J.trnOf j
/-- Two input postings go into the same record. -/
def SameDest (J : Book) (ts : List TransactionPostings) : Prop := ¬ (J.allDests ts).Nodup

/-- The inputs that a merge call refuses. -/
def Bad (J : Book) (ts : List TransactionPostings) : Prop :=
  HasCandidate ts ∨ LacksFingerprint ts ∨ DuplicateFp ts ∨ J.Conflicting ts ∨ J.Split ts ∨ J.SameDest ts

open Classical in
/-- One merge call: bad input changes nothing. -/
noncomputable def step (J : Book) (ts : List TransactionPostings) : Book := if J.Bad ts then J else J.after ts

/-- The book after a history of merge calls. -/
noncomputable def ofHistory (inputs : List (List TransactionPostings)) : Book := inputs.foldl step empty

/-- The journal that a book stands for: transactions by ascending date, otherwise in order of arrival, each with
its postings in order of arrival. -/
def journal (J : Book) : List TransactionPostings :=
  (J.hdrs.mapIdx fun k hdr => (⟨hdr, (J.recs.filter (·.trn = k)).map (·.post)⟩ : TransactionPostings)).mergeSort
    fun a b => (compare (dateOf a) (dateOf b)).isLE

/-- A sensible book: every record belongs to a transaction, has a fingerprint and no candidate tag, and no two
records share a fingerprint. -/
structure WF (J : Book) : Prop where
  owner : ∀ r ∈ J.recs, r.trn < J.hdrs.length
  hasFp : ∀ r ∈ J.recs, fps r.post ≠ []
  noCand : ∀ r ∈ J.recs, ∀ t ∈ tagsOf r.post, ¬ IsCand t
  unique : ∀ (i j : Nat) (r s : Rec), J.recs[i]? = some r → J.recs[j]? = some s → SharesFp r.post s.post → i = j

end Book
end Verif.Spec
