import Verif.Proofs.ReorderCmd

/-!
# C82, C83 for the `merge` command
-/

namespace Verif
open Spec Spec.Book

/-- C82, the `merge` command: if the input files have the same transactions but for the order of transactions and of postings, then runs of the
command that no file operation makes fail do the same but for order. Either both fail and touch no file. Or both succeed; then the same
unmerged transactions are written with the same candidates, and the journals have the same transactions with the same postings. -/
theorem C82_merge_command (sys sys' : Sys) (ho ho' : Nat → HashOrder) (args : MergeCmd.Args)
    (hf : ∀ n, sys.fault n = none) (hf' : ∀ n, sys'.fault n = none)
    (hr : ∀ f ∈ args.inputs, ∀ again, SameReading (ledgerAt sys sys.start again f) (ledgerAt sys' sys'.start again f))
    (hd : ∀ f ∈ args.inputs, f.display sys = f.display sys') :
    SameRuns sys sys' args args (MergeCmd.run sys ho args World.start) (MergeCmd.run sys' ho' args World.start) := by
  refine sameRuns_of hf hf' ho ho' rfl ?_
  rcases mergeInputs_same hr hd false with h | ⟨gs, gs', h1, h2, h3⟩
  · exact .inl h
  · exact .inr ⟨gs, gs', h1, h2, sameOutcome_alike (Alike.refl empty_wf) R_new R_new h3⟩

theorem filesRead_append (sys : Sys) (again : Bool) (base fs : List FileSpec) : filesRead sys again (base ++ fs) =
    (filesRead sys again base).bind fun a => (filesRead sys (again || base.any (· = .stdio)) fs).map (a ++ ·) := by
  induction base generalizing again with
  | nil =>
    simp only [List.nil_append, filesRead, List.any_nil, Bool.or_false, Option.bind_some]
    cases filesRead sys again fs <;> rfl
  | cons f base ih =>
    rw [List.cons_append, filesRead, filesRead, ih]
    cases ledgerAt sys sys.start again f with
    | none => rfl
    | some L =>
      simp only [Option.bind_some]
      cases TransactionPostings.fromLedger L with
      | none => rfl
      | some ts =>
        simp only [Option.bind_some, List.any_cons, Bool.or_assoc]
        cases filesRead sys (again || decide (f = .stdio)) base with
        | none => rfl
        | some a =>
          simp only [Option.bind_some, Option.map_some]
          cases filesRead sys (again || (decide (f = .stdio) || base.any fun x => decide (x = .stdio))) fs <;> rfl

theorem sameOutcome_append {J : Book} {m : Merger} (hJ : R m J) {as gs gs' : List (List TransactionPostings)}
    (h : ∀ m', R m' (as.foldl Book.after J) → SameOutcome (as.foldl Book.after J) gs (as.foldl Book.after J) gs') :
    SameOutcome J (as ++ gs) J (as ++ gs') := by
  induction as generalizing J m with
  | nil => exact h m hJ
  | cons A as ih =>
    refine sameOutcome_cons fun hb => ?_
    obtain ⟨m', r⟩ := R_after hJ hb
    exact ih r h

/-- C83, the `merge` command: input files of which no two have anything to do with each other can be given in any order, after whatever other
files. For runs that no file operation makes fail, all is the same but for order. -/
theorem C83_merge_command (sys : Sys) (ho ho' : Nat → HashOrder) (base files files' : List FileSpec) (unmerged : Option FileSpec) (output : FileSpec)
    (hf : ∀ n, sys.fault n = none) (hp : files.Perm files')
    (ha : ∀ gs bs, mergeInputs sys false base = some gs → filesRead sys (base.any (· = .stdio)) files = some bs →
      bs.Pairwise (fun b c => Apart (bookAfter gs) b.2 c.2)) :
    SameRuns sys sys ⟨base ++ files, unmerged, output⟩ ⟨base ++ files', unmerged, output⟩
      (MergeCmd.run sys ho ⟨base ++ files, unmerged, output⟩ World.start)
      (MergeCmd.run sys ho' ⟨base ++ files', unmerged, output⟩ World.start) := by
  refine sameRuns_of hf hf ho ho' rfl ?_
  simp only [mergeInputs_filesRead, filesRead_append, Bool.false_or]
  simp only [mergeInputs_filesRead] at ha
  cases hb : filesRead sys false base with
  | none => exact .inl ⟨rfl, rfl⟩
  | some a =>
    rw [hb] at ha
    simp only [Option.bind_some]
    cases h1 : filesRead sys (base.any (· = .stdio)) files with
    | none =>
      cases h2 : filesRead sys (base.any (· = .stdio)) files' with
      | none => exact .inl ⟨rfl, rfl⟩
      | some bs' =>
        obtain ⟨bs, h3, _⟩ := filesRead_perm hp.symm _ _ h2
        rw [h1] at h3; cases h3
    | some bs =>
      obtain ⟨bs', h2, h3⟩ := filesRead_perm hp _ _ h1
      rw [h2]
      refine .inr ⟨_, _, rfl, rfl, ?_⟩
      show SameOutcome _ ((a ++ bs).flatMap callsOf) _ ((a ++ bs').flatMap callsOf)
      rw [List.flatMap_append, List.flatMap_append]
      refine sameOutcome_append R_new fun m' r => ?_
      exact sameOutcome_perm h3 _ m' r (ha _ bs rfl h1)

/-! ### Examples -/

theorem Ex.sameReading_letters {s s' : Str} {L L' : Ledger} (h : Ex.parseLetters s = some L) (h' : Ex.parseLetters s' = some L')
    (hp : (transactionsOf L.items).Perm (transactionsOf L'.items)) (ho : L.items.any isOther = L'.items.any isOther) :
    SameReading (Ex.parseLetters s) (Ex.parseLetters s') := by
  rw [h, h']
  exact ⟨ButOrder.of_perm (fun _ => ⟨rfl, .refl _⟩) hp, ho⟩

theorem Ex.ledgerAt_a (a b : String) (fault : Nat → Option Nat) (again : Bool) :
    ledgerAt (Ex.system a b fault) (Ex.system a b fault).start again (Ex.file "a") = Ex.parseLetters a.toList := by
  show ((some (encodeUtf8 a.toList)).bind decodeUtf8).bind Ex.parseLetters = _
  rw [Option.bind_some, decode_encode]; rfl

theorem Ex.ledgerAt_b (a b : String) (fault : Nat → Option Nat) (again : Bool) :
    ledgerAt (Ex.system a b fault) (Ex.system a b fault).start again (Ex.file "b") = Ex.parseLetters b.toList := by
  show ((some (encodeUtf8 b.toList)).bind decodeUtf8).bind Ex.parseLetters = _
  rw [Option.bind_some, decode_encode]; rfl

set_option maxRecDepth 100000 in
/-- The hypotheses of `C82_merge_command` are met by a file with three transactions, in two orders. -/
example : ∀ f ∈ exArgs.inputs, ∀ again, SameReading
    (ledgerAt (Ex.system "abt" "c" fun _ => none) (Ex.system "abt" "c" fun _ => none).start again f)
    (ledgerAt (Ex.system "tba" "c" fun _ => none) (Ex.system "tba" "c" fun _ => none).start again f) := by
  intro f hf again
  have : f = Ex.file "a" ∨ f = Ex.file "b" := by simpa [exArgs] using hf
  rcases this with rfl | rfl
  · rw [Ex.ledgerAt_a, Ex.ledgerAt_a]
    exact Ex.sameReading_letters rfl rfl (by decide +kernel) (by decide +kernel)
  · rw [Ex.ledgerAt_b, Ex.ledgerAt_b]
    exact Ex.sameReading_letters rfl rfl (by decide +kernel) (by decide +kernel)

/-- `b` and standard input, to be merged after `a`. -/
def Ex.twoFiles : List FileSpec := [Ex.file "b", .stdio]

set_option maxRecDepth 100000 in
/-- The hypotheses of `C83_merge_command` are met: after `a`, the files `b` and standard input can be merged in either order. The file `b` adds to a
transaction of `a`. -/
example (ho ho' : Nat → HashOrder) : SameRuns (Ex.system "ab" "c" fun _ => none) (Ex.system "ab" "c" fun _ => none)
    ⟨[Ex.file "a"] ++ Ex.twoFiles, none, Ex.file "o"⟩ ⟨[Ex.file "a"] ++ Ex.twoFiles.reverse, none, Ex.file "o"⟩
    (MergeCmd.run (Ex.system "ab" "c" fun _ => none) ho ⟨[Ex.file "a"] ++ Ex.twoFiles, none, Ex.file "o"⟩ World.start)
    (MergeCmd.run (Ex.system "ab" "c" fun _ => none) ho' ⟨[Ex.file "a"] ++ Ex.twoFiles.reverse, none, Ex.file "o"⟩ World.start) := by
  refine C83_merge_command _ ho ho' _ _ _ _ _ (fun _ => rfl) (List.reverse_perm _).symm ?_
  intro gs bs h1 h2
  have key : (mergeInputs (Ex.system "ab" "c" fun _ => none) false [Ex.file "a"]).bind (fun gs =>
      (filesRead (Ex.system "ab" "c" fun _ => none) ([Ex.file "a"].any (· = .stdio)) Ex.twoFiles).map fun bs =>
        decide (bs.Pairwise (fun b c => Apart (bookAfter gs) b.2 c.2))) = some true := by
    simp only [mergeInputs, groups_eval]; decide +kernel
  rw [h1, Option.bind_some, h2] at key
  exact of_decide_eq_true (Option.some.inj key)

set_option maxRecDepth 100000 in
/-- Such a run succeeds. -/
example (ho : Nat → HashOrder) : (MergeCmd.run (Ex.system "ab" "c" fun _ => none) ho ⟨[Ex.file "a"] ++ Ex.twoFiles, none, Ex.file "o"⟩ World.start).1 =
    .ok () := by
  have h1 : (mergeInputs (Ex.system "ab" "c" fun _ => none) false ([Ex.file "a"] ++ Ex.twoFiles)).bind unmergedCount = some 0 := by
    simp only [mergeInputs, Ex.twoFiles, List.cons_append, List.nil_append, groups_eval]; decide +kernel
  cases hgs : mergeInputs (Ex.system "ab" "c" fun _ => none) false ([Ex.file "a"] ++ Ex.twoFiles) with
  | none => rw [hgs] at h1; cases h1
  | some gs =>
    rw [hgs] at h1
    obtain ⟨h2, h3⟩ := not_refused_of_count h1
    exact C25_succeeds_otherwise _ ho _ gs (fun _ => rfl) hgs h2 (.inl (List.length_eq_zero_iff.1 h3))

end Verif
