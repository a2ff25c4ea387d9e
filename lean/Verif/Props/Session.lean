import Verif.Proofs.Session
import Verif.Examples.Exact

/-!
# C84: sessions

Any number of runs of the program, of whatever commands, one after the other over the same files.
-/

namespace Verif
open Spec Spec.Book Comment

/-- Every run of every command carries out a list of whole writes to its targets, or breaks off on the way. -/
theorem command_plan (sys : Sys) (o : Outside) (cmd : SubCommand) :
    ∃ plan : List (FileSpec × Str), (∀ e ∈ plan, Target cmd e.1) ∧ (cmd.run sys o World.start).2.log <+: wholeWrites sys plan ∧
      ((cmd.run sys o World.start).1 = .ok () → (cmd.run sys o World.start).2.log = wholeWrites sys plan) := by
  cases cmd with
  | applyRules rules input output =>
    exact applyRules_plan sys (o.orders 0) o.lower o.fuel (rules sys.start) input output
  | format fs =>
    obtain ⟨plan, h0, h1, h2⟩ := rewrittenInOrder_plan (C58_fmt sys fs)
    exact ⟨plan, fun e he => h0.subset (List.mem_map_of_mem he), h1, fun h => (h2 h).1⟩
  | generateFingerprints fs =>
    obtain ⟨plan, h0, h1, h2⟩ := rewrittenInOrder_plan (C58_generate_fingerprints sys (o.orders 0) fs)
    exact ⟨plan, fun e he => h0.subset (List.mem_map_of_mem he), h1, fun h => (h2 h).1⟩
  | importFrom source args =>
    have h := C79_run sys o.lib o.hasParent source args
    show ∃ plan, _ ∧ (ImportCmd.runFiles sys o.lib o.hasParent source args World.start).2.log <+: _ ∧
      ((ImportCmd.runFiles sys o.lib o.hasParent source args World.start).1 = .ok () →
        (ImportCmd.runFiles sys o.lib o.hasParent source args World.start).2.log = _)
    rcases hr : ImportCmd.runFiles sys o.lib o.hasParent source args World.start with ⟨e | ⟨⟩, w⟩
    · rw [hr] at h
      rcases h with h | ⟨importer, imp, f, es, _, ⟨_, h2, _, h3⟩, h4⟩
      · exact ⟨[], by simp, by rw [h]; exact List.nil_prefix, fun h => by cases h⟩
      · refine ⟨[(f, sys.render (ledgerFromTransactions imp.transactions))], ?_, ?_, fun h => by cases h⟩
        · intro e he
          rw [List.mem_singleton.1 he]
          exact ⟨_, h2⟩
        · rw [h3] at h4
          simpa [wholeWrites] using h4
    · rw [hr] at h
      obtain ⟨importer, imp, f, _, _, h2, _, h3⟩ := h
      have h4 : w.log = wholeWrites sys [(f, sys.render (ledgerFromTransactions imp.transactions))] := by
        rw [h3]; simp [wholeWrites]
      refine ⟨[(f, sys.render (ledgerFromTransactions imp.transactions))], ?_, ?_, fun _ => h4⟩
      · intro e he
        rw [List.mem_singleton.1 he]
        exact ⟨_, h2⟩
      · simp only
        rw [h4]
  | merge args =>
    obtain ⟨plan, h0, h1, h2⟩ := mergeCmd_plan sys o.orders args
    refine ⟨plan, fun e he => ?_, h1, h2⟩
    rcases h0 e he with h | h
    · exact .inr h.symm
    · exact .inl h

/-- A run touches only files that it may write to. -/
theorem step_untouched (base : Sys) (files : Nat → Option Bytes) (s : Step) (n : Nat) (h : ∀ f, Target s.cmd f → fileOf base f ≠ some n) :
    s.after base files n = files n := by
  have hfile : ∀ f, fileOf (s.sys base files) f = fileOf base f := by intro f; cases f <;> rfl
  obtain ⟨plan, h1, h2, _⟩ := command_plan (s.sys base files) s.outside s.cmd
  unfold Step.after
  apply contentsAfter_other
  intro e he hn
  have : e ∈ wholeWrites (s.sys base files) plan := by
    apply h2.subset
    split at he
    · exact he
    · exact List.mem_of_mem_take he
  obtain ⟨x, hx1, hx2⟩ := List.mem_flatMap.1 this
  rw [file_wholeWrite hx2, hfile] at hn
  exact h x.1 (h1 x hx1) hn

/-- **C84.** Whatever commands are run, in whatever order, with whatever inputs, whether they succeed or fail, whether writing fails or the
machine stops at any moment: a file that none of them is told to write to is what it was. -/
theorem C84_untouched (base : Sys) (files : Nat → Option Bytes) (steps : List Step) (n : Nat)
    (h : ∀ s ∈ steps, ∀ f, Target s.cmd f → fileOf base f ≠ some n) : afterSession base files steps n = files n := by
  induction steps generalizing files with
  | nil => rfl
  | cons s ss ih =>
    show afterSession base (s.after base files) ss n = files n
    rw [ih _ (fun s' hs' => h s' (List.mem_cons_of_mem _ hs')), step_untouched base files s n (h s (by simp))]

/-- A run of `merge` that cannot create a file has written to nothing but the file for what is unmerged. -/
theorem mergeCmd_create (sys : Sys) (ho : Nat → HashOrder) (args : MergeCmd.Args) :
    Sat (MergeCmd.run sys ho args) World.start (fun _ _ => True)
      (fun e w => e = .write ∨ ∀ x ∈ w.log, ∃ f, args.unmerged = some f ∧ Eff.file x = fileOf sys f) := by
  unfold MergeCmd.run
  apply Sat.bind
  refine (readInputs_sat sys ho args.inputs ⟨0, Merger.new, []⟩ R_new World.start rfl).imp ?_ ?_
  · rintro acc w₁ ⟨h1, gs, u, _, _, h4, _⟩
    apply Sat.bind
    have hbuild := h4.build (ho acc.calls)
    rw [hbuild]
    change Sat _ _ (fun _ w' => Sat (Files.writeFile sys args.output _) _ _ _) _
    unfold MergeCmd.writeUnmerged
    by_cases hue : acc.unmerged = []
    · rw [if_pos (by simp [hue])]
      apply Sat.pure
      refine (writeFile_sat _ _ _ _).imp (fun _ _ _ => trivial) ?_
      rintro e w₂ ⟨⟨n, g1, ⟨rfl, rfl⟩ | rfl⟩, _⟩
      · exact .inr (by simp [g1, h1])
      · exact .inl rfl
    · rw [if_neg (by simpa using hue)]
      cases ha : args.unmerged with
      | none =>
        apply Sat.fail
        exact .inr (by simp [h1])
      | some f =>
        refine (writeFile_sat _ _ _ _).imp ?_ ?_
        · rintro _ w₂ ⟨g1, _, _⟩
          refine (writeFile_sat _ _ _ _).imp (fun _ _ _ => trivial) ?_
          rintro e w₃ ⟨⟨n, k1, ⟨rfl, rfl⟩ | rfl⟩, _⟩
          · refine .inr fun x hx => ⟨f, rfl, ?_⟩
            rw [k1, g1, h1] at hx
            exact file_wholeWrite (by simpa using hx)
          · exact .inl rfl
        · rintro e w₂ ⟨⟨n, g1, ⟨rfl, rfl⟩ | rfl⟩, _⟩
          · exact .inr (by simp [g1, h1])
          · exact .inl rfl
  · rintro e w₁ ⟨h1, _⟩
    exact .inr (by simp [h1])

theorem step_keeps (base : Sys) (files : Nat → Option Bytes) (s : Step) (n : Nat) (h : CareOfTags base n files s) :
    KeepsTags base n files (s.after base files) := by
  rcases h with h | ⟨hk, hw, h⟩
  · exact KeepsTags.of_eq (step_untouched base files s n h)
  have hfile : ∀ f, fileOf (s.sys base files) f = fileOf base f := by intro f; cases f <;> rfl
  have hread : ∀ c, readable (s.sys base files) c = readable base c := fun _ => rfl
  have hkt : ∀ c c', KeepsTags (s.sys base files) n c c' ↔ KeepsTags base n c c' := fun _ _ => Iff.rfl
  have hcb : ∀ L, CommentsComeBack (s.sys base files) L ↔ CommentsComeBack base L := fun _ => Iff.rfl
  have hafter : s.after base files = contentsAfter files (s.run base files).2.log := by unfold Step.after; rw [hk]
  rw [hafter, ← hkt]
  unfold Step.run at hw ⊢
  cases hc : s.cmd with
  | applyRules => rw [hc] at h; exact h.elim
  | importFrom => rw [hc] at h; exact h.elim
  | format fs =>
    rw [hc] at h hw
    exact rewrittenInOrder_keeps (C58_fmt (s.sys base files) fs) hw (fmtText_keeps h)
  | generateFingerprints fs =>
    rw [hc] at h hw
    exact rewrittenInOrder_keeps (C58_generate_fingerprints (s.sys base files) (s.outside.orders 0) fs) hw (fpGenText_keeps h.1 h.2)
  | merge args =>
    rw [hc] at h hw
    obtain ⟨ho, hu, hin, hcomes⟩ := h
    show KeepsTags (s.sys base files) n files (contentsAfter files (MergeCmd.run (s.sys base files) s.outside.orders args World.start).2.log)
    have hin' : (args.unmerged = none ∧ ∃ f ∈ args.inputs, fileOf (s.sys base files) f = some n) ∨
       (∃ p fs, args.inputs = .path p :: fs ∧ (s.sys base files).file p = n ∧
         ∀ ts, readable (s.sys base files) (s.sys base files).start n = some ts → ∀ T ∈ ts, srcKey ∉ T.trn.comment.valueTags) := by
      rcases hin with ⟨h1, f, h2, h3⟩ | h
      · exact .inl ⟨h1, f, h2, by rw [hfile]; exact h3⟩
      · exact .inr h
    change (MergeCmd.run (s.sys base files) s.outside.orders args World.start).1 ≠ .error .write at hw
    rcases hr : MergeCmd.run (s.sys base files) s.outside.orders args World.start with ⟨e | ⟨⟩, w⟩
    · -- it writes to the other file at most
      rw [hr] at hw
      apply KeepsTags.of_eq
      apply contentsAfter_other
      intro x hx hn
      rcases (mergeCmd_create (s.sys base files) s.outside.orders args).err hr with rfl | h1
      · exact hw rfl
      · obtain ⟨f, h2, h3⟩ := h1 x hx
        exact hu f h2 (by rw [← hfile, ← h3]; exact hn)
    · obtain ⟨gs, u, o, h1, h2, h3, h4, h5⟩ := (mergeCmd_sat (s.sys base files) s.outside.orders args).ok hr
      have hl : leftOver Book.empty gs = [] ∨ args.unmerged ≠ none := by
        rcases h4 with rfl | h4
        · exact .inl (List.forall₂_nil_right_iff.1 (handedBackAll_nil h3))
        · exact .inr h4
      obtain ⟨ts, hts, hkeep⟩ := merge_keeps h1 h2 hl hin'
      have hout : contentsAfter files w.log n =
          some (encodeUtf8 ((s.sys base files).render (TransactionPostings.intoLedger o ((bookAfter gs).journal.map unsourced)))) := by
        rw [show w.log = _ from h5]
        unfold mergePlan
        rw [wholeWrites_append, contentsAfter_append]
        simp only [wholeWrites, List.flatMap_cons, List.flatMap_nil, List.append_nil]
        rw [contentsAfter_whole, if_pos (by rw [hfile]; exact ho)]
      intro ts' hts'
      have : ts' = ts := by
        have e : readable (s.sys base files) files n = some ts := hts
        rw [hts'] at e
        exact Option.some.inj e
      subst this
      have hc' := hcomes gs h1
      rw [intoLedger_order HashOrder.sorted o] at hc'
      obtain ⟨L', hL', hk'⟩ := comesBack_into (sys := s.sys base files) hc' (parsed_journal (parsed_inputs h1))
      refine ⟨(transactionsOf L'.items).map TransactionPostings.ofTransaction, ?_, ?_⟩
      · rw [readable_written hout, hL']; rfl
      · intro T hT hne
        obtain ⟨U, hU, h6⟩ := hkeep T hT hne
        obtain ⟨V, hV, h7⟩ := hk' U hU
        exact ⟨V, hV, h6.trans h7⟩

/-- **C84.** Nothing that has been tagged is lost in a session. Start with any files, and run the program any number of times, each time
with `fmt`, `generate-fingerprints` or `merge` on the journal under the conditions of `CareOfTags` or with anything at all that does not
write to the journal. All postings that stood together in one transaction at the beginning stand together in one transaction at the end,
with all their tags, fingerprints among them. -/
theorem C84_tags (base : Sys) (n : Nat) (files : Nat → Option Bytes) (steps : List Step) (h : EveryStep base (CareOfTags base n) files steps) :
    KeepsTags base n files (afterSession base files steps) := by
  induction steps generalizing files with
  | nil => exact KeepsTags.refl _ _ _
  | cons s ss ih => exact (step_keeps base files s n h.1).trans (ih _ h.2)

/-! ### Simple conditions -/

theorem fmt_noFault {sys : Sys} (hn : ∀ n, sys.fault n = none) (fs : List FileSpec) (w : World) :
    Sat (fmtRun sys fs) w (fun _ _ => True) (fun e _ => e ≠ .write) := by
  induction fs generalizing w with
  | nil => exact trivial
  | cons f fs ih =>
    unfold fmtRun
    apply Sat.bind
    refine (readLedgerFile_sat sys f w).imp ?_ fun e w₁ h => isWrite_ne h.2.1
    intro L w₁ _
    apply Sat.bind
    exact (writeFile_sat sys f (sys.render L) w₁).imp (fun _ w₂ _ => ih w₂) fun e w₂ h => absurd hn h.2

theorem fpgen_noFault {sys : Sys} (hn : ∀ n, sys.fault n = none) (h : HashOrder) (fs : List FileSpec) (w : World) :
    Sat (FpGen.run sys h fs) w (fun _ _ => True) (fun e _ => e ≠ .write) := by
  induction fs generalizing w with
  | nil => exact trivial
  | cons f fs ih =>
    unfold FpGen.run
    apply Sat.bind
    refine (readLedgerFile_sat sys f w).imp ?_ fun e w₁ h => isWrite_ne h.2.1
    intro L w₁ _
    apply Sat.bind
    apply Sat.ofOption
    · intro ts hts
      apply Sat.bind
      change Sat (Files.writeFile sys f (sys.render (TransactionPostings.intoLedger h
        (FpGen.updateTransactions sys.random w₁.drawn ts).2)) >>= fun _ => FpGen.run sys h fs)
        { w₁ with drawn := (FpGen.updateTransactions sys.random w₁.drawn ts).1 } _ _
      apply Sat.bind
      exact (writeFile_sat sys f _ _).imp (fun _ w₂ _ => ih w₂) fun e w₂ h => absurd hn h.2
    · intro _
      decide

theorem mergeGroups_noWrite (ho : Nat → HashOrder) (gs : List (List TransactionPostings)) (acc : MergeCmd.Acc) :
    MergeCmd.mergeGroups ho gs acc ≠ .error .write := by
  induction gs generalizing acc with
  | nil => intro h; cases h
  | cons g gs ih =>
    intro h
    rw [MergeCmd.mergeGroups] at h
    split at h
    · cases h
    · exact ih _ h

theorem readInputs_noWrite (sys : Sys) (ho : Nat → HashOrder) (fs : List FileSpec) (acc : MergeCmd.Acc) (w : World) :
    Sat (MergeCmd.readInputs sys ho fs acc) w (fun _ _ => True) (fun e _ => e ≠ .write) := by
  induction fs generalizing acc w with
  | nil => exact trivial
  | cons f fs ih =>
    unfold MergeCmd.readInputs Sources.readLedgerFile
    apply Sat.bind; apply Sat.bind
    refine (readLedgerFile_sat sys f w).imp ?_ fun e w₁ h => isWrite_ne h.2.1
    intro L w₁ _
    apply Sat.bind
    apply Sat.ofOption
    · intro ts _
      apply Sat.pure
      rcases hm : MergeCmd.mergeGroups ho (Sources.groups (ho acc.calls) (f.display sys) ts) acc with e | acc'
      · apply Sat.fail
        rintro rfl
        exact mergeGroups_noWrite _ _ _ hm
      · exact ih acc' w₁
    · intro _; decide

theorem merge_noFault {sys : Sys} (hn : ∀ n, sys.fault n = none) (ho : Nat → HashOrder) (args : MergeCmd.Args) :
    (MergeCmd.run sys ho args World.start).1 ≠ .error .write := by
  suffices h : Sat (MergeCmd.run sys ho args) World.start (fun _ _ => True) (fun e _ => e ≠ .write) by
    intro he
    exact h.err (Prod.ext he rfl) rfl
  unfold MergeCmd.run
  apply Sat.bind
  refine (readInputs_noWrite sys ho args.inputs ⟨0, Merger.new, []⟩ World.start).imp ?_ fun _ _ h => h
  intro acc w₁ _
  apply Sat.bind
  have hout : ∀ w, Sat (match acc.merger.build (ho acc.calls) with
      | .error e => Prog.fail (.merge e)
      | .ok trns => Files.writeLedgerFile sys args.output (TransactionPostings.intoLedger (ho acc.calls) (Sources.stripSources trns))) w
      (fun _ _ => True) (fun e _ => e ≠ .write) := by
    intro w
    split
    · apply Sat.fail; intro h; cases h
    · exact (writeFile_sat _ _ _ _).imp (fun _ _ _ => trivial) fun _ _ h => absurd hn h.2
  unfold MergeCmd.writeUnmerged
  split
  · exact hout w₁
  · split
    · exact (writeFile_sat _ _ _ _).imp (fun _ w₂ _ => hout w₂) fun _ _ h => absurd hn h.2
    · apply Sat.fail; decide

/-- What can be asked of a run that writes to the journal without looking at what is in the files: that nothing goes wrong with the files, and
that a run of `merge` reads the journal and has no file for what is unmerged. -/
def SimpleStep (base : Sys) (n : Nat) (s : Step) : Prop :=
  (∀ f, Target s.cmd f → fileOf base f ≠ some n) ∨
  (s.killed = none ∧ (∀ k, s.fault k = none) ∧
    match s.cmd with
    | .format _ => True
    | .generateFingerprints _ => ∀ k, ∀ c ∈ s.random k, c ≠ ':' ∧ c ≠ ' ' ∧ c ≠ '\n'
    | .merge args => args.unmerged = none ∧ fileOf base args.output = some n ∧ ∃ f ∈ args.inputs, fileOf base f = some n
    | _ => False)

/-- **C84.** With a printer that is exact about comments, conditions on the commands are enough, whatever the files contain. -/
theorem C84_simple (base : Sys) (n : Nat) (files : Nat → Option Bytes) (steps : List Step) (hb : ∀ L, CommentsComeBack base L)
    (h : ∀ s ∈ steps, SimpleStep base n s) : KeepsTags base n files (afterSession base files steps) := by
  apply C84_tags
  induction steps generalizing files with
  | nil => trivial
  | cons s ss ih =>
    refine ⟨?_, ih _ fun s' hs' => h s' (List.mem_cons_of_mem _ hs')⟩
    rcases h s (by simp) with h | ⟨hk, hf, h⟩
    · exact .inl h
    refine .inr ⟨hk, ?_, ?_⟩
    · unfold Step.run
      cases hc : s.cmd with
      | applyRules => rw [hc] at h; exact h.elim
      | importFrom => rw [hc] at h; exact h.elim
      | format fs => exact fun he => (fmt_noFault hf fs World.start).err (Prod.ext he rfl) rfl
      | generateFingerprints fs => exact fun he => (fpgen_noFault hf _ fs World.start).err (Prod.ext he rfl) rfl
      | merge args => exact merge_noFault hf _ _
    · cases hc : s.cmd with
      | applyRules => rw [hc] at h; exact h.elim
      | importFrom => rw [hc] at h; exact h.elim
      | format fs => exact fun _ L _ => hb L
      | generateFingerprints fs => rw [hc] at h; exact ⟨h, fun _ _ _ _ _ _ => hb _⟩
      | merge args =>
        rw [hc] at h
        exact ⟨h.2.1, (fun f hf => by rw [h.1] at hf; cases hf), .inl ⟨h.1, h.2.2⟩, fun _ _ => hb _⟩

/-! ### Cases that meet the hypotheses -/

/-- A run in which nothing goes wrong with the files. -/
noncomputable def calm (a b : Ledger) (cmd : SubCommand) : Step :=
  ⟨cmd, ⟨fun _ => .sorted, id, 100, Ex.lib, fun _ => true⟩, [], fun _ => none, (Ex.exactSystem a b).random, none⟩

/-- Three runs: fingerprints are generated, another file is merged into the journal, and the journal is reformatted. -/
noncomputable def exSession (a b : Ledger) : List Step :=
  [calm a b (.generateFingerprints [Ex.file "a"]),
   calm a b (.merge ⟨[Ex.file "a", Ex.file "b"], none, Ex.file "a"⟩),
   calm a b (.format [Ex.file "a"])]

/-- Whatever is in the two files, the tags of the journal are kept, and the other file is what it was. -/
example (a b : Ledger) : KeepsTags (Ex.exactSystem a b) 97 (Ex.exactSystem a b).start
      (afterSession (Ex.exactSystem a b) (Ex.exactSystem a b).start (exSession a b)) ∧
    afterSession (Ex.exactSystem a b) (Ex.exactSystem a b).start (exSession a b) 98 = (Ex.exactSystem a b).start 98 := by
  constructor
  · refine C84_simple _ _ _ _ (fun L => ⟨L, Ex.exactSystem_comesBack a b L, rfl⟩) ?_
    intro s hs
    rcases List.mem_cons.1 hs with rfl | hs
    · refine .inr ⟨rfl, fun _ => rfl, ?_⟩
      intro k c hc
      obtain rfl := (List.mem_replicate.1 hc).2
      decide
    rcases List.mem_cons.1 hs with rfl | hs
    · exact .inr ⟨rfl, fun _ => rfl, rfl, rfl, Ex.file "a", by simp, rfl⟩
    · rw [List.mem_singleton.1 hs]
      exact .inr ⟨rfl, fun _ => rfl, trivial⟩
  · apply C84_untouched
    have h97 : fileOf (Ex.exactSystem a b) (Ex.file "a") = some 97 := rfl
    intro s hs f hf
    rcases List.mem_cons.1 hs with rfl | hs
    · rw [show f = Ex.file "a" from List.mem_singleton.1 hf, h97]; decide
    rcases List.mem_cons.1 hs with rfl | hs
    · rcases hf with rfl | hf
      · show fileOf (Ex.exactSystem a b) (Ex.file "a") ≠ _
        rw [h97]; decide
      · cases hf
    · rw [List.mem_singleton.1 hs] at hf
      rw [show f = Ex.file "a" from List.mem_singleton.1 hf, h97]; decide

theorem exact_readable (a b : Ledger) : readable (Ex.exactSystem a b) (Ex.exactSystem a b).start 97 =
    some ((transactionsOf a.items).map TransactionPostings.ofTransaction) := by
  rw [readable_written (text := (Ex.exactSystem a b).render a) rfl, Ex.exactSystem_comesBack]
  rfl

/-- A journal with two transactions is merged with another file, with a file for what is unmerged. The journal comes first and notes no
sources. -/
example : KeepsTags (Ex.exactSystem (Ex.letters "ab") (Ex.letters "ct")) 97 (Ex.exactSystem (Ex.letters "ab") (Ex.letters "ct")).start
      (afterSession (Ex.exactSystem (Ex.letters "ab") (Ex.letters "ct")) (Ex.exactSystem (Ex.letters "ab") (Ex.letters "ct")).start
        [calm (Ex.letters "ab") (Ex.letters "ct") (.merge ⟨[Ex.file "a", Ex.file "b"], some (Ex.file "u"), Ex.file "a"⟩)]) ∧
    (readable (Ex.exactSystem (Ex.letters "ab") (Ex.letters "ct")) (Ex.exactSystem (Ex.letters "ab") (Ex.letters "ct")).start 97).map
      (·.map fun T => T.posts.length) = some [2, 2] := by
  have hb : ∀ L, CommentsComeBack (Ex.exactSystem (Ex.letters "ab") (Ex.letters "ct")) L :=
    fun L => ⟨L, Ex.exactSystem_comesBack _ _ L, rfl⟩
  constructor
  · apply C84_tags
    refine ⟨.inr ⟨rfl, merge_noFault (fun _ => rfl) _ _, rfl, ?_, ?_, fun _ _ => hb _⟩, trivial⟩
    · intro f hf
      cases hf
      exact fun h => absurd (Option.some.inj h) (by decide)
    · refine .inr ⟨"a".toList, [Ex.file "b"], rfl, rfl, ?_⟩
      intro ts hts
      rw [exact_readable] at hts
      cases hts
      decide +kernel
  · rw [exact_readable]
    decide +kernel

end Verif
