import Verif.Proofs.Cut
import Verif.Props.OrderCmd
import Verif.Props.Session

/-!
# C90: runs that fail or are stopped can be repeated
-/

namespace Verif
open Spec Spec.Book

/-- C90, any command: if operations on files fail, then the run does the first part of what it would have done otherwise; and if it succeeds, then it
does all of it. -/
theorem C90_cut (sys : Sys) (o : Outside) (cmd : SubCommand) :
    (cmd.run sys o World.start).2.log <+: (cmd.run { sys with fault := fun _ => none } o World.start).2.log ∧
    ((cmd.run sys o World.start).1 = .ok () → (cmd.run { sys with fault := fun _ => none } o World.start).1 = .ok () ∧
      (cmd.run { sys with fault := fun _ => none } o World.start).2.log = (cmd.run sys o World.start).2.log) := by
  have h : Cut (Faulty sys) (cmd.run sys o) (cmd.run { sys with fault := fun _ => none } o) :=
    command_cut (S := fun _ => True) (sys := sys) (sys' := { sys with fault := fun _ => none }) ⟨rfl, rfl, rfl, rfl, rfl, fun _ _ => rfl, fun _ => rfl⟩ o (fun _ _ _ _ => trivial) rfl (fun _ _ => rfl)
  have h0 : SameSoFar World.start World.start := ⟨rfl, rfl, rfl⟩
  rcases hr : cmd.run sys o World.start with ⟨e | ⟨⟩, v⟩
  · refine ⟨?_, fun x => by cases x⟩
    rcases h.err h0 hr with ⟨v', h1, h2⟩ | ⟨_, h2⟩
    · rw [h1, h2.log]
    · exact h2
  · obtain ⟨v', h1, h2⟩ := h.ok h0 hr
    rw [h1]
    exact ⟨by rw [h2.log], fun _ => ⟨rfl, h2.log.symm⟩⟩

/-- C90, any command: nothing depends on files that the command does not read, be it one that it writes to. -/
theorem C90_only_reads (sys : Sys) (start : Nat → Option Bytes) (o : Outside) (cmd : SubCommand) (hf : ∀ n, sys.fault n = none)
    (hr : ∀ f n, Reads cmd f → fileOf sys f = some n → sys.start n = start n) (hrules : rulesFor sys.start cmd = rulesFor start cmd) :
    (cmd.run { sys with start := start } o World.start).1 = (cmd.run sys o World.start).1 ∧
    (cmd.run { sys with start := start } o World.start).2.log = (cmd.run sys o World.start).2.log := by
  have h : Cut (Faulty sys) (cmd.run sys o) (cmd.run { sys with start := start } o) :=
    command_cut (S := fun n => sys.start n = start n) (sys := sys) (sys' := { sys with start := start }) ⟨rfl, rfl, rfl, rfl, rfl, fun _ h => h, hf⟩ o hr hrules (fun _ _ => rfl)
  have h0 : SameSoFar World.start World.start := ⟨rfl, rfl, rfl⟩
  rcases hx : cmd.run sys o World.start with ⟨e | ⟨⟩, v⟩
  · rcases h.err h0 hx with ⟨v', h1, h2⟩ | ⟨⟨n, hn⟩, _⟩
    · rw [h1]; exact ⟨rfl, h2.log.symm⟩
    · exact absurd (hf n) hn
  · obtain ⟨v', h1, h2⟩ := h.ok h0 hx
    rw [h1]; exact ⟨rfl, h2.log.symm⟩

/-- Every file that a part of some whole writes touches is created in it. -/
theorem created_of_touched {sys : Sys} {plan : List (FileSpec × Str)} {es : List Eff} (h : es <+: wholeWrites sys plan) {e : Eff} (he : e ∈ es)
    {n : Nat} (hn : e.file = some n) : Eff.create n ∈ es := by
  induction plan generalizing es with
  | nil => rw [List.prefix_nil.1 h] at he; cases he
  | cons x plan ih =>
    have e0 : wholeWrites sys (x :: plan) = wholeWrite sys x.1 x.2 ++ wholeWrites sys plan := List.flatMap_cons
    rw [e0] at h
    have key : ∀ l, l <+: wholeWrite sys x.1 x.2 → e ∈ l → Eff.create n ∈ l := by
      intro l hl hel
      have hfile := file_wholeWrite (hl.subset hel)
      rw [hn] at hfile
      unfold wholeWrite at hl
      rw [← hfile] at hl
      match l, hl, hel with
      | a :: l, hl, _ =>
        rw [List.cons_prefix_cons] at hl
        rw [hl.1]
        exact List.mem_cons_self
    rcases List.prefix_or_prefix_of_prefix h (List.prefix_append _ _) with hp | ⟨t, rfl⟩
    · exact key es hp he
    · rw [List.prefix_append_right_inj] at h
      rcases List.mem_append.1 he with he | he
      · exact List.mem_append_left _ (key _ List.prefix_rfl he)
      · exact List.mem_append_right _ (ih h he)

/-- Every file that a run touches is created by it. -/
theorem touched_created (sys : Sys) (o : Outside) (cmd : SubCommand) {e : Eff} (he : e ∈ (cmd.run sys o World.start).2.log) {n : Nat}
    (hn : e.file = some n) : Eff.create n ∈ (cmd.run sys o World.start).2.log := by
  obtain ⟨plan, _, h, _⟩ := command_plan sys o cmd
  exact created_of_touched h he hn

/-- A run touches its targets only. -/
theorem touched_target (sys : Sys) (o : Outside) (cmd : SubCommand) {e : Eff} (he : e ∈ (cmd.run sys o World.start).2.log) {n : Nat}
    (hn : e.file = some n) : ∃ f, Target cmd f ∧ fileOf sys f = some n := by
  obtain ⟨plan, h1, h2, _⟩ := command_plan sys o cmd
  obtain ⟨x, hx, he⟩ := List.mem_flatMap.1 (h2.subset he)
  exact ⟨x.1, h1 x hx, by rw [← file_wholeWrite he, hn]⟩

/-- Which files a run creates does not depend on orders of hash sets, if no operation fails. The commands that rewrite files in place are left out. -/
theorem creates_orders (sys : Sys) (o : Outside) (orders : Nat → HashOrder) (random : Nat → Str) (cmd : SubCommand)
    (hc : (∀ fs, cmd ≠ .format fs) ∧ ∀ fs, cmd ≠ .generateFingerprints fs)
    (hf : ∀ n, sys.fault n = none) {n : Nat} (h : Eff.create n ∈ (cmd.run sys o World.start).2.log) :
    Eff.create n ∈ (cmd.run { sys with random := random } { o with orders := orders } World.start).2.log := by
  set sys' : Sys := { sys with random := random } with hs
  have hcalm : Calm (fun _ => True) sys sys' := ⟨rfl, rfl, rfl, rfl, rfl, fun _ _ => rfl, hf⟩
  have h0 : SameSoFar World.start World.start := ⟨rfl, rfl, rfl⟩
  have heq : (cmd.run sys' o World.start).2.log = (cmd.run sys o World.start).2.log := by
    have hcut : Cut (Faulty sys) (cmd.run sys o) (cmd.run sys' o) :=
      command_cut hcalm o (fun _ _ _ _ => trivial) rfl (fun fs h => absurd h (hc.2 fs))
    rcases hx : cmd.run sys o World.start with ⟨e | ⟨⟩, v⟩
    · rcases hcut.err h0 hx with ⟨v', h1, h2⟩ | ⟨⟨n, hn⟩, _⟩
      · rw [h1]; exact h2.log.symm
      · exact absurd (hf n) hn
    · obtain ⟨v', h1, h2⟩ := hcut.ok h0 hx
      rw [h1]; exact h2.log.symm
  rw [← heq] at h
  clear_value sys'
  have hf' := hcalm.fault
  cases cmd with
  | applyRules rules input output =>
    have e : (SubCommand.applyRules rules input output).run sys' { o with orders := orders } =
        (SubCommand.applyRules rules input output).run sys' o := by
      show Rules.applyRules _ _ _ _ _ _ _ = Rules.applyRules _ _ _ _ _ _ _
      unfold Rules.applyRules
      rw [funext (intoLedger_order (orders 0) (o.orders 0))]
    rw [e]; exact h
  | format fs => exact absurd rfl (hc.1 fs)
  | generateFingerprints fs => exact absurd rfl (hc.2 fs)
  | importFrom source args => exact h
  | merge args =>
    have h : Eff.create n ∈ (MergeCmd.run sys' o.orders args World.start).2.log := h
    show Eff.create n ∈ (MergeCmd.run sys' orders args World.start).2.log
    rcases hr : MergeCmd.run sys' o.orders args World.start with ⟨e | ⟨⟩, w⟩
    · rw [hr] at h
      rcases (mergeCmd_sat sys' o.orders args).err hr with ⟨h1, _⟩ | ⟨_, h1, _⟩
      · rw [h1] at h; cases h
      · exact absurd hf' h1
    · rw [hr] at h
      obtain ⟨gs, u, ho, g1, g2, g3, g4, g5⟩ := (mergeCmd_sat sys' o.orders args).ok hr
      have hl : leftOver Book.empty gs = [] ∨ args.unmerged ≠ none := by
        rcases g4 with rfl | g4
        · exact .inl (List.forall₂_nil_right_iff.1 (handedBackAll_nil g3))
        · exact .inr g4
      have hok := C25_succeeds_otherwise sys' orders args gs hf' g1 g2 hl
      rcases hr' : MergeCmd.run sys' orders args World.start with ⟨r, w'⟩
      rw [hr'] at hok
      simp only at hok
      subst hok
      obtain ⟨gs', u', ho', k1, _, k3, _, k5⟩ := (mergeCmd_sat sys' orders args).ok hr'
      rw [g1] at k1
      cases k1
      rw [g5] at h
      rw [k5]
      have hu : u = [] ↔ u' = [] := by
        have a := handedBackAll_nil g3
        have b := handedBackAll_nil k3
        constructor
        · rintro rfl
          rw [List.forall₂_nil_right_iff.1 a] at b
          exact List.forall₂_nil_left_iff.1 b
        · rintro rfl
          rw [List.forall₂_nil_right_iff.1 b] at a
          exact List.forall₂_nil_left_iff.1 a
      obtain ⟨x, hx, hm⟩ := List.mem_flatMap.1 h
      have hxf : fileOf sys' x.1 = some n := (file_wholeWrite hm).symm
      have hcr : ∀ text, Eff.create n ∈ wholeWrite sys' x.1 text := by
        intro text
        unfold wholeWrite
        rw [hxf]
        exact List.mem_cons_self
      unfold mergePlan at hx ⊢
      rcases List.mem_append.1 hx with hx | hx
      · cases hun : args.unmerged with
        | none => rw [hun] at hx; cases hx
        | some f =>
          rw [hun] at hx
          simp only at hx
          by_cases h0 : u = []
          · rw [if_pos h0] at hx; cases hx
          · rw [if_neg h0, List.mem_singleton] at hx
            simp only [if_neg (fun h => h0 (hu.2 h))]
            refine List.mem_flatMap.2 ⟨_, List.mem_append_left _ (List.mem_singleton.2 rfl), ?_⟩
            have := hcr (sys'.render (TransactionPostings.intoLedger ho' u'))
            rw [hx] at this
            exact this
      · rw [List.mem_singleton] at hx
        refine List.mem_flatMap.2 ⟨_, List.mem_append_right _ (List.mem_singleton.2 rfl), ?_⟩
        have := hcr (sys'.render (TransactionPostings.intoLedger ho' ((bookAfter gs).journal.map unsourced)))
        rw [hx] at this
        exact this

/-- A part of what a run does changes only targets. -/
theorem after_other (base : Sys) (files : Nat → Option Bytes) (s : Step) {n : Nat} (h : ∀ f, Target s.cmd f → fileOf base f ≠ some n) :
    s.after base files n = files n := by
  refine contentsAfter_other _ _ _ fun e he hn => ?_
  have he : e ∈ (s.run base files).2.log := by
    revert he
    cases s.killed with
    | none => exact id
    | some k => exact fun he => (List.take_prefix _ _).subset he
  obtain ⟨f, h1, h2⟩ := touched_target _ _ _ he hn
  exact h f h1 h2

/-- C90: if a command does not write to files that it reads, then it can be repeated after an attempt that failed, or was stopped, at any
moment: the repeated run ends as if there had been no such attempt, and so do all files. -/
theorem C90_run_again (base : Sys) (files : Nat → Option Bytes) (s s' : Step) (hs : AttemptAt s s') (hu : Undisturbed s')
    (hw : WritesElsewhere base s'.cmd) :
    (s'.run base (s.after base files)).1 = (s'.run base files).1 ∧ s'.after base (s.after base files) = s'.after base files := by
  obtain ⟨hk, hf⟩ := hu
  have hother : ∀ n, (∀ g, Target s'.cmd g → fileOf base g ≠ some n) → s.after base files n = files n := by
    intro n h; exact after_other base files s (by rw [hs.cmd]; exact h)
  obtain ⟨e1, e2⟩ := C90_only_reads (s'.sys base files) (s.after base files) s'.outside s'.cmd hf
    (fun f n hr hn => (hother n fun g hg hx => hw.apart f g n hr hg ⟨hn, hx⟩).symm)
    (hw.rules _ _ fun n hn => (hother n hn).symm)
  refine ⟨e1, ?_⟩
  unfold Step.after
  rw [hk]
  show contentsAfter (s.after base files) (s'.run base (s.after base files)).2.log = contentsAfter files (s'.run base files).2.log
  have e2 : (s'.run base (s.after base files)).2.log = (s'.run base files).2.log := e2
  rw [e2]
  funext n
  by_cases hn : s.after base files n = files n
  · exact contentsAfter_congr hn _
  · apply contentsAfter_created
    -- the file was touched by the attempt
    have htouch : ∃ e ∈ (s.run base files).2.log, e.file = some n := by
      by_contra hx
      apply hn
      refine contentsAfter_other _ _ _ fun e he h => hx ⟨e, ?_, h⟩
      revert he
      cases s.killed with
      | none => exact id
      | some k => exact fun he => (List.take_prefix _ _).subset he
    obtain ⟨e, he, hen⟩ := htouch
    have hcmd : (∀ fs, s.cmd ≠ .format fs) ∧ ∀ fs, s.cmd ≠ .generateFingerprints fs := by
      obtain ⟨g, hg, hgn⟩ := touched_target _ _ _ he hen
      constructor
      · intro fs hx
        have hx' := hs.cmd ▸ hx
        rw [hx] at hg
        have hg : g ∈ fs := hg
        exact hw.apart g g n (by rw [hx']; exact hg) (by rw [hx']; exact hg) ⟨hgn, hgn⟩
      · intro fs hx
        have hx' := hs.cmd ▸ hx
        rw [hx] at hg
        have hg : g ∈ fs := hg
        exact hw.apart g g n (by rw [hx']; exact hg) (by rw [hx']; exact hg) ⟨hgn, hgn⟩
    have h1 := (C90_cut _ _ _).1.subset (touched_created _ _ _ he hen)
    have h2 := creates_orders _ _ s'.outside.orders s'.random _ hcmd (fun _ => rfl) h1
    have hsys : ({ ({ (s.sys base files) with fault := fun _ => none } : Sys) with random := s'.random } : Sys) = s'.sys base files := by
      have : s'.fault = fun _ => none := funext hf
      unfold Step.sys
      rw [hs.stdin, this]
    have hout : ({ s.outside with orders := s'.outside.orders } : Outside) = s'.outside := by
      have a := hs.lib; have b := hs.lower; have c := hs.fuel; have d := hs.hasParent
      rcases ho : s.outside with ⟨o1, o2, o3, o4, o5⟩
      rcases ho' : s'.outside with ⟨p1, p2, p3, p4, p5⟩
      rw [ho, ho'] at a b c d
      simp only at a b c d
      subst a; subst b; subst c; subst d
      rfl
    rw [hsys, hout, hs.cmd] at h2
    exact h2

/-- C90, sessions: any number of attempts that failed or were stopped leave no trace once the command has been run without trouble. -/
theorem C90_session (base : Sys) (files : Nat → Option Bytes) (attempts : List Step) (s : Step) (later : List Step)
    (ha : ∀ a ∈ attempts, AttemptAt a s) (hu : Undisturbed s) (hw : WritesElsewhere base s.cmd) :
    afterSession base files (attempts ++ s :: later) = afterSession base files (s :: later) := by
  induction attempts generalizing files with
  | nil => rfl
  | cons a as ih =>
    show afterSession base (a.after base files) (as ++ s :: later) = _
    rw [ih (a.after base files) fun b hb => ha b (List.mem_cons_of_mem _ hb)]
    show afterSession base (s.after base (a.after base files)) later = afterSession base (s.after base files) later
    rw [(C90_run_again base files a s (ha a List.mem_cons_self) hu hw).2]

/-! ### Cases that meet the hypotheses, and a case that does not -/

/-- A run of `merge`: the orders of hash sets, the operations that fail and when it is stopped. -/
def mergeStep (args : MergeCmd.Args) (order : HashOrder) (fault : Nat → Option Nat) (killed : Option Nat) : Step :=
  ⟨.merge args, ⟨fun _ => order, id, 100, Ex.lib, fun _ => true⟩, [], fault, fun _ => [], killed⟩

/-- The files `a` and `b` are merged into the file `o`. -/
def intoOther : MergeCmd.Args := ⟨[Ex.file "a", Ex.file "b"], none, Ex.file "o"⟩

/-- The hypotheses of `C90_session` are met: the first attempt cannot write more than one byte, the second is stopped after the file was
created; then the runs go on as if nothing had happened. -/
example (a b : String) (files : Nat → Option Bytes) (later : List Step) :
    afterSession (Ex.system a b fun _ => none) files
      ([mergeStep intoOther .sorted (fun n => if n = 2 then some 2 else none) none, mergeStep intoOther .rev (fun _ => none) (some 1)] ++
        mergeStep intoOther .sorted (fun _ => none) none :: later) =
    afterSession (Ex.system a b fun _ => none) files (mergeStep intoOther .sorted (fun _ => none) none :: later) := by
  apply C90_session
  · intro s hs
    rcases List.mem_cons.1 hs with rfl | hs
    · exact ⟨rfl, rfl, rfl, rfl, rfl, rfl⟩
    · rw [List.mem_singleton.1 hs]
      exact ⟨rfl, rfl, rfl, rfl, rfl, rfl⟩
  · exact ⟨rfl, fun _ => rfl⟩
  · refine ⟨?_, fun _ _ _ => rfl⟩
    rintro f g n hf (rfl | hg) ⟨h1, h2⟩
    · have h2 : n = 111 := (Option.some.inj h2).symm
      subst h2
      rcases List.mem_cons.1 (show f ∈ [Ex.file "a", Ex.file "b"] from hf) with rfl | hf
      · exact absurd (show some 97 = some 111 from h1) (by decide)
      · rw [List.mem_singleton.1 hf] at h1
        exact absurd (show some 98 = some 111 from h1) (by decide)
    · cases hg

/-- The same files, merged into the file `a` itself. -/
def intoFirst : MergeCmd.Args := ⟨[Ex.file "a", Ex.file "b"], none, Ex.file "a"⟩

/-- What a run of `mergeStep` finds. -/
def mergeSys (files : Nat → Option Bytes) : Sys :=
  { Ex.system "ab" "c" (fun _ => none) with start := files, stdin := [], random := fun _ => [] }

/-- What is written to the output by a run without trouble, if the files have the given contents. -/
def mergedText (files : Nat → Option Bytes) (args : MergeCmd.Args) : Option Str :=
  (mergeInputs (mergeSys files) false args.inputs).map fun gs =>
    Ex.renderLetters (TransactionPostings.intoLedger HashOrder.sorted ((bookAfter gs).journal.map unsourced))

theorem mergeStep_run {args : MergeCmd.Args} (hn : args.unmerged = none) {files : Nat → Option Bytes} {text : Str} (h : mergedText files args = some text)
    (h0 : (mergeInputs (mergeSys files) false args.inputs).bind unmergedCount = some 0) (order : HashOrder) (killed : Option Nat) :
    ((mergeStep args order (fun _ => none) killed).run (Ex.system "ab" "c" fun _ => none) files).1 = .ok () ∧
    ((mergeStep args order (fun _ => none) killed).run (Ex.system "ab" "c" fun _ => none) files).2.log =
      wholeWrite (Ex.system "ab" "c" fun _ => none) args.output text := by
  unfold mergedText at h
  rcases hgs : mergeInputs (mergeSys files) false args.inputs with _ | gs
  · rw [hgs] at h; cases h
  · rw [hgs] at h h0
    obtain ⟨h2, h3⟩ := not_refused_of_count h0
    cases h
    obtain ⟨ins, un, out⟩ := args
    subst hn
    have hok := C25_succeeds_otherwise (mergeSys files) (fun _ => order) ⟨ins, none, out⟩ gs (fun _ => rfl) hgs h2
      (.inl (List.length_eq_zero_iff.1 h3))
    rcases hr : MergeCmd.run (mergeSys files) (fun _ => order) ⟨ins, none, out⟩ World.start with ⟨r, w⟩
    rw [hr] at hok
    simp only at hok
    subst hok
    show (MergeCmd.run (mergeSys files) (fun _ => order) ⟨ins, none, out⟩ World.start).1 = _ ∧
      (MergeCmd.run (mergeSys files) (fun _ => order) ⟨ins, none, out⟩ World.start).2.log = _
    rw [hr]
    exact ⟨rfl, (run_without_unmerged hgs hr).2.2⟩

set_option maxRecDepth 100000 in
/-- An attempt as in the example for `C90_session` can leave something: here a file that was not there and has nothing in it. -/
example : (Ex.system "ab" "c" fun _ => none).start 111 = none ∧
    (mergeStep intoOther .rev (fun _ => none) (some 1)).after (Ex.system "ab" "c" fun _ => none) (Ex.system "ab" "c" fun _ => none).start 111 =
      some [] := by
  have w1 : mergedText (Ex.system "ab" "c" fun _ => none).start intoOther = some "cs".toList := by
    unfold mergedText Book.journal
    simp only [mergeInputs, intoOther, groups_eval, Ex.mergeSort_eval dateOf]
    decide +kernel
  have r1 : (mergeInputs (mergeSys (Ex.system "ab" "c" fun _ => none).start) false intoOther.inputs).bind unmergedCount = some 0 := by
    simp only [mergeInputs, intoOther, groups_eval]; decide +kernel
  refine ⟨rfl, ?_⟩
  show contentsAfter _ (List.take 1 _) 111 = _
  rw [(mergeStep_run rfl w1 r1 HashOrder.rev (some 1)).2]
  rfl

set_option maxRecDepth 100000 in
/-- C90 is false for files that are written in place: a run of `merge` whose output is its first input is stopped when the file has been created. The
repeated run succeeds, but the transactions of the journal are gone. -/
theorem C90_in_place : ∃ (base : Sys) (files : Nat → Option Bytes) (s s' : Step), AttemptAt s s' ∧ Undisturbed s' ∧
    (s'.run base (s.after base files)).1 = .ok () ∧
    s'.after base files 97 = some (encodeUtf8 "cs".toList) ∧
    s'.after base (s.after base files) 97 = some (encodeUtf8 "t".toList) := by
  set sys := Ex.system "ab" "c" fun _ => none with hsys
  have w1 : mergedText (Ex.system "ab" "c" fun _ => none).start intoFirst = some "cs".toList := by
    unfold mergedText Book.journal
    simp only [mergeInputs, intoFirst, groups_eval, Ex.mergeSort_eval dateOf]
    decide +kernel
  have r1 : (mergeInputs (mergeSys (Ex.system "ab" "c" fun _ => none).start) false intoFirst.inputs).bind unmergedCount = some 0 := by
    simp only [mergeInputs, intoFirst, groups_eval]; decide +kernel
  have w2 : mergedText (fun m => if m = 97 then some [] else (Ex.system "ab" "c" fun _ => none).start m) intoFirst = some "t".toList := by
    unfold mergedText Book.journal
    simp only [mergeInputs, intoFirst, groups_eval, Ex.mergeSort_eval dateOf]
    decide +kernel
  have r2 : (mergeInputs (mergeSys fun m => if m = 97 then some [] else (Ex.system "ab" "c" fun _ => none).start m) false
      intoFirst.inputs).bind unmergedCount = some 0 := by
    simp only [mergeInputs, intoFirst, groups_eval]; decide +kernel
  have a1 := fun killed => mergeStep_run rfl w1 r1 HashOrder.sorted killed
  have a2 := fun killed => mergeStep_run rfl w2 r2 HashOrder.sorted killed
  have hs : (mergeStep intoFirst .sorted (fun _ => none) (some 1)).after sys sys.start =
      fun m => if m = 97 then some [] else sys.start m := by
    show contentsAfter sys.start (List.take 1 _) = _
    rw [(a1 (some 1)).2]
    rfl
  refine ⟨sys, sys.start, mergeStep intoFirst .sorted (fun _ => none) (some 1), mergeStep intoFirst .sorted (fun _ => none) none,
    ⟨rfl, rfl, rfl, rfl, rfl, rfl⟩, ⟨rfl, fun _ => rfl⟩, ?_, ?_, ?_⟩
  · rw [hs]; exact (a2 none).1
  · show contentsAfter sys.start _ 97 = _
    rw [(a1 none).2]
    show contentsAfter _ (wholeWrite _ _ _) 97 = _
    rw [contentsAfter_whole, if_pos (show fileOf (Ex.system "ab" "c" fun _ => none) intoFirst.output = some 97 from rfl)]
  · rw [hs]
    show contentsAfter _ _ 97 = _
    rw [(a2 none).2]
    show contentsAfter _ (wholeWrite _ _ _) 97 = _
    rw [contentsAfter_whole, if_pos (show fileOf (Ex.system "ab" "c" fun _ => none) intoFirst.output = some 97 from rfl)]

end Verif
