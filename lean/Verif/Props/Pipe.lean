import Verif.Proofs.PipeIn
import Verif.Props.Recover
import Verif.Props.Together
import Verif.Props.ImportFiles

/-!
# C99: a pipe in place of a file
-/

namespace Verif
open Spec Spec.Book

/-- **C99, the end that prints.** A command that prints instead of writing to a file succeeds in the same cases, with the same faults. What it
prints is what would be in the file, and other files are the same. -/
theorem C99_print {sys : Sys} {p : Str} {cmd cmd' : SubCommand} (h : PrintsFor sys p cmd cmd') (o : Outside) :
    ((cmd'.run sys o World.start).1 = .ok () ↔ (cmd.run sys o World.start).1 = .ok ()) ∧
    ((cmd.run sys o World.start).1 = .ok () →
      contentsAfter sys.start (cmd.run sys o World.start).2.log (sys.file p) = some (onScreen (cmd'.run sys o World.start).2.log) ∧
      contentsAfter sys.start (cmd'.run sys o World.start).2.log (sys.file p) = sys.start (sys.file p) ∧
      ∀ n, n ≠ sys.file p → contentsAfter sys.start (cmd'.run sys o World.start).2.log n =
        contentsAfter sys.start (cmd.run sys o World.start).2.log n) := by
  obtain ⟨h1, h2⟩ := print_instead h o
  refine ⟨h1, fun hok => ?_⟩
  obtain ⟨text, log, h3, h4, h5⟩ := h2 hok
  rw [h4, h5, contentsAfter_append, contentsAfter_append, onScreen_append, beside_silent h3]
  refine ⟨?_, ?_, fun n hn => ?_⟩
  · rw [contentsAfter_whole, if_pos (show fileOf sys (.path p) = some (sys.file p) from rfl)]
    congr 1
    exact (onScreen_print _).symm
  · rw [contentsAfter_whole, if_neg (fun x => by cases x), beside_contents h3]
  · rw [contentsAfter_whole, contentsAfter_whole, if_neg (fun x => by cases x), if_neg]
    intro x
    exact hn (Option.some.inj x).symm

theorem lockstep_ok {q q' : Prog Unit} {S S' : World → World → Prop} (h : Lockstep S S' Eq q q') {w w' : World} (hw : S w w') :
    ((q' w').1 = .ok () ↔ (q w).1 = .ok ()) ∧ ((q w).1 = .ok () → S' (q w).2 (q' w').2) := by
  have h1 := h w w' hw
  revert h1
  rcases q w with ⟨e | ⟨⟩, v⟩ <;> rcases q' w' with ⟨e' | ⟨⟩, v'⟩ <;> intro h1
  · exact ⟨⟨fun x => (by cases x), fun x => (by cases x)⟩, fun x => (by cases x)⟩
  · exact h1.elim
  · exact h1.elim
  · exact ⟨⟨fun _ => rfl, fun _ => rfl⟩, fun _ => h1.2⟩

theorem soFar_start : SoFar false World.start World.start := ⟨rfl, rfl, rfl, fun _ => ⟨rfl, rfl⟩⟩

/-- **C99, the end that reads.** A command other than `merge` that gets the content of a file from standard input instead succeeds in the same cases, with
the same faults, and does the same. The file itself may contain anything. -/
theorem C99_feed {sys : Sys} {p : Str} {cmd cmd' : SubCommand} (h : ReadsFor sys p cmd cmd') (hm : ¬ IsMerge cmd) {b : Bytes}
    (hb : sys.start (sys.file p) = some b) {files : Nat → Option Bytes} (hF : ∀ n, n ≠ sys.file p → files n = sys.start n)
    (hr : rulesFor files cmd' = rulesFor sys.start cmd) (o : Outside) :
    ((cmd'.run (withInput sys b files) o World.start).1 = .ok () ↔ (cmd.run sys o World.start).1 = .ok ()) ∧
    ((cmd.run sys o World.start).1 = .ok () →
      (cmd'.run (withInput sys b files) o World.start).2.log = (cmd.run sys o World.start).2.log) := by
  obtain ⟨h1, h2⟩ := lockstep_ok (feed_lock hb hF h hm hr o) soFar_start
  exact ⟨h1, fun hok => (h2 hok).log.symm⟩

/-- **C99, the end that reads: `merge`.** If the file has no notes of sources, then `merge` succeeds in the same cases and writes the same journal;
only the notes of sources in what is unmerged differ. -/
theorem C99_feed_merge {sys : Sys} {p : Str} {cmd cmd' : SubCommand} (h : ReadsFor sys p cmd cmd') (hm : IsMerge cmd) {b : Bytes}
    (hb : sys.start (sys.file p) = some b) {files : Nat → Option Bytes} (hF : ∀ n, n ≠ sys.file p → files n = sys.start n)
    (hn : ∀ ts, contentOf sys sys.start p = some ts → NoSources ts) (o : Outside) :
    ((cmd'.run (withInput sys b files) o World.start).1 = .ok () ↔ (cmd.run sys o World.start).1 = .ok ()) ∧
    ((cmd.run sys o World.start).1 = .ok () →
      SameButSources sys cmd (cmd.run sys o World.start).2.log (cmd'.run (withInput sys b files) o World.start).2.log) := by
  cases h with
  | merge before behind unmerged output hf =>
    have h1 := feed_merge hb hF (ho := o.orders) hf hn unmerged output
    show ((MergeCmd.run _ _ _ _).1 = _ ↔ (MergeCmd.run _ _ _ _).1 = _) ∧ ((MergeCmd.run _ _ _ _).1 = _ → SameButSources _ _ (MergeCmd.run _ _ _ _).2.log (MergeCmd.run _ _ _ _).2.log)
    revert h1
    rcases MergeCmd.run sys _ _ _ with ⟨e | ⟨⟩, v⟩ <;> rcases MergeCmd.run (withInput sys b files) _ _ _ with ⟨e' | ⟨⟩, v'⟩ <;> intro h1
    · exact ⟨⟨fun x => (by cases x), fun x => (by cases x)⟩, fun x => (by cases x)⟩
    · exact h1.elim
    · exact h1.elim
    · exact ⟨⟨fun _ => rfl, fun _ => rfl⟩, fun _ => h1⟩
  | applyRules => exact hm.elim
  | nationwideCsv => exact hm.elim
  | paypalCsv => exact hm.elim
  | timeZones => exact hm.elim

/-! ### Filters -/

theorem rewrite_or_print (sys sys' : Sys) (hs : sys'.fault = sys.fault) (p : Str) (text : Str) :
    Lockstep (SoFar true) (fun v v' => ∃ log, v.log = log ++ wholeWrite sys (.path p) text ∧ v'.log = log ++ wholeWrite sys .stdio text) Eq
      (Files.writeFile sys (.path p) text >>= fun _ => pure ()) (Files.writeFile sys' .stdio text >>= fun _ => pure ()) := by
  intro w w' hw
  rw [bind_run, bind_run]
  simp only [Files.writeFile, hs, hw.ops]
  rcases sys.fault w'.ops with _ | _ | k
  · exact ⟨trivial, w.log, rfl, by rw [hw.log]; rfl⟩
  · trivial
  · trivial

theorem filter_lock {sys : Sys} {p : Str} {cmd cmd' : SubCommand} (h : FiltersFor p cmd cmd') {b : Bytes} (hb : sys.start (sys.file p) = some b)
    (files : Nat → Option Bytes) (o : Outside) :
    Lockstep (SoFar false) (fun v v' => ∃ text log, v.log = log ++ wholeWrite sys (.path p) text ∧ v'.log = log ++ wholeWrite sys .stdio text) Eq
      (cmd.run sys o) (cmd'.run (withInput sys b files) o) := by
  have weaken : ∀ (S : World → World → Prop) (text : Str) (q q' : Prog Unit),
      Lockstep S (fun v v' => ∃ log, v.log = log ++ wholeWrite sys (.path p) text ∧ v'.log = log ++ wholeWrite sys .stdio text) Eq q q' →
      Lockstep S (fun v v' => ∃ text log, v.log = log ++ wholeWrite sys (.path p) text ∧ v'.log = log ++ wholeWrite sys .stdio text) Eq q q' := by
    intro S text q q' hq w w' hw
    have := hq w w' hw
    revert this
    rcases q w with ⟨e | ⟨⟩, v⟩ <;> rcases q' w' with ⟨e' | ⟨⟩, v'⟩ <;> intro h1
    · trivial
    · exact h1
    · exact h1
    · exact ⟨rfl, text, h1.2⟩
  cases h with
  | format =>
    show Lockstep _ _ _ (fmtRun sys _) (fmtRun _ _)
    unfold fmtRun fmtRun
    refine (Lockstep.readLedgerFile (sys := sys) (sys' := withInput sys b files) rfl (readBytes_fed hb)).bind fun L L' hL => ?_
    subst hL
    exact weaken _ _ _ _ (rewrite_or_print sys _ rfl p _)
  | generateFingerprints =>
    show Lockstep _ _ _ (FpGen.run sys _ _) (FpGen.run _ _ _)
    unfold FpGen.run FpGen.run
    refine (Lockstep.readLedgerFile (sys := sys) (sys' := withInput sys b files) rfl (readBytes_fed hb)).bind fun L L' hL => ?_
    subst hL
    refine (Lockstep.ofOption _ _).bind fun ts ts' hts => ?_
    subst hts
    refine Lockstep.bind (S' := SoFar true) (Rel := Eq) ?_ fun us us' hus => ?_
    · intro w w' hw
      unfold FpGen.update
      simp only [hw.drawn, show (withInput sys b files).random = sys.random from rfl]
      exact ⟨trivial, hw.log, hw.ops, rfl, fun x => by cases x⟩
    · subst hus
      exact weaken _ _ _ _ (rewrite_or_print sys _ rfl p _)

/-- **C99, filters.** `fmt -` and `generate-fingerprints -` succeed in the same cases as the same command with a file, print what would be in the file, and
touch no file. -/
theorem C99_filter {sys : Sys} {p : Str} {cmd cmd' : SubCommand} (h : FiltersFor p cmd cmd') {b : Bytes} (hb : sys.start (sys.file p) = some b)
    (files : Nat → Option Bytes) (o : Outside) :
    ((cmd'.run (withInput sys b files) o World.start).1 = .ok () ↔ (cmd.run sys o World.start).1 = .ok ()) ∧
    ((cmd.run sys o World.start).1 = .ok () →
      contentsAfter sys.start (cmd.run sys o World.start).2.log (sys.file p) = some (onScreen (cmd'.run (withInput sys b files) o World.start).2.log)) ∧
    contentsAfter files (cmd'.run (withInput sys b files) o World.start).2.log = files := by
  obtain ⟨h1, h2⟩ := lockstep_ok (filter_lock h hb files o) soFar_start
  have h3 : ∀ e ∈ (cmd'.run (withInput sys b files) o World.start).2.log, e.file = none := by
    obtain ⟨plan, g1, g2, _⟩ := command_plan (withInput sys b files) o cmd'
    intro e he
    obtain ⟨x, hx1, hx2⟩ := List.mem_flatMap.1 (g2.subset he)
    have hx3 : x.1 = .stdio := by
      have := g1 x hx1
      cases h with
      | format => exact List.mem_singleton.1 this
      | generateFingerprints => exact List.mem_singleton.1 this
    rw [file_wholeWrite hx2, hx3]
    rfl
  have h4 : contentsAfter files (cmd'.run (withInput sys b files) o World.start).2.log = files := by
    funext n
    apply contentsAfter_other
    intro e he
    rw [h3 e he]
    exact nofun
  refine ⟨h1, fun hok => ?_, h4⟩
  obtain ⟨text, log, k1, k2⟩ := h2 hok
  have h5 : onScreen log = [] := by
    unfold onScreen
    rw [List.flatMap_eq_nil_iff]
    intro e he
    obtain ⟨plan, g1, g2, _⟩ := command_plan sys o cmd
    obtain ⟨x, hx1, hx2⟩ := List.mem_flatMap.1 (g2.subset (show e ∈ (cmd.run sys o World.start).2.log by rw [k1]; exact List.mem_append_left _ he))
    have hx3 : x.1 = .path p := by
      have := g1 x hx1
      cases h with
      | format => exact List.mem_singleton.1 this
      | generateFingerprints => exact List.mem_singleton.1 this
    have hx4 := file_wholeWrite hx2
    rw [hx3] at hx4
    cases e with
    | print => cases hx4
    | create => rfl
    | write => rfl
  rw [k1, k2, contentsAfter_append, contentsAfter_whole, if_pos (show fileOf sys (.path p) = some (sys.file p) from rfl), onScreen_append, h5]
  congr 1
  exact (onScreen_print _).symm

/-! ### Pipelines -/

theorem otherFile_sys {base : Sys} {p : Str} {s : Step} {files : Nat → Option Bytes} {f : FileSpec} (h : OtherFile base p f) :
    OtherFile (s.sys base files) p f := by
  obtain ⟨n, h1, h2⟩ := h
  exact ⟨n, (fileOf_sys base files s f).trans h1, h2⟩

theorem printsFor_sys {base : Sys} {p : Str} {s : Step} {files : Nat → Option Bytes} {cmd cmd' : SubCommand} (h : PrintsFor base p cmd cmd') :
    PrintsFor (s.sys base files) p cmd cmd' := by
  cases h with
  | applyRules => exact .applyRules _ _
  | importFrom => exact .importFrom _
  | merge inputs unmerged hu => exact .merge _ _ fun f hf => otherFile_sys (hu f hf)

theorem readsFor_sys {base : Sys} {p : Str} {s : Step} {files : Nat → Option Bytes} {cmd cmd' : SubCommand} (h : ReadsFor base p cmd cmd') :
    ReadsFor (s.sys base files) p cmd cmd' := by
  cases h with
  | applyRules => exact .applyRules _ _
  | nationwideCsv => exact .nationwideCsv _ _ _
  | paypalCsv _ _ _ _ h => exact .paypalCsv _ _ _ _ (otherFile_sys h)
  | timeZones _ _ _ _ h => exact .timeZones _ _ _ _ (otherFile_sys h)
  | merge before behind unmerged output h => exact .merge _ _ _ _ fun f hf => otherFile_sys (h f hf)

theorem readsFor_rules {base : Sys} {p : Str} {cmd cmd' : SubCommand} (h : ReadsFor base p cmd cmd') (files : Nat → Option Bytes) :
    rulesFor files cmd' = rulesFor files cmd := by
  cases h <;> rfl

variable {base : Sys} {files : Nat → Option Bytes} {p : Str} {a b : Step} {A' B' : SubCommand}

/-- What the first run leaves, in the file or for the pipe. -/
theorem first_leaves (hA : PrintsFor base p a.cmd A') (ha : a.killed = none) (hok : (a.run base files).1 = .ok ()) :
    a.after base files (base.file p) = some ((a.doing A').prints base files) ∧
    (a.doing A').after base files (base.file p) = files (base.file p) ∧
    ∀ n, n ≠ base.file p → (a.doing A').after base files n = a.after base files n := by
  have h := (C99_print (printsFor_sys (s := a) (files := files) hA) a.outside).2 hok
  unfold Step.after Step.prints
  rw [show (a.doing A').killed = a.killed from rfl, ha]
  exact h

/-- **C99, a pipeline.** The first run writes to a file and the second, which is not `merge`, reads it; or the first prints and the second reads that.
Both succeed in the same cases, with the same faults. All other files are the same in the end; and with the pipe, the file is what it was, unless the
second run is told to write to it. -/
theorem C99_pipe (hA : PrintsFor base p a.cmd A') (hB : ReadsFor base p b.cmd B') (hm : ¬ IsMerge b.cmd) (hr : RulesApart b.cmd (base.file p))
    (ha : a.killed = none) (hb : b.killed = none) :
    ((a.run base files).1 = .ok () ∧ (b.run base (a.after base files)).1 = .ok () ↔
      ((a.doing A').run base files).1 = .ok () ∧
        ((b.behind base files (a.doing A') B').run base ((a.doing A').after base files)).1 = .ok ()) ∧
    ((a.run base files).1 = .ok () → (b.run base (a.after base files)).1 = .ok () →
      (∀ n, n ≠ base.file p → afterSession base files [a.doing A', b.behind base files (a.doing A') B'] n = afterSession base files [a, b] n) ∧
      ((∀ f, Target B' f → fileOf base f ≠ some (base.file p)) →
        afterSession base files [a.doing A', b.behind base files (a.doing A') B'] (base.file p) = files (base.file p))) := by
  have hAok : ((a.doing A').run base files).1 = .ok () ↔ (a.run base files).1 = .ok () :=
    (C99_print (printsFor_sys (s := a) (files := files) hA) a.outside).1
  have key := fun hok : (a.run base files).1 = .ok () =>
    let h1 := first_leaves (files := files) hA ha hok
    C99_feed (readsFor_sys (s := b) (files := a.after base files) hB) hm h1.1 h1.2.2
      ((readsFor_rules hB _).trans (hr _ _ h1.2.2)) b.outside
  refine ⟨⟨fun ⟨h1, h2⟩ => ⟨hAok.2 h1, (key h1).1.2 h2⟩, fun ⟨h1, h2⟩ => ⟨hAok.1 h1, (key (hAok.1 h1)).1.1 h2⟩⟩, fun h1 h2 => ?_⟩
  obtain ⟨g1, g2, g3⟩ := first_leaves (files := files) hA ha h1
  have hlog : ((b.behind base files (a.doing A') B').run base ((a.doing A').after base files)).2.log = (b.run base (a.after base files)).2.log :=
    (key h1).2 h2
  refine ⟨fun n hn => ?_, fun ht => ?_⟩
  · show (b.behind base files (a.doing A') B').after base ((a.doing A').after base files) n = b.after base (a.after base files) n
    unfold Step.after
    rw [show (b.behind base files (a.doing A') B').killed = b.killed from rfl, hb]
    simp only
    have := g3 n hn
    unfold Step.after at this hlog
    rw [hlog]
    exact contentsAfter_agree this _
  · show (b.behind base files (a.doing A') B').after base ((a.doing A').after base files) (base.file p) = _
    rw [step_untouched base _ _ _ ht]
    exact g2

/-- What is written but for what is unmerged is the same. -/
theorem sameButSources_contents {sys : Sys} {cmd : SubCommand} {log log' : List Eff} (h : SameButSources sys cmd log log') {F F' : Nat → Option Bytes} {n : Nat}
    (hn : ∀ f, unmergedFile cmd = some f → fileOf sys f ≠ some n) (hF : F n = F' n) : contentsAfter F log n = contentsAfter F' log' n := by
  obtain ⟨args, rfl, u, u', j, _, rfl, rfl⟩ := h
  have key : ∀ (F : Nat → Option Bytes) (u : List TransactionPostings), contentsAfter F (wholeWrites sys (mergePlan sys HashOrder.sorted args u j)) n =
      contentsAfter F (wholeWrite sys args.output (sys.render (TransactionPostings.intoLedger HashOrder.sorted j))) n := by
    intro F u
    unfold mergePlan wholeWrites
    rw [List.flatMap_append, contentsAfter_append]
    simp only [List.flatMap_cons, List.flatMap_nil, List.append_nil]
    apply contentsAfter_agree
    apply contentsAfter_other
    intro e he hen
    cases hu : args.unmerged with
    | none => rw [hu] at he; simp at he
    | some f =>
      rw [hu] at he
      simp only at he
      split at he
      · simp at he
      · simp only [List.flatMap_cons, List.flatMap_nil, List.append_nil] at he
        rw [file_wholeWrite he] at hen
        exact hn f hu hen
  rw [key, key]
  exact contentsAfter_agree hF _

/-- **C99, a pipeline into `merge`.** If what goes through the pipe has no notes of sources, then all files are the same but for the one for what is
unmerged; in that one only notes of sources differ. -/
theorem C99_pipe_merge (hA : PrintsFor base p a.cmd A') (hB : ReadsFor base p b.cmd B') (hm : IsMerge b.cmd)
    (hn : ∀ ts, contentOf base (a.after base files) p = some ts → NoSources ts) (ha : a.killed = none) (hb : b.killed = none) :
    ((a.run base files).1 = .ok () ∧ (b.run base (a.after base files)).1 = .ok () ↔
      ((a.doing A').run base files).1 = .ok () ∧
        ((b.behind base files (a.doing A') B').run base ((a.doing A').after base files)).1 = .ok ()) ∧
    ((a.run base files).1 = .ok () → (b.run base (a.after base files)).1 = .ok () →
      SameButSources base b.cmd (b.run base (a.after base files)).2.log
        ((b.behind base files (a.doing A') B').run base ((a.doing A').after base files)).2.log ∧
      ∀ n, n ≠ base.file p → (∀ f, unmergedFile b.cmd = some f → fileOf base f ≠ some n) →
        afterSession base files [a.doing A', b.behind base files (a.doing A') B'] n = afterSession base files [a, b] n) := by
  have hAok : ((a.doing A').run base files).1 = .ok () ↔ (a.run base files).1 = .ok () :=
    (C99_print (printsFor_sys (s := a) (files := files) hA) a.outside).1
  have key := fun hok : (a.run base files).1 = .ok () =>
    let h1 := first_leaves (files := files) hA ha hok
    C99_feed_merge (readsFor_sys (s := b) (files := a.after base files) hB) hm h1.1 h1.2.2 hn b.outside
  refine ⟨⟨fun ⟨h1, h2⟩ => ⟨hAok.2 h1, (key h1).1.2 h2⟩, fun ⟨h1, h2⟩ => ⟨hAok.1 h1, (key (hAok.1 h1)).1.1 h2⟩⟩, fun h1 h2 => ?_⟩
  obtain ⟨g1, g2, g3⟩ := first_leaves (files := files) hA ha h1
  have hlog : SameButSources (b.sys base (a.after base files)) b.cmd (b.run base (a.after base files)).2.log
        ((b.behind base files (a.doing A') B').run base ((a.doing A').after base files)).2.log := (key h1).2 h2
  refine ⟨?_, fun n hn hu => ?_⟩
  · obtain ⟨args, k1, u, u', j, k2, k3, k4⟩ := hlog
    refine ⟨args, k1, u, u', j, k2, k3.trans ?_, k4.trans ?_⟩ <;>
    · unfold wholeWrites
      rw [show mergePlan (b.sys base (a.after base files)) = mergePlan base from rfl]
      apply List.flatMap_congr
      intro e _
      unfold wholeWrite
      rw [fileOf_sys]
  · show (b.behind base files (a.doing A') B').after base ((a.doing A').after base files) n = b.after base (a.after base files) n
    unfold Step.after
    rw [show (b.behind base files (a.doing A') B').killed = b.killed from rfl, hb]
    simp only
    refine (sameButSources_contents hlog (fun f hf => ?_) (g3 n hn).symm).symm
    rw [fileOf_sys]
    exact hu f hf

/-! ### What goes wrong -/

theorem onScreen_prefix {a b : List Eff} (h : a <+: b) : onScreen a <+: onScreen b := by
  obtain ⟨t, rfl⟩ := h
  rw [onScreen_append]
  exact List.prefix_append _ _

/-- **C99, a pipeline that is cut short.** Whatever fails in a run, and whenever it is stopped: what it has printed is a first part of what it prints
otherwise. So a run behind it in a pipeline gets a first part, and nothing tells it so. -/
theorem C99_first_part (base : Sys) (files : Nat → Option Bytes) (s : Step) :
    s.prints base files <+: ({ s with fault := fun _ => none, killed := none } : Step).prints base files := by
  have h : (s.run base files).2.log <+: (({ s with fault := fun _ => none, killed := none } : Step).run base files).2.log :=
    (C90_cut (s.sys base files) s.outside s.cmd).1
  unfold Step.prints
  apply onScreen_prefix
  cases s.killed with
  | none => exact h
  | some k => exact (List.take_prefix _ _).trans h

theorem decode_nil : decodeUtf8 [] = some [] := decode_encode []

theorem stdin_empty {sys : Sys} (h : NothingArrives sys) (w : World) : ∃ L, TransactionPostings.fromLedger L = some [] ∧
    Files.readLedgerFile sys .stdio w = (.ok L, { w with ops := w.ops + 1, stdinRead := true }) := by
  obtain ⟨L, h1, h2⟩ := h.parse
  refine ⟨L, h2, ?_⟩
  unfold Files.readLedgerFile
  rw [bind_run]
  unfold Files.readFile
  simp only [h.fault, h.stdin, ite_self, decode_nil]
  show Prog.ofOption .parse (sys.parse []) _ = _
  rw [h1]
  rfl

/-- **C99, nothing arrives: `apply-rules`.** If the first run of a pipeline fails before it prints, then `apply-rules` behind it succeeds, and leaves a
journal without transactions in its output. -/
theorem C99_journal_emptied {sys : Sys} (h : NothingArrives sys) (o : Outside) (rules : (Nat → Option Bytes) → Option Rules.Table) (output : FileSpec)
    {T : Rules.Table} (hT : rules sys.start = some T) :
    ((SubCommand.applyRules rules .stdio output).run sys o World.start).1 = .ok () ∧
    ((SubCommand.applyRules rules .stdio output).run sys o World.start).2.log = wholeWrite sys output (sys.render ⟨[]⟩) := by
  obtain ⟨L, h1, h2⟩ := stdin_empty h World.start
  rw [applyRules_last]
  have hq : beforeOutput sys o (.applyRules rules .stdio output) World.start =
      (.ok (sys.render (TransactionPostings.intoLedger (o.orders 0) [])), { World.start with ops := World.start.ops + 1, stdinRead := true }) := by
    simp only [beforeOutput, hT]
    show (Files.readLedgerFile sys .stdio >>= _) World.start = _
    rw [bind_run, h2]
    simp only
    rw [h1]
    rfl
  rw [bind_run, hq]
  simp only
  have h3 := writeFile_sat sys output (sys.render (TransactionPostings.intoLedger (o.orders 0) [])) { World.start with ops := World.start.ops + 1, stdinRead := true }
  revert h3
  unfold Sat
  rcases Files.writeFile sys output _ _ with ⟨e | ⟨⟩, w⟩ <;> intro h3
  · exact absurd h.fault h3.2
  · exact ⟨rfl, h3.1⟩

/-- Both did the same to files. -/
def SameLog (w w' : World) : Prop := w.log = w'.log

theorem readLedgerFile_sameLog {sys : Sys} (h : NothingArrives sys) (f : FileSpec) :
    Lockstep SameLog SameLog Eq (Files.readLedgerFile sys f) (Files.readLedgerFile sys f) := by
  refine Lockstep.readLedgerFile rfl ?_
  intro w w' hw
  cases f with
  | stdio =>
    simp only [Files.readBytes, h.fault, h.stdin, ite_self]
    exact ⟨trivial, hw⟩
  | path q =>
    have hw' : w.log = w'.log := hw
    simp only [Files.readBytes, h.fault, hw']
    cases contentsAfter sys.start w'.log (sys.file q) with
    | none => trivial
    | some c => exact ⟨rfl, rfl⟩

theorem readInputs_sameLog {sys : Sys} (h : NothingArrives sys) (ho : Nat → HashOrder) (fs : List FileSpec) (acc : MergeCmd.Acc) :
    Lockstep SameLog SameLog Eq (MergeCmd.readInputs sys ho fs acc) (MergeCmd.readInputs sys ho fs acc) := by
  induction fs generalizing acc with
  | nil => exact .pure rfl
  | cons f fs ih =>
    unfold MergeCmd.readInputs Sources.readLedgerFile
    simp only [bind_assoc']
    refine (readLedgerFile_sameLog h f).bind fun L L' hL => ?_
    subst hL
    refine (Lockstep.ofOption _ _).bind fun ts ts' hts => ?_
    subst hts
    simp only [pure_bind']
    cases MergeCmd.mergeGroups ho (Sources.groups (ho acc.calls) (f.display sys) ts) acc with
    | error e => exact .fail _ _
    | ok acc => exact ih acc

theorem groups_nil (h : HashOrder) (d : Str) : Sources.groups h d [] = [] := by
  rw [groups_none (fun _ x => (List.not_mem_nil x).elim), if_pos rfl]

theorem readInputs_nothing {sys : Sys} (h : NothingArrives sys) (ho : Nat → HashOrder) (before behind : List FileSpec) (acc : MergeCmd.Acc) :
    Lockstep SameLog SameLog Eq (MergeCmd.readInputs sys ho (before ++ .stdio :: behind) acc) (MergeCmd.readInputs sys ho (before ++ behind) acc) := by
  induction before generalizing acc with
  | nil =>
    intro w w' hw
    obtain ⟨L, h1, h2⟩ := stdin_empty h w
    have h3 := readInputs_sameLog h ho behind acc { w with ops := w.ops + 1, stdinRead := true } w' hw
    have h4 : MergeCmd.readInputs sys ho (.stdio :: behind) acc w = MergeCmd.readInputs sys ho behind acc { w with ops := w.ops + 1, stdinRead := true } := by
      conv_lhs => unfold MergeCmd.readInputs Sources.readLedgerFile
      simp only [bind_assoc']
      rw [bind_run, h2]
      simp only
      have h5 : ∀ e, (Prog.ofOption e (TransactionPostings.fromLedger L) : Prog (List TransactionPostings)) = Pure.pure [] := fun _ => by rw [h1]; rfl
      simp only [h5, pure_bind', groups_nil]
      rfl
    simp only [List.nil_append, h4]
    exact h3
  | cons f before ih =>
    show Lockstep _ _ _ (MergeCmd.readInputs sys ho (f :: (before ++ .stdio :: behind)) acc) (MergeCmd.readInputs sys ho (f :: (before ++ behind)) acc)
    unfold MergeCmd.readInputs Sources.readLedgerFile
    simp only [bind_assoc']
    refine (readLedgerFile_sameLog h f).bind fun L L' hL => ?_
    subst hL
    refine (Lockstep.ofOption _ _).bind fun ts ts' hts => ?_
    subst hts
    simp only [pure_bind']
    cases MergeCmd.mergeGroups ho (Sources.groups (ho acc.calls) (f.display sys) ts) acc with
    | error e => exact .fail _ _
    | ok acc => exact ih acc

theorem writeFile_sameLog {sys : Sys} (h : NothingArrives sys) (f : FileSpec) (text : Str) :
    Lockstep SameLog SameLog Eq (Files.writeFile sys f text) (Files.writeFile sys f text) := by
  intro w w' hw
  have hw' : w.log = w'.log := hw
  unfold Files.writeFile
  simp only [h.fault, hw']
  cases f <;> exact ⟨trivial, rfl⟩

/-- **C99, nothing arrives: `merge`.** If the first run of a pipeline fails before it prints, then `merge` behind it does what it does without that
input, and succeeds in the same cases. -/
theorem C99_nothing_merged {sys : Sys} (h : NothingArrives sys) (o : Outside) (before behind : List FileSpec) (unmerged : Option FileSpec) (output : FileSpec) :
    (((SubCommand.merge ⟨before ++ .stdio :: behind, unmerged, output⟩).run sys o World.start).1 = .ok () ↔
      ((SubCommand.merge ⟨before ++ behind, unmerged, output⟩).run sys o World.start).1 = .ok ()) ∧
    (((SubCommand.merge ⟨before ++ behind, unmerged, output⟩).run sys o World.start).1 = .ok () →
      ((SubCommand.merge ⟨before ++ .stdio :: behind, unmerged, output⟩).run sys o World.start).2.log =
        ((SubCommand.merge ⟨before ++ behind, unmerged, output⟩).run sys o World.start).2.log) := by
  have key : Lockstep SameLog SameLog Eq ((SubCommand.merge ⟨before ++ .stdio :: behind, unmerged, output⟩).run sys o)
      ((SubCommand.merge ⟨before ++ behind, unmerged, output⟩).run sys o) := by
    show Lockstep _ _ _ (MergeCmd.run sys _ _) (MergeCmd.run sys _ _)
    unfold MergeCmd.run
    refine (readInputs_nothing h o.orders before behind _).bind fun acc acc' hacc => ?_
    subst hacc
    refine Lockstep.bind (S' := SameLog) (Rel := Eq) ?_ fun _ _ _ => ?_
    · unfold MergeCmd.writeUnmerged
      split
      · exact .pure rfl
      · cases unmerged with
        | none => exact .fail _ _
        | some f => exact writeFile_sameLog h _ _
    · cases acc.merger.build (o.orders acc.calls) with
      | error e => exact .fail _ _
      | ok ts => exact writeFile_sameLog h _ _
  obtain ⟨h1, h2⟩ := lockstep_ok key (w := World.start) (w' := World.start) rfl
  exact ⟨h1.symm, fun hok => h2 (h1.1 hok)⟩

/-- **C99, nothing arrives.** When that happens: a command that prints and fails, but not because of printing, has printed nothing. -/
theorem C99_nothing_printed (hA : PrintsFor base p a.cmd A') {e : CmdErr} (he : e ≠ .write) (hr : ((a.doing A').run base files).1 = .error e) :
    (a.doing A').prints base files = [] := by
  have h : onScreen ((a.doing A').run base files).2.log = [] := print_fails (printsFor_sys (s := a) (files := files) hA) a.outside he hr
  unfold Step.prints
  cases (a.doing A').killed with
  | none => exact h
  | some k =>
    have := onScreen_prefix (List.take_prefix k ((a.doing A').run base files).2.log)
    rw [h] at this
    exact List.prefix_nil.1 this

/-! ### Cases -/

/-- The statement of `Ex.csvSystem` is imported to the file `p`. -/
def pipeFirst : Step := ⟨.importFrom Ex.csvSource ⟨.path "p".toList, false, false⟩, ⟨fun _ => .sorted, id, 2, Ex.plainLib, fun _ => true⟩, [], fun _ => none,
  fun _ => [], none⟩

/-- Rules are applied to the file `p`, and the output is the file `b`. -/
def pipeSecond : Step := ⟨.applyRules (fun _ => some Ex.pipeRules) (.path "p".toList) (.path "b".toList),
  ⟨fun _ => .sorted, id, 2, Ex.plainLib, fun _ => true⟩, [], fun _ => none, fun _ => [], none⟩

/-- The import, printing. -/
def pipePrints : SubCommand := .importFrom Ex.csvSource ⟨.stdio, false, false⟩

/-- The rules, applied to standard input. -/
def pipeReads : SubCommand := .applyRules (fun _ => some Ex.pipeRules) .stdio (.path "b".toList)

set_option maxRecDepth 100000 in
/-- A case for `C99_print`, `C99_feed` and `C99_pipe`: a statement with three transactions is imported, and the rules change one of them. With the
pipe, the file `b` is the same in the end, and there is no file `p`. -/
example : PrintsFor Ex.csvSystem "p".toList pipeFirst.cmd pipePrints ∧ ReadsFor Ex.csvSystem "p".toList pipeSecond.cmd pipeReads ∧
    ¬ IsMerge pipeSecond.cmd ∧ RulesApart pipeSecond.cmd (Ex.csvSystem.file "p".toList) ∧
    (pipeFirst.run Ex.csvSystem Ex.csvSystem.start).1 = .ok () ∧
    (pipeSecond.run Ex.csvSystem (pipeFirst.after Ex.csvSystem Ex.csvSystem.start)).1 = .ok () ∧
    (∀ f, Target pipeReads f → fileOf Ex.csvSystem f ≠ some (Ex.csvSystem.file "p".toList)) ∧
    afterSession Ex.csvSystem Ex.csvSystem.start [pipeFirst, pipeSecond] 112 = some (encodeUtf8 "raw".toList) ∧
    afterSession Ex.csvSystem Ex.csvSystem.start [pipeFirst, pipeSecond] 98 = some (encodeUtf8 "ruled".toList) ∧
    (pipeFirst.doing pipePrints).prints Ex.csvSystem Ex.csvSystem.start = encodeUtf8 "raw".toList ∧
    afterSession Ex.csvSystem Ex.csvSystem.start
      [pipeFirst.doing pipePrints, pipeSecond.behind Ex.csvSystem Ex.csvSystem.start (pipeFirst.doing pipePrints) pipeReads] 98 =
        some (encodeUtf8 "ruled".toList) := by
  refine ⟨.importFrom _, .applyRules _ _, id, fun _ _ _ => rfl, ?_, ?_, ?_, ?_, ?_, ?_, ?_⟩
  · decide +kernel
  · decide +kernel
  · intro f hf
    cases hf
    decide +kernel
  · decide +kernel
  · decide +kernel
  · decide +kernel
  · decide +kernel

/-- The file `a` is `bt`: two transactions. -/
def twoInFirst : Nat → Option Bytes := (Ex.system "bt" "t" fun _ => none).start

/-- The file `a` is merged into the file `p`. -/
def onlyFirst : MergeCmd.Args := ⟨[Ex.file "a"], none, Ex.file "p"⟩

/-- The file `a` is merged, and the journal is printed. -/
def onlyFirstPrinted : MergeCmd.Args := ⟨[Ex.file "a"], none, .stdio⟩

/-- Rules that do nothing. -/
def noRules : Rules.Table := Std.ExtTreeMap.ofList [("start".toList, [])] compare

/-- Rules that do nothing are applied to the file `p`. -/
def ruleStep : Step := ⟨.applyRules (fun _ => some noRules) (Ex.file "p") (Ex.file "o"),
  ⟨fun _ => .sorted, id, 100, Ex.lib, fun _ => true⟩, [], fun _ => none, fun _ => [], none⟩

/-- The same for standard input. -/
def ruleFed : SubCommand := .applyRules (fun _ => some noRules) .stdio (Ex.file "o")

set_option maxRecDepth 100000 in
/-- **C99, a pipeline that is cut short, a case.** The journal that `merge` prints has two transactions; if `merge` is stopped when it has printed
one of them, then `apply-rules` behind it succeeds, and leaves one transaction in its output. -/
theorem C99_cut_short : ∃ (base : Sys) (files : Nat → Option Bytes) (p : Str) (a b : Step) (A' B' : SubCommand),
    PrintsFor base p a.cmd A' ∧ ReadsFor base p b.cmd B' ∧ a.killed = none ∧ b.killed = none ∧
    afterSession base files [a, b] 111 = some (encodeUtf8 "tc".toList) ∧
    afterSession base files [a.doing A', b.behind base files (a.doing A') B'] 111 = some (encodeUtf8 "tc".toList) ∧
    (({ b with stdin := ({ a.doing A' with killed := some 1 } : Step).prints base files, cmd := B' } : Step).run base files).1 = .ok () ∧
    ({ b with stdin := ({ a.doing A' with killed := some 1 } : Step).prints base files, cmd := B' } : Step).after base files 111 =
      some (encodeUtf8 "t".toList) := by
  have w1 : mergedText twoInFirst onlyFirst = some "cb".toList := by
    unfold mergedText Book.journal
    simp only [mergeInputs, onlyFirst, groups_eval, Ex.mergeSort_eval dateOf]
    decide +kernel
  have r1 : (mergeInputs (mergeSys twoInFirst) false onlyFirst.inputs).bind unmergedCount = some 0 := by
    simp only [mergeInputs, onlyFirst, groups_eval]; decide +kernel
  have a1 := fun killed => mergeStep_run rfl w1 r1 HashOrder.sorted killed
  have a2 := fun killed => mergeStep_run (args := onlyFirstPrinted) rfl w1 r1 HashOrder.sorted killed
  have f1 : (mergeStep onlyFirst .sorted (fun _ => none) none).after (Ex.system "ab" "c" fun _ => none) twoInFirst =
      contentsAfter twoInFirst (wholeWrite (Ex.system "ab" "c" fun _ => none) onlyFirst.output "cb".toList) := by
    show contentsAfter twoInFirst _ = _
    rw [(a1 none).2]
    rfl
  have f2 : (mergeStep onlyFirstPrinted .sorted (fun _ => none) none).after (Ex.system "ab" "c" fun _ => none) twoInFirst =
      contentsAfter twoInFirst (wholeWrite (Ex.system "ab" "c" fun _ => none) onlyFirstPrinted.output "cb".toList) := by
    show contentsAfter twoInFirst _ = _
    rw [(a2 none).2]
    rfl
  have p1 : (mergeStep onlyFirstPrinted .sorted (fun _ => none) none).prints (Ex.system "ab" "c" fun _ => none) twoInFirst =
      encodeUtf8 "cb".toList := by
    show onScreen _ = _
    rw [(a2 none).2]
    decide +kernel
  have p2 : (mergeStep onlyFirstPrinted .sorted (fun _ => none) (some 1)).prints (Ex.system "ab" "c" fun _ => none) twoInFirst =
      encodeUtf8 "c".toList := by
    show onScreen (List.take 1 _) = _
    rw [(a2 (some 1)).2]
    decide +kernel
  refine ⟨Ex.system "ab" "c" fun _ => none, twoInFirst, "p".toList, mergeStep onlyFirst .sorted (fun _ => none) none, ruleStep,
    .merge onlyFirstPrinted, ruleFed, .merge _ _ (fun f hf => by cases hf), .applyRules _ _, rfl, rfl, ?_, ?_, ?_, ?_⟩
  · show ruleStep.after _ ((mergeStep onlyFirst .sorted (fun _ => none) none).after (Ex.system "ab" "c" fun _ => none) twoInFirst) 111 = _
    rw [f1]
    decide +kernel
  · show ({ ruleStep with cmd := ruleFed, stdin := (mergeStep onlyFirstPrinted .sorted (fun _ => none) none).prints _ _ } : Step).after _
      ((mergeStep onlyFirstPrinted .sorted (fun _ => none) none).after (Ex.system "ab" "c" fun _ => none) twoInFirst) 111 = _
    rw [f2, p1]
    decide +kernel
  · show (({ ruleStep with cmd := ruleFed, stdin := (mergeStep onlyFirstPrinted .sorted (fun _ => none) (some 1)).prints _ _ } : Step).run _ _).1 = _
    rw [p2]
    decide +kernel
  · show ({ ruleStep with cmd := ruleFed, stdin := (mergeStep onlyFirstPrinted .sorted (fun _ => none) (some 1)).prints _ _ } : Step).after _ _ 111 = _
    rw [p2]
    decide +kernel

/-- The file `b` and the file `p` are merged. -/
def withPiped : MergeCmd.Args := ⟨[Ex.file "b", Ex.file "p"], none, Ex.file "o"⟩

/-- The file `b` and standard input are merged. -/
def withStdin : MergeCmd.Args := ⟨[Ex.file "b", .stdio], none, Ex.file "o"⟩

set_option maxRecDepth 100000 in
/-- A case for `C99_feed_merge` and `C99_pipe_merge`: the journal of the file `a` is merged with the file `b`; no notes of sources go through the
pipe. -/
example : PrintsFor (Ex.system "ab" "c" fun _ => none) "p".toList (.merge onlyFirst) (.merge onlyFirstPrinted) ∧
    ReadsFor (Ex.system "ab" "c" fun _ => none) "p".toList (.merge withPiped) (.merge withStdin) ∧ IsMerge (.merge withPiped) ∧
    (∀ ts, contentOf (Ex.system "ab" "c" fun _ => none)
      ((mergeStep onlyFirst .sorted (fun _ => none) none).after (Ex.system "ab" "c" fun _ => none) twoInFirst) "p".toList = some ts → NoSources ts) ∧
    ((mergeStep onlyFirst .sorted (fun _ => none) none).run (Ex.system "ab" "c" fun _ => none) twoInFirst).1 = .ok () ∧
    ((mergeStep withPiped .sorted (fun _ => none) none).run (Ex.system "ab" "c" fun _ => none)
      ((mergeStep onlyFirst .sorted (fun _ => none) none).after (Ex.system "ab" "c" fun _ => none) twoInFirst)).1 = .ok () ∧
    afterSession (Ex.system "ab" "c" fun _ => none) twoInFirst
      [mergeStep onlyFirst .sorted (fun _ => none) none, mergeStep withPiped .sorted (fun _ => none) none] 111 = some (encodeUtf8 "ctb".toList) := by
  have w1 : mergedText twoInFirst onlyFirst = some "cb".toList := by
    unfold mergedText Book.journal
    simp only [mergeInputs, onlyFirst, groups_eval, Ex.mergeSort_eval dateOf]
    decide +kernel
  have r1 : (mergeInputs (mergeSys twoInFirst) false onlyFirst.inputs).bind unmergedCount = some 0 := by
    simp only [mergeInputs, onlyFirst, groups_eval]; decide +kernel
  have a1 := fun killed => mergeStep_run rfl w1 r1 HashOrder.sorted killed
  have f1 : (mergeStep onlyFirst .sorted (fun _ => none) none).after (Ex.system "ab" "c" fun _ => none) twoInFirst =
      contentsAfter twoInFirst (wholeWrite (Ex.system "ab" "c" fun _ => none) onlyFirst.output "cb".toList) := by
    show contentsAfter twoInFirst _ = _
    rw [(a1 none).2]
    rfl
  have w2 : mergedText (contentsAfter twoInFirst (wholeWrite (Ex.system "ab" "c" fun _ => none) onlyFirst.output "cb".toList)) withPiped =
      some "ctb".toList := by
    unfold mergedText Book.journal
    simp only [mergeInputs, withPiped, groups_eval, Ex.mergeSort_eval dateOf]
    decide +kernel
  have r2 : (mergeInputs (mergeSys (contentsAfter twoInFirst (wholeWrite (Ex.system "ab" "c" fun _ => none) onlyFirst.output "cb".toList))) false
      withPiped.inputs).bind unmergedCount = some 0 := by
    simp only [mergeInputs, withPiped, groups_eval]; decide +kernel
  have a2 := mergeStep_run rfl w2 r2 HashOrder.sorted none
  refine ⟨.merge _ _ (fun f hf => by cases hf), .merge [_] [] _ _ (fun f hf => ?_), trivial, ?_, (a1 none).1, ?_, ?_⟩
  · simp only [List.append_nil, List.mem_singleton] at hf
    subst hf
    exact ⟨98, by decide +kernel, by decide +kernel⟩
  · rw [f1]
    have : contentOf (Ex.system "ab" "c" fun _ => none)
        (contentsAfter twoInFirst (wholeWrite (Ex.system "ab" "c" fun _ => none) onlyFirst.output "cb".toList)) "p".toList =
        ("cb".toList.mapM Ex.letterTrn) := by decide +kernel
    intro ts h
    rw [this] at h
    have h2 : ("cb".toList.mapM Ex.letterTrn).all (fun l => l.all fun t => decide (srcKey ∉ t.trn.comment.valueTags)) = true := by decide +kernel
    rw [h] at h2
    intro t ht
    exact of_decide_eq_true (List.all_eq_true.1 h2 t ht)
  · rw [f1]; exact a2.1
  · show (mergeStep withPiped .sorted (fun _ => none) none).after _
      ((mergeStep onlyFirst .sorted (fun _ => none) none).after (Ex.system "ab" "c" fun _ => none) twoInFirst) 111 = _
    rw [f1]
    show contentsAfter _ _ 111 = _
    rw [a2.2]
    show contentsAfter _ (wholeWrite _ _ _) 111 = _
    rw [contentsAfter_whole, if_pos (show fileOf (Ex.system "ab" "c" fun _ => none) withPiped.output = some 111 from rfl)]

/-- A case for `C99_filter`: the file `a` has two transactions. -/
example : FiltersFor "a".toList (.format [.path "a".toList]) (.format [.stdio]) ∧
    (Ex.system "bt" "t" fun _ => none).start ((Ex.system "bt" "t" fun _ => none).file "a".toList) = some (encodeUtf8 "bt".toList) :=
  ⟨.format, by decide +kernel⟩

/-- A case for the theorems about a pipe through which nothing comes: a text without letters has no transactions. -/
example : NothingArrives (mergeSys twoInFirst) := ⟨rfl, ⟨⟨[]⟩, rfl, by decide +kernel⟩, fun _ => rfl⟩

end Verif
