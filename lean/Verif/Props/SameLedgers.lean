import Verif.Spec.SameLedgers
import Verif.Props.RewriteAgain
import Verif.Proofs.Cut
import Verif.Props.ImportFiles

/-!
# C113: of a file, only the ledger in it matters
-/

namespace Verif
open Spec Spec.Book

/-- A file was created by what was done, or left alone by it. -/
def Whole (log : List Eff) : Prop := ∀ n, Eff.create n ∈ log ∨ ∀ e ∈ log, e.file ≠ some n

/-- Both programs do the same, and either both succeed with the same result or both fail. -/
def InStep {α : Type} (p p' : Prog α) : Prop :=
  ∀ w, Whole w.log → (∀ a, (p w).1 = .ok a ↔ (p' w).1 = .ok a) ∧ (p w).2 = (p' w).2 ∧ Whole (p w).2.log

theorem InStep.pure {α : Type} (a : α) : InStep (Pure.pure a : Prog α) (Pure.pure a) := fun _ h => ⟨fun _ => Iff.rfl, rfl, h⟩

theorem InStep.fail {α : Type} (e e' : CmdErr) : InStep (Prog.fail e : Prog α) (Prog.fail e') :=
  fun _ h => ⟨fun _ => ⟨fun h => (by cases h), fun h => (by cases h)⟩, rfl, h⟩

theorem InStep.ofOption {α : Type} (e : CmdErr) (x : Option α) : InStep (Prog.ofOption e x) (Prog.ofOption e x) := by
  cases x with
  | none => exact .fail _ _
  | some a => exact .pure a

theorem InStep.bind {α β : Type} {p p' : Prog α} {f f' : α → Prog β} (h : InStep p p') (hf : ∀ a, InStep (f a) (f' a)) :
    InStep (p >>= f) (p' >>= f') := by
  intro w hw
  obtain ⟨h1, h2, h3⟩ := h w hw
  show (∀ a, (Prog.bind p f w).1 = .ok a ↔ (Prog.bind p' f' w).1 = .ok a) ∧ (Prog.bind p f w).2 = (Prog.bind p' f' w).2 ∧ Whole (Prog.bind p f w).2.log
  unfold Prog.bind
  rcases e : p w with ⟨x | a, v⟩ <;> rcases e' : p' w with ⟨x' | a', v'⟩ <;> rw [e] at h1 h2 h3 <;> rw [e'] at h1 h2 <;> dsimp only at h1 h2 h3 ⊢
  · exact ⟨fun _ => ⟨fun h => (by cases h), fun h => (by cases h)⟩, h2, h3⟩
  · exact absurd ((h1 a').2 rfl) (by intro h; cases h)
  · exact absurd ((h1 a).1 rfl) (by intro h; cases h)
  · have e := (h1 a).1 rfl
    cases e
    subst h2
    exact hf a v h3

theorem Whole.append {log es : List Eff} (h : Whole log) (k : Whole es) : Whole (log ++ es) := by
  intro n
  rcases h n with h | h
  · exact .inl (by simp [h])
  · rcases k n with k | k
    · exact .inl (by simp [k])
    · right
      intro e he
      rcases List.mem_append.1 he with he | he
      · exact h e he
      · exact k e he

theorem whole_print (bs : Bytes) : Whole (bs.map .print) := by
  intro n
  right
  intro e he
  obtain ⟨b, _, rfl⟩ := List.mem_map.1 he
  intro h; cases h

theorem whole_write (m : Nat) (bs : Bytes) : Whole (.create m :: bs.map (.write m)) := by
  intro n
  by_cases hm : m = n
  · subst hm; exact .inl (by simp)
  · right
    intro e he
    rcases List.mem_cons.1 he with rfl | he
    · intro h; exact hm (Option.some.inj h)
    · obtain ⟨b, _, rfl⟩ := List.mem_map.1 he
      intro h; exact hm (Option.some.inj h)

theorem writeFile_inStep (sys : Sys) (F : Nat → Option Bytes) (f : FileSpec) (text : Str) :
    InStep (Files.writeFile sys f text) (Files.writeFile (onFiles sys F) f text) := by
  intro w hw
  refine ⟨fun _ => Iff.rfl, rfl, ?_⟩
  unfold Files.writeFile
  cases f with
  | stdio =>
    cases sys.fault w.ops with
    | none => exact hw.append (whole_print _)
    | some k => exact hw.append (whole_print _)
  | path q =>
    rcases sys.fault w.ops with _ | _ | k
    · exact hw.append (whole_write _ _)
    · exact hw
    · exact hw.append (whole_write _ _)

section
variable {sys : Sys} {F : Nat → Option Bytes}

/-- Reading a ledger from a file gives the same ledger. -/
theorem readLedger_inStep {f : FileSpec} (hF : HoldsSame sys F f) : InStep (Files.readLedgerFile sys f) (Files.readLedgerFile (onFiles sys F) f) := by
  cases f with
  | stdio =>
    intro w hw
    refine ⟨fun _ => Iff.rfl, rfl, ?_⟩
    unfold Files.readLedgerFile
    show Whole (Prog.bind _ _ w).2.log
    unfold Prog.bind Files.readFile
    dsimp only
    cases hf : sys.fault w.ops with
    | some k => exact hw
    | none =>
      dsimp only
      cases decodeUtf8 (if w.stdinRead then [] else sys.stdin) with
      | none => exact hw
      | some s => dsimp only [Prog.ofOption, Prog.pure]; cases sys.parse s <;> exact hw
  | path q =>
    intro w hw
    have hsame : ledgerIn sys.parse (contentsAfter sys.start w.log (sys.file q)) = ledgerIn sys.parse (contentsAfter F w.log (sys.file q)) := by
      rcases hw (sys.file q) with h | h
      · rw [contentsAfter_created (start' := F) h]
      · rw [contentsAfter_other _ _ _ h, contentsAfter_other _ _ _ h]; exact hF _ rfl
    have key : ∀ (G : Nat → Option Bytes), (∀ L, (Files.readLedgerFile (onFiles sys G) (.path q) w).1 = .ok L ↔
        sys.fault w.ops = none ∧ ledgerIn sys.parse (contentsAfter G w.log (sys.file q)) = some L) ∧
        (Files.readLedgerFile (onFiles sys G) (.path q) w).2 = { w with ops := w.ops + 1 } := by
      intro G
      unfold Files.readLedgerFile
      show (∀ L, (Prog.bind _ _ w).1 = .ok L ↔ _) ∧ (Prog.bind _ _ w).2 = _
      unfold Prog.bind Files.readFile ledgerIn
      dsimp only [onFiles]
      rcases contentsAfter G w.log (sys.file q) with _ | b
      · refine ⟨fun L => ⟨fun h => (by cases h), fun h => (by cases h.2)⟩, rfl⟩
      · rcases sys.fault w.ops with _ | _ | k
        · dsimp only [Option.bind_some]
          rcases decodeUtf8 b with _ | s
          · refine ⟨fun L => ⟨fun h => (by cases h), fun h => (by cases h.2)⟩, rfl⟩
          · dsimp only [Prog.ofOption, Prog.pure, Option.bind_some]
            rcases sys.parse s with _ | L'
            · refine ⟨fun L => ⟨fun h => (by cases h), fun h => (by cases h.2)⟩, rfl⟩
            · refine ⟨fun L => ⟨fun h => ?_, fun h => ?_⟩, rfl⟩
              · cases h; exact ⟨rfl, rfl⟩
              · cases h.2; rfl
        · refine ⟨fun L => ⟨fun h => (by cases h), fun h => (by cases h.1)⟩, rfl⟩
        · refine ⟨fun L => ⟨fun h => (by cases h), fun h => (by cases h.1)⟩, rfl⟩
    have k := key sys.start
    rw [show onFiles sys sys.start = sys from rfl] at k
    have k' := key F
    refine ⟨fun L => ?_, by rw [k.2, k'.2], by rw [k.2]; exact hw⟩
    rw [k.1, k'.1, hsame]

theorem fmt_inStep {fs : List FileSpec} (hF : ∀ f ∈ fs, HoldsSame sys F f) : InStep (fmtRun sys fs) (fmtRun (onFiles sys F) fs) := by
  induction fs with
  | nil => exact .pure _
  | cons f fs ih =>
    unfold fmtRun
    exact (readLedger_inStep (hF f (by simp))).bind fun L => (writeFile_inStep sys F f _).bind fun _ => ih fun g hg => hF g (by simp [hg])

theorem fpGen_inStep (h : HashOrder) {fs : List FileSpec} (hF : ∀ f ∈ fs, HoldsSame sys F f) : InStep (FpGen.run sys h fs) (FpGen.run (onFiles sys F) h fs) := by
  induction fs with
  | nil => exact .pure _
  | cons f fs ih =>
    unfold FpGen.run
    refine (readLedger_inStep (hF f (by simp))).bind fun L => (InStep.ofOption _ _).bind fun ts => InStep.bind ?_ fun us =>
      (writeFile_inStep sys F f _).bind fun _ => ih fun g hg => hF g (by simp [hg])
    intro w hw
    exact ⟨fun _ => Iff.rfl, rfl, hw⟩

theorem inputs_inStep (ho : Nat → HashOrder) {fs : List FileSpec} (hF : ∀ f ∈ fs, HoldsSame sys F f) (a : MergeCmd.Acc) :
    InStep (MergeCmd.readInputs sys ho fs a) (MergeCmd.readInputs (onFiles sys F) ho fs a) := by
  induction fs generalizing a with
  | nil => exact .pure _
  | cons f fs ih =>
    unfold MergeCmd.readInputs
    refine InStep.bind ?_ fun gs => ?_
    · unfold Sources.readLedgerFile
      refine (readLedger_inStep (hF f (by simp))).bind fun L => (InStep.ofOption _ _).bind fun ts => ?_
      have : f.display (onFiles sys F) = f.display sys := by cases f <;> rfl
      rw [this]
      exact .pure _
    · cases MergeCmd.mergeGroups ho gs a with
      | error e => exact .fail _ _
      | ok c => exact ih (fun g hg => hF g (by simp [hg])) c

theorem merge_inStep (ho : Nat → HashOrder) {args : MergeCmd.Args} (hF : ∀ f ∈ args.inputs, HoldsSame sys F f) : InStep (MergeCmd.run sys ho args) (MergeCmd.run (onFiles sys F) ho args) := by
  unfold MergeCmd.run
  refine (inputs_inStep ho hF _).bind fun a => InStep.bind ?_ fun _ => ?_
  · unfold MergeCmd.writeUnmerged
    split
    · exact .pure _
    · cases args.unmerged with
      | none => exact .fail _ _
      | some f => exact writeFile_inStep sys F f _
  · cases a.merger.build (ho a.calls) with
    | error e => exact .fail _ _
    | ok ts => exact writeFile_inStep sys F _ _

theorem run_inStep (o : Outside) {cmd : SubCommand} (hF : ∀ f, Reads cmd f → HoldsSame sys F f) (hi : ¬ IsImport cmd) (hr : rulesFor F cmd = rulesFor sys.start cmd) :
    InStep (cmd.run sys o) (cmd.run (onFiles sys F) o) := by
  cases cmd with
  | applyRules rules input output =>
    have hr : rules F = rules sys.start := hr
    show InStep (Rules.applyRules sys _ _ _ (rules sys.start) _ _) (Rules.applyRules (onFiles sys F) _ _ _ (rules F) _ _)
    unfold Rules.applyRules
    rw [hr]
    refine (InStep.ofOption _ _).bind fun T => (readLedger_inStep (hF input rfl)).bind fun L => (InStep.ofOption _ _).bind fun ts => ?_
    cases T.updateTransactions o.lower o.fuel ts with
    | error e => exact .fail _ _
    | ok us => exact writeFile_inStep sys F output _
  | format fs => exact fmt_inStep hF
  | generateFingerprints fs => exact fpGen_inStep _ hF
  | importFrom s a => exact absurd trivial hi
  | merge args => exact merge_inStep _ hF

/-- C113: `fmt`, `generate-fingerprints`, `apply-rules` and `merge` do the same, byte for byte, and succeed or fail alike, whether the
files that they read are written in one way or in another, as long as they hold the same ledgers, and whatever is in other files. That also
holds if the run fails half-way, and with every fault. (The rules have to be the same.) -/
theorem C113_reads (o : Outside) {cmd : SubCommand} (hF : ∀ f, Reads cmd f → HoldsSame sys F f) (hi : ¬ IsImport cmd)
    (hr : rulesFor F cmd = rulesFor sys.start cmd) :
    (cmd.run (onFiles sys F) o World.start).2 = (cmd.run sys o World.start).2 ∧
    ((cmd.run (onFiles sys F) o World.start).1 = .ok () ↔ (cmd.run sys o World.start).1 = .ok ()) := by
  obtain ⟨h1, h2, _⟩ := run_inStep o hF hi hr World.start (fun n => .inr fun e he => by cases he)
  exact ⟨h2.symm, (h1 ()).symm⟩

variable (hF : SameLedgers sys.parse sys.start F)
include hF

/-- C113: the same if all files hold the same ledgers. -/
theorem C113_run (o : Outside) {cmd : SubCommand} (hi : ¬ IsImport cmd) (hr : rulesFor F cmd = rulesFor sys.start cmd) :
    (cmd.run (onFiles sys F) o World.start).2 = (cmd.run sys o World.start).2 ∧
    ((cmd.run (onFiles sys F) o World.start).1 = .ok () ↔ (cmd.run sys o World.start).1 = .ok ()) :=
  C113_reads o (fun _ _ n _ => hF n) hi hr

/-- C113: and afterwards, whether the run succeeded or not, the files hold the same ledgers again, so that the same is true for the
commands that come next. -/
theorem C113_after (o : Outside) {cmd : SubCommand} (hi : ¬ IsImport cmd) (hr : rulesFor F cmd = rulesFor sys.start cmd) :
    SameLedgers sys.parse (contentsAfter sys.start (cmd.run sys o World.start).2.log)
      (contentsAfter F (cmd.run (onFiles sys F) o World.start).2.log) := by
  obtain ⟨_, h2, h3⟩ := run_inStep o (fun _ _ n _ => hF n) hi hr World.start (fun n => .inr fun e he => by cases he)
  intro n
  rw [← h2]
  rcases h3 n with h | h
  · rw [contentsAfter_created (start' := F) h]
  · rw [contentsAfter_other _ _ _ h, contentsAfter_other _ _ _ h]; exact hF n
end

theorem rewritten_sameLedgers {sys : Sys} (hp : ∀ s L, sys.parse s = some L → sys.parse (sys.render L) = some L) {again again' : Bool}
    {log log' : List Eff} {fs : List FileSpec} (h : Rewritten sys (fun L text => text = sys.render L) again log fs again' log') :
    SameLedgers sys.parse (contentsAfter sys.start log) (contentsAfter sys.start log') := by
  induction h with
  | nil => intro n; rfl
  | @cons again log f fs L text again' log' h1 h2 _ ih =>
    intro n
    rw [← ih n, contentsAfter_append, contentsAfter_whole]
    split
    · rename_i hn
      subst h2
      rw [ledgerAt_path hn] at h1
      unfold ledgerIn
      rw [h1, Option.bind_some, decode_encode, Option.bind_some]
      obtain ⟨s, _, hs⟩ := Option.bind_eq_some_iff.1 h1
      exact (hp s L hs).symm
    · rfl

/-- C113: after `fmt`, all files hold the ledgers that they held before, if a ledger that was read and printed is read as the same
ledger. -/
theorem C113_fmt_keeps (sys : Sys) (fs : List FileSpec) {w : World} (hp : ∀ s L, sys.parse s = some L → sys.parse (sys.render L) = some L)
    (h : fmtRun sys fs World.start = (.ok (), w)) : SameLedgers sys.parse sys.start (contentsAfter sys.start w.log) := by
  have k := C58_fmt sys fs
  rw [h] at k
  obtain ⟨a, k⟩ := k
  exact rewritten_sameLedgers hp k

/-- C113: `fmt` may be left out: the next command does the same, byte for byte, without it, and succeeds or fails alike. -/
theorem C113_fmt_first (sys : Sys) (fs : List FileSpec) {w : World} (hp : ∀ s L, sys.parse s = some L → sys.parse (sys.render L) = some L)
    (h : fmtRun sys fs World.start = (.ok (), w)) (stdin : Bytes) (fault : Nat → Option Nat) (random : Nat → Str) (o : Outside)
    {cmd : SubCommand} (hi : ¬ IsImport cmd) (hr : rulesFor (contentsAfter sys.start w.log) cmd = rulesFor sys.start cmd) :
    (cmd.run (sysAfter sys w.log stdin fault random) o World.start).2 =
      (cmd.run { sys with stdin := stdin, fault := fault, random := random } o World.start).2 ∧
    ((cmd.run (sysAfter sys w.log stdin fault random) o World.start).1 = .ok () ↔
      (cmd.run { sys with stdin := stdin, fault := fault, random := random } o World.start).1 = .ok ()) :=
  C113_run (sys := { sys with stdin := stdin, fault := fault, random := random }) (F := contentsAfter sys.start w.log)
    (C113_fmt_keeps sys fs hp h) o hi hr

/-- C113: what `import` does depends on nothing but the bytes of the statements (and the table of time zones) that it reads; with them
it does the same, and fails alike with the same error, whatever is in other files, such as the output. -/
theorem C113_import {sys : Sys} {F : Nat → Option Bytes} (o : Outside) {cmd : SubCommand} (hi : IsImport cmd)
    (hF : ∀ f n, Reads cmd f → fileOf sys f = some n → F n = sys.start n) : cmd.run (onFiles sys F) o = cmd.run sys o := by
  have hb : ∀ f, Reads cmd f → Files.readBytes (onFiles sys F) f = Files.readBytes sys f := by
    intro f hf
    cases f with
    | stdio => rfl
    | path q =>
      funext w
      unfold Files.readBytes
      dsimp only [onFiles]
      rw [contentsAfter_congr (hF (.path q) _ hf rfl)]
  have hr : ∀ f, Reads cmd f → Files.readFile (onFiles sys F) f = Files.readFile sys f := by
    intro f hf
    rw [readFile_eq, readFile_eq, hb f hf]
  have hrun : ∀ i a, ImportCmd.run (onFiles sys F) o.lib o.hasParent i a = ImportCmd.run sys o.lib o.hasParent i a := fun _ _ => rfl
  cases cmd with
  | importFrom source args =>
    show ImportCmd.runFiles _ _ _ _ _ = ImportCmd.runFiles _ _ _ _ _
    unfold ImportCmd.runFiles
    simp only [hrun]
    congr 1
    cases source with
    | nationwideCsv ns legacy input =>
      unfold ImportCmd.Source.importer
      simp only
      rw [hb input rfl]
    | nationwidePdf ns input programs =>
      funext w
      unfold ImportCmd.Source.importer
      dsimp only [onFiles]
      rw [contentsAfter_congr (hF (.path input) _ rfl rfl)]
    | paypalCsv ns legacy input tz =>
      unfold ImportCmd.Source.importer
      simp only
      rw [hr input (.inl rfl), hr tz (.inr rfl)]
  | _ => exact hi.elim

/-- The hypotheses of `C113_import` are met: there is something in the output already. -/
example (o : Outside) (b : Bytes) (ns : Nationwide.FpNamespace) :
    (SubCommand.importFrom (.nationwideCsv ns false (Ex.file "a")) ⟨Ex.file "o", false, false⟩).run
      (onFiles (Ex.system "x" "y" fun _ => none) (fun n => if n = 111 then some b else (Ex.system "x" "y" fun _ => none).start n)) o =
    (SubCommand.importFrom (.nationwideCsv ns false (Ex.file "a")) ⟨Ex.file "o", false, false⟩).run (Ex.system "x" "y" fun _ => none) o := by
  refine C113_import o trivial fun f n hf hn => ?_
  have e : fileOf (Ex.system "x" "y" fun _ => none) (Ex.file "a") = some 97 := by decide +kernel
  rw [show f = Ex.file "a" from hf, e] at hn
  obtain rfl := Option.some.inj hn
  rfl

/-! Example: the files `a` and `b` hold the same journal, written with spaces; `fmt` writes it without. -/

/-- A system with these files. Spaces do not matter to what a text stands for. -/
def exSpaced : Sys :=
  { Ex.system "J  " " J" (fun _ => none) with
    parse := fun s => if s.filter (· ≠ ' ') = ['J'] then Ex.parseLetters "ab".toList else none
    render := fun _ => ['J'] }

theorem exSpaced_reads (s : Str) (L : Ledger) (h : exSpaced.parse s = some L) : exSpaced.parse (exSpaced.render L) = some L := by
  have h : (if s.filter (· ≠ ' ') = ['J'] then Ex.parseLetters "ab".toList else none) = some L := h
  split at h
  · rw [← h]; rfl
  · cases h

/-- The arguments of a later `merge`. -/
def exLater : SubCommand := .merge ⟨[Ex.file "a", Ex.file "b"], none, Ex.file "o"⟩

/-- The hypotheses of `C113_fmt_first` are met, for a later `merge`. -/
example (o : Outside) (w : World) (fault : Nat → Option Nat) (h : fmtRun exSpaced [Ex.file "a", Ex.file "b"] World.start = (.ok (), w)) :
    (exLater.run (sysAfter exSpaced w.log [] fault (fun _ => [])) o World.start).2 =
      (exLater.run { exSpaced with stdin := [], fault := fault, random := fun _ => [] } o World.start).2 :=
  (C113_fmt_first exSpaced _ exSpaced_reads h [] fault (fun _ => []) o (cmd := exLater) id rfl).1

set_option maxRecDepth 100000 in
/-- `fmt` succeeds there and changes both files. -/
example : (fmtRun exSpaced [Ex.file "a", Ex.file "b"] World.start).1 = .ok () ∧
    contentsAfter exSpaced.start (fmtRun exSpaced [Ex.file "a", Ex.file "b"] World.start).2.log 97 = some [74] ∧
    exSpaced.start 97 = some [74, 32, 32] ∧ exSpaced.start 98 = some [32, 74] := by
  decide +kernel

/-- The same files without spaces. -/
def exUnspaced (n : Nat) : Option Bytes := if n = 97 ∨ n = 98 then some [74] else none

set_option maxRecDepth 100000 in
/-- The hypotheses of `C113_run` are met: files written in another way. -/
example (o : Outside) (cmd : SubCommand) (hi : ¬ IsImport cmd) (hr : rulesFor exUnspaced cmd = rulesFor exSpaced.start cmd) :
    (cmd.run (onFiles exSpaced exUnspaced) o World.start).2 = (cmd.run exSpaced o World.start).2 := by
  refine (C113_run ?_ o hi hr).1
  intro n
  by_cases h1 : n = 97
  · subst h1; decide +kernel
  · by_cases h2 : n = 98
    · subst h2; decide +kernel
    · have e1 : exSpaced.start n = none := by
        show (if n = 97 then _ else if n = 98 then _ else none) = none
        rw [if_neg h1, if_neg h2]
      have e2 : exUnspaced n = none := by unfold exUnspaced; rw [if_neg (by simp [h1, h2])]
      rw [e1, e2]

set_option maxRecDepth 100000 in
/-- The hypotheses of `C113_reads` are met: `a` is written in another way, and all other files hold something else. -/
example (o : Outside) : ((SubCommand.format [Ex.file "a"]).run (onFiles exSpaced fun n => if n = 97 then some [74] else some [75]) o World.start).2 =
    ((SubCommand.format [Ex.file "a"]).run exSpaced o World.start).2 := by
  refine (C113_reads (sys := exSpaced) (F := fun n => if n = 97 then some [74] else some [75]) (cmd := .format [Ex.file "a"]) o ?_ id rfl).1
  intro f hf n hn
  rw [show f = Ex.file "a" from List.mem_singleton.1 hf] at hn
  have e : fileOf exSpaced (Ex.file "a") = some 97 := by decide +kernel
  rw [e] at hn
  obtain rfl := Option.some.inj hn
  decide +kernel

set_option maxRecDepth 100000 in
/-- Files that do not hold the same ledgers do matter: here `a` holds no ledger. -/
example : (fmtRun exSpaced [Ex.file "a"] World.start).1 = .ok () ∧
    (fmtRun (onFiles exSpaced (fun _ => some [75])) [Ex.file "a"] World.start).1 = .error .parse := by
  decide +kernel

end Verif
