import Verif.Spec.Recover
import Verif.Proofs.Files

/-!
# What a run does if operations fail, or if files are different that it does not read
-/

namespace Verif
open Spec

/-- The two runs have done the same so far. -/
structure SameSoFar (w w' : World) : Prop where
  log : w.log = w'.log
  stdinRead : w.stdinRead = w'.stdinRead
  drawn : w.drawn = w'.drawn

/-- The program only adds to what was done. -/
def Grows {α : Type} (p : Prog α) : Prop := ∀ w, w.log <+: (p w).2.log

/-- The run of `p` is one of `p'` that is cut short where an operation fails. If no operation fails, then it is that run. -/
structure Cut {α : Type} (faulty : Prop) (p p' : Prog α) : Prop where
  grows : Grows p'
  ok : ∀ {w w' v a}, SameSoFar w w' → p w = (.ok a, v) → ∃ v', p' w' = (.ok a, v') ∧ SameSoFar v v'
  err : ∀ {w w' v e}, SameSoFar w w' → p w = (.error e, v) →
    (∃ v', p' w' = (.error e, v') ∧ SameSoFar v v') ∨ (faulty ∧ v.log <+: (p' w').2.log)

namespace Cut
variable {α β : Type} {q : Prop}

theorem pure (a : α) : Cut q (Prog.pure a) (Prog.pure a) where
  grows w := List.prefix_rfl
  ok h e := by cases e; exact ⟨_, rfl, h⟩
  err h e := by cases e

theorem fail (e : CmdErr) : Cut q (Prog.fail e : Prog α) (Prog.fail e) where
  grows w := List.prefix_rfl
  ok h e := by cases e
  err h e := by cases e; exact .inl ⟨_, rfl, h⟩

theorem ofOption (e : CmdErr) (x : Option α) : Cut q (Prog.ofOption e x) (Prog.ofOption e x) := by
  cases x with
  | none => exact fail e
  | some a => exact pure a

theorem bind {p p' : Prog α} {f f' : α → Prog β} (h : Cut q p p') (hf : ∀ a, Cut q (f a) (f' a)) : Cut q (Prog.bind p f) (Prog.bind p' f') where
  grows w := by
    have h1 := h.grows w
    unfold Prog.bind
    rcases hp : p' w with ⟨e | a, v⟩ <;> rw [hp] at h1
    · exact h1
    · exact h1.trans ((hf a).grows v)
  ok := by
    intro w w' v b hw e
    unfold Prog.bind at e ⊢
    rcases hp : p w with ⟨_ | a, u⟩ <;> rw [hp] at e
    · cases e
    · obtain ⟨u', h1, h2⟩ := h.ok hw hp
      rw [h1]
      exact (hf a).ok h2 e
  err := by
    intro w w' v e hw he
    unfold Prog.bind at he ⊢
    rcases hp : p w with ⟨x | a, u⟩ <;> rw [hp] at he
    · cases he
      rcases h.err hw hp with ⟨v', h1, h2⟩ | ⟨h1, h2⟩
      · rw [h1]; exact .inl ⟨v', rfl, h2⟩
      · right
        refine ⟨h1, ?_⟩
        rcases hp' : p' w' with ⟨y | a, u'⟩ <;> rw [hp'] at h2
        · exact h2
        · exact h2.trans ((hf a).grows u')
    · obtain ⟨u', h1, h2⟩ := h.ok hw hp
      rw [h1]
      exact (hf a).err h2 he

end Cut

/-- What a file contains after some effects depends on nothing but what was in it. -/
theorem contentsAfter_congr {start start' : Nat → Option Bytes} {n : Nat} (h : start n = start' n) (es : List Eff) :
    contentsAfter start es n = contentsAfter start' es n := by
  induction es generalizing start start' with
  | nil => exact h
  | cons e es ih =>
    cases e with
    | create m => exact ih (by simp [h])
    | write m b => exact ih (by simp [h])
    | print b => exact ih h

/-- If a file is created, then what was in it before does not matter. -/
theorem contentsAfter_created {start start' : Nat → Option Bytes} {n : Nat} {es : List Eff} (h : Eff.create n ∈ es) :
    contentsAfter start es n = contentsAfter start' es n := by
  induction es generalizing start start' with
  | nil => cases h
  | cons e es ih =>
    rcases List.mem_cons.1 h with rfl | hm
    · exact contentsAfter_congr (by simp) es
    · cases e with
      | create m => exact ih hm
      | write m b => exact ih hm
      | print b => exact ih hm

/-- The system `sys'` is as `sys` for a command that reads the files `S` only, but that no operation fails. -/
structure Calm (S : Nat → Prop) (sys sys' : Sys) : Prop where
  file : sys.file = sys'.file
  stdin : sys.stdin = sys'.stdin
  showPath : sys.showPath = sys'.showPath
  parse : sys.parse = sys'.parse
  render : sys.render = sys'.render
  start : ∀ n, S n → sys.start n = sys'.start n
  fault : ∀ n, sys'.fault n = none

variable {S : Nat → Prop} {sys sys' : Sys}

/-- Some operation fails. -/
def Faulty (sys : Sys) : Prop := ∃ n, sys.fault n ≠ none

theorem readBytes_cut (h : Calm S sys sys') {f : FileSpec} (hf : ∀ n, fileOf sys f = some n → S n) :
    Cut (Faulty sys) (Files.readBytes sys f) (Files.readBytes sys' f) := by
  cases f with
  | stdio =>
    refine ⟨fun w => ?_, ?_, ?_⟩
    · simp [Files.readBytes, h.fault]
    · intro w w' v a hw e
      simp only [Files.readBytes, h.fault] at e ⊢
      rcases hx : sys.fault w.ops with _ | k <;> simp only [hx] at e
      · cases e
        rw [hw.stdinRead, h.stdin]
        exact ⟨_, rfl, hw.log, rfl, hw.drawn⟩
      · cases e
    · intro w w' v x hw e
      simp only [Files.readBytes, h.fault] at e ⊢
      rcases hx : sys.fault w.ops with _ | k <;> simp only [hx] at e
      · cases e
      · cases e
        exact .inr ⟨⟨_, by rw [hx]; simp⟩, by simp [hw.log]⟩
  | path p =>
    have hs := h.start _ (hf _ rfl)
    have hg : ∀ w, (Files.readBytes sys' (.path p) w).2.log = w.log := by
      intro w
      simp only [Files.readBytes, h.fault]
      cases contentsAfter sys'.start w.log (sys'.file p) <;> rfl
    refine ⟨fun w => by rw [hg]; exact List.prefix_rfl, ?_, ?_⟩
    · intro w w' v a hw e
      simp only [Files.readBytes, h.fault] at e ⊢
      rw [← h.file, ← hw.log, ← contentsAfter_congr hs]
      cases hc : contentsAfter sys.start w.log (sys.file p) with
      | none => rw [hc] at e; cases e
      | some b =>
        rw [hc] at e
        rcases hx : sys.fault w.ops with _ | _ | k <;> simp only [hx] at e <;> cases e
        exact ⟨_, rfl, rfl, hw.stdinRead, hw.drawn⟩
    · intro w w' v x hw e
      have hl := hg w'
      simp only [Files.readBytes, h.fault] at e ⊢
      rw [← h.file, ← hw.log, ← contentsAfter_congr hs]
      cases hc : contentsAfter sys.start w.log (sys.file p) with
      | none =>
        rw [hc] at e; cases e
        exact .inl ⟨_, rfl, rfl, hw.stdinRead, hw.drawn⟩
      | some b =>
        rw [hc] at e
        rcases hx : sys.fault w.ops with _ | _ | k <;> simp only [hx] at e <;> cases e <;>
          exact .inr ⟨⟨_, by rw [hx]; simp⟩, by simp [hw.log]⟩

/-- Reading text is reading bytes and decoding. -/
theorem readFile_bytes (sys : Sys) (f : FileSpec) :
    Files.readFile sys f = Prog.bind (Files.readBytes sys f) fun b => Prog.ofOption .utf8 (decodeUtf8 b) := by
  funext w
  cases f with
  | stdio =>
    simp only [Files.readFile, Files.readBytes, Prog.bind]
    cases sys.fault w.ops <;> rfl
  | path p =>
    simp only [Files.readFile, Files.readBytes, Prog.bind]
    cases contentsAfter sys.start w.log (sys.file p) with
    | none => rfl
    | some b => rcases sys.fault w.ops with _ | _ | _ <;> rfl

theorem readFile_cut (h : Calm S sys sys') {f : FileSpec} (hf : ∀ n, fileOf sys f = some n → S n) :
    Cut (Faulty sys) (Files.readFile sys f) (Files.readFile sys' f) := by
  rw [readFile_bytes, readFile_bytes]
  exact (readBytes_cut h hf).bind fun _ => .ofOption _ _

theorem readLedgerFile_cut (h : Calm S sys sys') {f : FileSpec} (hf : ∀ n, fileOf sys f = some n → S n) :
    Cut (Faulty sys) (Files.readLedgerFile sys f) (Files.readLedgerFile sys' f) := by
  refine (readFile_cut h hf).bind fun c => ?_
  rw [h.parse]
  exact .ofOption _ _

theorem writeFile_cut (h : Calm S sys sys') (f : FileSpec) (text : Str) :
    Cut (Faulty sys) (Files.writeFile sys f text) (Files.writeFile sys' f text) := by
  have hf := h.file
  cases f with
  | stdio =>
    refine ⟨fun w => by simp [Files.writeFile, h.fault], ?_, ?_⟩
    · intro w w' v a hw e
      simp only [Files.writeFile, h.fault] at e ⊢
      rcases hx : sys.fault w.ops with _ | k <;> simp only [hx] at e <;> cases e
      exact ⟨_, rfl, by simp [hw.log], hw.stdinRead, hw.drawn⟩
    · intro w w' v x hw e
      simp only [Files.writeFile, h.fault] at e ⊢
      rcases hx : sys.fault w.ops with _ | k <;> simp only [hx] at e <;> cases e
      refine .inr ⟨⟨_, by rw [hx]; simp⟩, ?_⟩
      rw [hw.log]
      exact (List.prefix_append_right_inj _).2 ((List.take_prefix _ _).map _)
  | path p =>
    refine ⟨fun w => by simp [Files.writeFile, h.fault], ?_, ?_⟩
    · intro w w' v a hw e
      simp only [Files.writeFile, h.fault] at e ⊢
      rcases hx : sys.fault w.ops with _ | _ | k <;> simp only [hx] at e <;> cases e
      exact ⟨_, rfl, by simp [hw.log, hf], hw.stdinRead, hw.drawn⟩
    · intro w w' v x hw e
      simp only [Files.writeFile, h.fault] at e ⊢
      rcases hx : sys.fault w.ops with _ | _ | k <;> simp only [hx] at e <;> cases e
      · exact .inr ⟨⟨_, by rw [hx]; simp⟩, by simp [hw.log]⟩
      · refine .inr ⟨⟨_, by rw [hx]; simp⟩, ?_⟩
        rw [hw.log, hf]
        refine (List.prefix_append_right_inj _).2 ?_
        rw [List.cons_prefix_cons]
        exact ⟨rfl, (List.take_prefix _ _).map _⟩

theorem writeLedgerFile_cut (h : Calm S sys sys') (f : FileSpec) (L : Ledger) :
    Cut (Faulty sys) (Files.writeLedgerFile sys f L) (Files.writeLedgerFile sys' f L) := by
  unfold Files.writeLedgerFile
  rw [h.render]
  exact writeFile_cut h f _

theorem fmtRun_cut (h : Calm S sys sys') {fs : List FileSpec} (hf : ∀ f ∈ fs, ∀ n, fileOf sys f = some n → S n) :
    Cut (Faulty sys) (fmtRun sys fs) (fmtRun sys' fs) := by
  induction fs with
  | nil => exact .pure ()
  | cons f fs ih =>
    exact (readLedgerFile_cut h (hf f (by simp))).bind fun L => (writeLedgerFile_cut h f L).bind fun _ =>
      ih fun g hg => hf g (List.mem_cons_of_mem _ hg)

theorem update_cut (hr : sys.random = sys'.random) (ts : List TransactionPostings) :
    Cut (Faulty sys) (FpGen.update sys ts) (FpGen.update sys' ts) where
  grows w := List.prefix_rfl
  ok := by
    intro w w' v a hw e
    unfold FpGen.update at e ⊢
    rw [← hr, ← hw.drawn]
    cases e
    exact ⟨_, rfl, hw.log, hw.stdinRead, rfl⟩
  err := by
    intro w w' v x hw e
    cases e

theorem fpgen_cut (h : Calm S sys sys') (hr : sys.random = sys'.random) (ho : HashOrder) {fs : List FileSpec}
    (hf : ∀ f ∈ fs, ∀ n, fileOf sys f = some n → S n) : Cut (Faulty sys) (FpGen.run sys ho fs) (FpGen.run sys' ho fs) := by
  induction fs with
  | nil => exact .pure ()
  | cons f fs ih =>
    exact (readLedgerFile_cut h (hf f (by simp))).bind fun L => (Cut.ofOption _ _).bind fun ts => (update_cut hr ts).bind fun us =>
      (writeLedgerFile_cut h f _).bind fun _ => ih fun g hg => hf g (List.mem_cons_of_mem _ hg)

theorem sources_cut (h : Calm S sys sys') (ho : HashOrder) {f : FileSpec} (hf : ∀ n, fileOf sys f = some n → S n) :
    Cut (Faulty sys) (Sources.readLedgerFile sys ho f) (Sources.readLedgerFile sys' ho f) := by
  refine (readLedgerFile_cut h hf).bind fun L => (Cut.ofOption _ _).bind fun ts => ?_
  have : f.display sys = f.display sys' := by cases f <;> simp [FileSpec.display, h.showPath]
  rw [this]
  exact .pure _

theorem readInputs_cut (h : Calm S sys sys') (ho : Nat → HashOrder) {fs : List FileSpec} (hf : ∀ f ∈ fs, ∀ n, fileOf sys f = some n → S n)
    (acc : MergeCmd.Acc) : Cut (Faulty sys) (MergeCmd.readInputs sys ho fs acc) (MergeCmd.readInputs sys' ho fs acc) := by
  induction fs generalizing acc with
  | nil => exact .pure _
  | cons f fs ih =>
    refine (sources_cut h _ (hf f (by simp))).bind fun gs => ?_
    cases MergeCmd.mergeGroups ho gs acc with
    | error e => exact .fail e
    | ok acc => exact ih (fun g hg => hf g (List.mem_cons_of_mem _ hg)) acc

theorem mergeRun_cut (h : Calm S sys sys') (ho : Nat → HashOrder) {args : MergeCmd.Args} (hf : ∀ f ∈ args.inputs, ∀ n, fileOf sys f = some n → S n) :
    Cut (Faulty sys) (MergeCmd.run sys ho args) (MergeCmd.run sys' ho args) := by
  refine (readInputs_cut h ho hf _).bind fun acc => ?_
  refine Cut.bind ?_ fun _ => ?_
  · unfold MergeCmd.writeUnmerged
    split
    · exact .pure ()
    · cases args.unmerged with
      | none => exact .fail _
      | some g => exact writeLedgerFile_cut h g _
  · cases acc.merger.build (ho acc.calls) with
    | error e => exact .fail _
    | ok ts => exact writeLedgerFile_cut h _ _

theorem applyRules_cut (h : Calm S sys sys') (ho : HashOrder) (lower : Str → Str) (fuel : Nat) (table : Option Rules.Table) {input output : FileSpec}
    (hf : ∀ n, fileOf sys input = some n → S n) :
    Cut (Faulty sys) (Rules.applyRules sys ho lower fuel table input output) (Rules.applyRules sys' ho lower fuel table input output) := by
  refine (Cut.ofOption _ _).bind fun T => (readLedgerFile_cut h hf).bind fun L => (Cut.ofOption _ _).bind fun ts => ?_
  cases T.updateTransactions lower fuel ts with
  | error e => exact .fail _
  | ok us => exact writeLedgerFile_cut h _ _

theorem ofExcept_cut {ε α : Type} {q : Prop} (x : Except ε α) : Cut q (ImportCmd.ofExcept x) (ImportCmd.ofExcept x) := by
  cases x with
  | error e => exact .fail _
  | ok a => exact .pure a

theorem importRun_cut (h : Calm S sys sys') (L : ImportLib) (hasParent : Str → Bool) (importer : ImportCmd.Importer) (args : ImportCmd.Args) :
    Cut (Faulty sys) (ImportCmd.run sys L hasParent importer args) (ImportCmd.run sys' L hasParent importer args) := by
  unfold ImportCmd.run
  cases importer.doImport L with
  | error e => exact .fail _
  | ok imp =>
    refine (Cut.ofOption _ _).bind fun out => Cut.bind ?_ fun _ => writeLedgerFile_cut h _ _
    unfold ImportCmd.makeDirs
    split
    · cases out with
      | stdio => exact .fail _
      | path p =>
        show Cut _ (if hasParent p then _ else _) (if hasParent p then _ else _)
        split
        · refine ⟨fun w => by simp [ImportCmd.createDirs, h.fault], ?_, ?_⟩
          · intro w w' v a hw e
            unfold ImportCmd.createDirs at e ⊢
            simp only [h.fault]
            rcases hx : sys.fault w.ops with _ | k <;> simp only [hx] at e <;> cases e
            exact ⟨_, rfl, hw.log, hw.stdinRead, hw.drawn⟩
          · intro w w' v x hw e
            unfold ImportCmd.createDirs at e ⊢
            simp only [h.fault]
            rcases hx : sys.fault w.ops with _ | k <;> simp only [hx] at e <;> cases e
            exact .inr ⟨⟨_, by rw [hx]; simp⟩, by simp [hw.log]⟩
        · exact .pure ()
    · exact .pure ()

/-- Every command: with operations that fail it is cut short, and files that it does not read do not matter. -/
theorem command_cut (h : Calm S sys sys') (o : Outside) {cmd : SubCommand} (hf : ∀ f n, Reads cmd f → fileOf sys f = some n → S n)
    (hrules : rulesFor sys.start cmd = rulesFor sys'.start cmd) (hrand : ∀ fs, cmd = .generateFingerprints fs → sys.random = sys'.random) :
    Cut (Faulty sys) (cmd.run sys o) (cmd.run sys' o) := by
  cases cmd with
  | applyRules rules input output =>
    show Cut _ (Rules.applyRules sys _ _ _ (rules sys.start) _ _) (Rules.applyRules sys' _ _ _ (rules sys'.start) _ _)
    rw [show rules sys.start = rules sys'.start from hrules]
    exact applyRules_cut h _ _ _ _ fun n hn => hf _ n rfl hn
  | format fs => exact fmtRun_cut h fun f hfs n hn => hf f n hfs hn
  | generateFingerprints fs => exact fpgen_cut h (hrand fs rfl) _ fun f hfs n hn => hf f n hfs hn
  | importFrom source args =>
    refine Cut.bind ?_ fun imp => importRun_cut h _ _ _ _
    cases source with
    | nationwideCsv ns legacy input =>
      exact (readBytes_cut h fun n hn => hf _ n rfl hn).bind fun b => ofExcept_cut _
    | nationwidePdf ns input programs =>
      have hs := h.start _ (hf (.path input) (sys.file input) rfl rfl)
      have he : ∀ w w', SameSoFar w w' → contentsAfter sys.start w.log (sys.file input) = contentsAfter sys'.start w'.log (sys'.file input) := by
        intro w w' hw
        rw [← h.file, ← hw.log]
        exact contentsAfter_congr hs _
      refine ⟨fun w => ?_, ?_, ?_⟩
      · exact (ofExcept_cut (q := True) _).grows w
      · intro w w' v a hw e
        simp only [ImportCmd.Source.importer] at e ⊢
        rw [← he w w' hw]
        exact (ofExcept_cut (q := Faulty sys) _).ok hw e
      · intro w w' v x hw e
        simp only [ImportCmd.Source.importer] at e ⊢
        rw [← he w w' hw]
        exact (ofExcept_cut (q := Faulty sys) _).err hw e
    | paypalCsv ns legacy input tz =>
      exact (readFile_cut h fun n hn => hf _ n (.inl rfl) hn).bind fun t => (readFile_cut h fun n hn => hf _ n (.inr rfl) hn).bind fun z =>
        ofExcept_cut _
  | merge args => exact mergeRun_cut h _ fun f hfs n hn => hf f n hfs hn

end Verif
