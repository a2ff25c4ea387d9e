import Verif.Spec.Together
import Verif.Proofs.Cut
import Verif.Props.ImportCmd

/-!
# Lemmas about processes
-/

namespace Verif
open Spec

/-! ### The tasks are the commands -/

/-- `FileSpec::writer` and `write_all` (/repo/src/filespec.rs:43-51, 79-83), on bytes. -/
def Files.writeBytes (sys : Sys) (f : FileSpec) (bytes : Bytes) : Prog Unit := fun w =>
  match f, sys.fault w.ops with
  | .stdio, none => (.ok (), { w with ops := w.ops + 1, log := w.log ++ bytes.map .print })
  | .stdio, some k => (.error .write, { w with ops := w.ops + 1, log := w.log ++ (bytes.take k).map .print })
  | .path p, none => (.ok (), { w with ops := w.ops + 1, log := w.log ++ (.create (sys.file p) :: bytes.map (.write (sys.file p))) })
  | .path _, some 0 => (.error .create, { w with ops := w.ops + 1 })
  | .path p, some (k + 1) =>
    (.error .write, { w with ops := w.ops + 1, log := w.log ++ (.create (sys.file p) :: (bytes.take k).map (.write (sys.file p))) })

/-- What a task does if it runs alone: as in Model/Files (/repo/src/filespec.rs:33-51,67-83). -/
def Task.prog {α : Type} (sys : Sys) : Task α → Prog α
  | .done r => fun w => (r, w)
  | .read f k => fun w => (k (Files.readBytes sys f w).1).prog sys (Files.readBytes sys f w).2
  | .look p k => fun w => (k (contentsAfter sys.start w.log (sys.file p))).prog sys w
  | .write f b k => fun w => (k (Files.writeBytes sys f b w).1).prog sys (Files.writeBytes sys f b w).2
  | .dirs k => fun w => (k (ImportCmd.createDirs sys w).1).prog sys (ImportCmd.createDirs sys w).2
  | .load k => fun w => (k (contentsAfter sys.start w.log)).prog sys w
  | .draw d k => fun w => (k w.drawn).prog sys { w with drawn := d w.drawn }

theorem prog_bind {α β : Type} (sys : Sys) (t : Task α) (g : α → Task β) :
    (t.bind g).prog sys = Prog.bind (t.prog sys) fun a => (g a).prog sys := by
  induction t with
  | done r => cases r <;> rfl
  | read f k ih => funext w; show ((k _).bind g).prog sys _ = _; rw [ih]; rfl
  | look p k ih => funext w; show ((k _).bind g).prog sys _ = _; rw [ih]; rfl
  | write f b k ih => funext w; show ((k _).bind g).prog sys _ = _; rw [ih]; rfl
  | dirs k ih => funext w; show ((k _).bind g).prog sys _ = _; rw [ih]; rfl
  | load k ih => funext w; show ((k _).bind g).prog sys _ = _; rw [ih]; rfl
  | draw d k ih => funext w; show ((k _).bind g).prog sys _ = _; rw [ih]; rfl

theorem prog_do {α β : Type} (sys : Sys) (t : Task α) (g : α → Task β) :
    (t >>= g).prog sys = Prog.bind (t.prog sys) fun a => (g a).prog sys := prog_bind sys t g

theorem prog_ofOption {α : Type} (sys : Sys) (e : CmdErr) (x : Option α) : (Task.ofOption e x).prog sys = Prog.ofOption e x := by
  cases x <;> rfl

theorem prog_ofExcept {ε α : Type} (sys : Sys) (x : Except ε α) : (Task.ofExcept x).prog sys = ImportCmd.ofExcept x := by
  cases x <;> rfl

theorem prog_readBytes (sys : Sys) (f : FileSpec) : (Task.readBytes f).prog sys = Files.readBytes sys f := rfl

theorem prog_readFile (sys : Sys) (f : FileSpec) : (Task.readFile f).prog sys = Files.readFile sys f := by
  unfold Task.readFile
  rw [prog_do, readFile_bytes]
  simp only [prog_ofOption]
  rfl

theorem prog_readLedgerFile (sys : Sys) (f : FileSpec) : (Task.readLedgerFile sys f).prog sys = Files.readLedgerFile sys f := by
  unfold Task.readLedgerFile
  rw [prog_do, prog_readFile]
  simp only [prog_ofOption]
  rfl

theorem writeFile_bytes (sys : Sys) (f : FileSpec) (s : Str) : Files.writeFile sys f s = Files.writeBytes sys f (encodeUtf8 s) := by
  funext w
  cases f with
  | stdio => simp only [Files.writeFile, Files.writeBytes]; cases sys.fault w.ops <;> rfl
  | path p => simp only [Files.writeFile, Files.writeBytes]; rcases sys.fault w.ops with _ | _ | k <;> rfl

theorem prog_writeLedgerFile (sys : Sys) (f : FileSpec) (L : Ledger) :
    (Task.writeLedgerFile sys f L).prog sys = Files.writeLedgerFile sys f L := by
  show Files.writeBytes sys f _ = Files.writeFile sys f _
  rw [writeFile_bytes]

theorem prog_fmt (sys : Sys) (fs : List FileSpec) : (Task.fmt sys fs).prog sys = fmtRun sys fs := by
  induction fs with
  | nil => rfl
  | cons f fs ih =>
    unfold Task.fmt fmtRun
    simp only [prog_do, prog_readLedgerFile, prog_writeLedgerFile, ih]
    rfl

theorem prog_fpGen (sys : Sys) (h : HashOrder) (fs : List FileSpec) : (Task.fpGen sys h fs).prog sys = FpGen.run sys h fs := by
  induction fs with
  | nil => rfl
  | cons f fs ih =>
    unfold Task.fpGen FpGen.run
    simp only [prog_do, prog_readLedgerFile, prog_writeLedgerFile, prog_ofOption, ih]
    rfl

theorem prog_readInputs (sys : Sys) (ho : Nat → HashOrder) (fs : List FileSpec) (acc : MergeCmd.Acc) :
    (Task.readInputs sys ho fs acc).prog sys = MergeCmd.readInputs sys ho fs acc := by
  induction fs generalizing acc with
  | nil => rfl
  | cons f fs ih =>
    unfold Task.readInputs MergeCmd.readInputs Sources.readLedgerFile
    simp only [prog_do, prog_readLedgerFile, prog_ofOption]
    funext w
    simp only [bind, Prog.bind, pure, Prog.pure]
    rcases Files.readLedgerFile sys f w with ⟨e | L, w1⟩
    · rfl
    · simp only
      rcases Prog.ofOption CmdErr.unhandledItem (TransactionPostings.fromLedger L) w1 with ⟨e | ts, w2⟩
      · rfl
      · simp only
        cases MergeCmd.mergeGroups ho (Sources.groups (ho acc.calls) (f.display sys) ts) acc with
        | error e => rfl
        | ok acc => simp only [ih]

theorem prog_merge (sys : Sys) (ho : Nat → HashOrder) (args : MergeCmd.Args) :
    (Task.merge sys ho args).prog sys = MergeCmd.run sys ho args := by
  unfold Task.merge MergeCmd.run
  rw [prog_do, prog_readInputs]
  show Prog.bind _ _ = Prog.bind _ _
  congr 1
  funext acc
  rw [prog_do]
  have h1 : (Task.writeUnmerged sys (ho acc.calls) args acc.unmerged).prog sys =
      MergeCmd.writeUnmerged sys (ho acc.calls) args acc.unmerged := by
    unfold Task.writeUnmerged MergeCmd.writeUnmerged
    split
    · rfl
    · cases args.unmerged with
      | none => rfl
      | some f => exact prog_writeLedgerFile _ _ _
  rw [h1]
  show Prog.bind _ _ = Prog.bind _ _
  congr 1
  funext _
  cases acc.merger.build (ho acc.calls) with
  | error e => rfl
  | ok ts => exact prog_writeLedgerFile _ _ _

theorem prog_applyRules (sys : Sys) (h : HashOrder) (lower : Str → Str) (fuel : Nat) (rules : (Nat → Option Bytes) → Option Rules.Table)
    (input output : FileSpec) : (Task.applyRules sys h lower fuel rules input output).prog sys World.start =
      Rules.applyRules sys h lower fuel (rules sys.start) input output World.start := by
  unfold Task.applyRules Rules.applyRules
  rw [prog_do]
  show Prog.bind _ _ _ = Prog.bind _ _ _
  have h1 : ((Task.load fun files => Task.ofOption .other (rules files)).prog sys World.start) =
      (Prog.ofOption .other (rules sys.start) : Prog Rules.Table) World.start := by
    show (Task.ofOption _ _).prog sys _ = _
    rw [prog_ofOption]; rfl
  unfold Prog.bind
  rw [h1]
  cases rules sys.start with
  | none => rfl
  | some table =>
    show (Task.prog _ _) _ = _
    simp only [prog_do, prog_readLedgerFile, prog_ofOption]
    show Prog.bind _ _ _ = Prog.bind _ _ _
    congr 1
    funext L
    show Prog.bind _ _ = Prog.bind _ _
    congr 1
    funext ts
    cases table.updateTransactions lower fuel ts with
    | error e => rfl
    | ok ts => exact prog_writeLedgerFile _ _ _

theorem prog_importer (sys : Sys) (source : ImportCmd.Source) : (Task.importer source).prog sys = source.importer sys := by
  cases source with
  | nationwideCsv fpNs legacy input =>
    unfold Task.importer ImportCmd.Source.importer
    simp only [prog_do, prog_readBytes, prog_ofExcept]
    rfl
  | nationwidePdf fpNs input programs =>
    funext w
    show (Task.ofExcept _).prog sys w = _
    rw [prog_ofExcept]
    rfl
  | paypalCsv ns legacy input tz =>
    unfold Task.importer ImportCmd.Source.importer
    simp only [prog_do, prog_readFile, prog_ofExcept]
    rfl

theorem prog_importFiles (sys : Sys) (L : ImportLib) (hasParent : Str → Bool) (source : ImportCmd.Source) (args : ImportCmd.Args) :
    (Task.importFiles sys L hasParent source args).prog sys = ImportCmd.runFiles sys L hasParent source args := by
  unfold Task.importFiles ImportCmd.runFiles
  rw [prog_do, prog_importer]
  show Prog.bind _ _ = Prog.bind _ _
  congr 1
  funext imp
  unfold ImportCmd.run
  cases imp.doImport L with
  | error e => rfl
  | ok imp =>
    simp only [prog_do, prog_ofOption, prog_writeLedgerFile]
    show Prog.bind _ _ = Prog.bind _ _
    congr 1
    funext output
    show Prog.bind _ _ = Prog.bind _ _
    congr 1
    unfold Task.makeDirs ImportCmd.makeDirs
    split
    · cases output with
      | stdio => rfl
      | path p => simp only; split <;> rfl
    · rfl

/-- A task that runs alone does what the command does. -/
theorem task_prog (sys : Sys) (o : Outside) (cmd : SubCommand) :
    (cmd.task sys o).prog sys World.start = cmd.run sys o World.start := by
  cases cmd with
  | applyRules rules input output => exact prog_applyRules _ _ _ _ _ _ _
  | format fs => exact congrFun (prog_fmt sys fs) _
  | generateFingerprints fs => exact congrFun (prog_fpGen sys _ fs) _
  | importFrom source args => exact congrFun (prog_importFiles _ _ _ _ _) _
  | merge args => exact congrFun (prog_merge _ _ _) _

/-! ### A process alone -/

/-- A process alone, after so many steps. -/
def solo : Nat → (Nat → Option Bytes) × Proc → (Nat → Option Bytes) × Proc
  | 0, s => s
  | n + 1, s => solo n (s.2.step s.1)

theorem solo_add (a b : Nat) (s : (Nat → Option Bytes) × Proc) : solo (a + b) s = solo b (solo a s) := by
  induction a generalizing s with
  | zero => rw [Nat.zero_add]; rfl
  | succ a ih => rw [Nat.add_right_comm]; exact ih _

theorem solo_succ (n : Nat) (s : (Nat → Option Bytes) × Proc) : solo (n + 1) s = (solo n s).2.step (solo n s).1 := by
  rw [solo_add n 1]; rfl

/-- The process gets from one state to the other if it is alone. -/
def Reaches (s s' : (Nat → Option Bytes) × Proc) : Prop := ∃ n, solo n s = s'

theorem Reaches.refl (s) : Reaches s s := ⟨0, rfl⟩

theorem Reaches.trans {s s' s''} (h : Reaches s s') (h' : Reaches s' s'') : Reaches s s'' := by
  obtain ⟨a, rfl⟩ := h
  obtain ⟨b, rfl⟩ := h'
  exact ⟨a + b, solo_add a b s⟩

theorem Reaches.first {s s' : (Nat → Option Bytes) × Proc} (h : Reaches (s.2.step s.1) s') : Reaches s s' :=
  .trans ⟨1, rfl⟩ h

theorem reach_reading {F : Nat → Option Bytes} {sys : Sys} {w : World} {n : Nat} {k} (rest got : Bytes) (h : F n = some (got ++ rest)) :
    Reaches (F, ⟨sys, w, .reading n got k⟩) (F, ⟨sys, w, .next (k (.ok (got ++ rest)))⟩) := by
  induction rest generalizing got with
  | nil =>
    apply Reaches.first
    simp only [Proc.step, h, Option.getD_some, List.append_nil, List.getElem?_eq_none (Nat.le_refl _)]
    exact .refl _
  | cons b rest ih =>
    apply Reaches.first
    have hb : (got ++ b :: rest)[got.length]? = some b := by simp
    simp only [Proc.step, h, Option.getD_some, hb]
    have := ih (got ++ [b]) (by rw [h]; simp)
    simpa using this

theorem putByte_end (old : Bytes) (b : UInt8) : putByte old old.length b = old ++ [b] := by
  simp [putByte]

theorem reach_writing {sys : Sys} {n : Nat} {r k} (rest : Bytes) (F : Nat → Option Bytes) (w : World) (pos : Nat) (old : Bytes)
    (h : F n = some old) (hl : old.length = pos) :
    Reaches (F, ⟨sys, w, .writing n pos rest r k⟩)
      (contentsAfter F (rest.map (.write n)), ⟨sys, { w with log := w.log ++ rest.map (.write n) }, .next (k r)⟩) := by
  induction rest generalizing F w pos old with
  | nil =>
    apply Reaches.first
    simp only [Proc.step, List.map_nil, List.append_nil, contentsAfter]
    exact .refl _
  | cons b rest ih =>
    apply Reaches.first
    subst hl
    simp only [Proc.step, h, Option.getD_some, putByte_end, Proc.did]
    have := ih (setFile F n (old ++ [b])) { w with log := w.log ++ [.write n b] } (old.length + 1) (old ++ [b]) (by simp [setFile]) (by simp)
    have hF : setFile F n (old ++ [b]) = fun m => if m = n then some ((F m).getD [] ++ [b]) else F m := by
      funext m
      unfold setFile
      by_cases hm : m = n
      · simp [hm, h]
      · simp [hm]
    rw [hF] at this ⊢
    simpa [contentsAfter] using this

theorem contentsAfter_print (F : Nat → Option Bytes) (bs : Bytes) : contentsAfter F (bs.map .print) = F := by
  induction bs with
  | nil => rfl
  | cons b bs ih => exact ih

theorem reach_printing {F : Nat → Option Bytes} {sys : Sys} {r k} (rest : Bytes) (w : World) :
    Reaches (F, ⟨sys, w, .printing rest r k⟩) (F, ⟨sys, { w with log := w.log ++ rest.map .print }, .next (k r)⟩) := by
  induction rest generalizing w with
  | nil =>
    apply Reaches.first
    simp only [Proc.step, List.map_nil, List.append_nil]
    exact .refl _
  | cons b rest ih =>
    apply Reaches.first
    simp only [Proc.step, Proc.did]
    simpa using ih { w with log := w.log ++ [.print b] }

/-- A process that is alone gets to the end, and has then done what the command does. -/
theorem reach_end (sys : Sys) (F : Nat → Option Bytes) (t : Task Unit) (w : World) :
    Reaches (contentsAfter F w.log, ⟨sys, w, .next t⟩)
      (contentsAfter F (t.prog { sys with start := F } w).2.log,
        ⟨sys, (t.prog { sys with start := F } w).2, .next (.done (t.prog { sys with start := F } w).1)⟩) := by
  induction t generalizing w with
  | done r => exact .refl _
  | look p k ih => exact .first (ih _ _)
  | load k ih => exact .first (ih _ _)
  | draw d k ih => exact .first (ih _ { w with drawn := d w.drawn })
  | dirs k ih =>
    apply Reaches.first
    simp only [Proc.step, Task.prog, ImportCmd.createDirs, Proc.op]
    cases sys.fault w.ops with
    | none => exact ih _ { w with ops := w.ops + 1 }
    | some _ => exact ih _ { w with ops := w.ops + 1 }
  | read f k ih =>
    apply Reaches.first
    cases f with
    | stdio =>
      simp only [Proc.step, Task.prog, Files.readBytes]
      cases sys.fault w.ops with
      | none => exact ih _ { w with ops := w.ops + 1, stdinRead := true }
      | some _ => exact ih _ { w with ops := w.ops + 1, stdinRead := true }
    | path p =>
      simp only [Proc.step, Task.prog, Files.readBytes, Proc.op]
      cases hb : contentsAfter F w.log (sys.file p) with
      | none => exact ih _ { w with ops := w.ops + 1 }
      | some b =>
        rcases sys.fault w.ops with _ | _ | m
        · exact (reach_reading b [] hb).trans (ih _ { w with ops := w.ops + 1 })
        · exact ih _ { w with ops := w.ops + 1 }
        · exact ih _ { w with ops := w.ops + 1 }
  | write f bytes k ih =>
    apply Reaches.first
    cases f with
    | stdio =>
      simp only [Proc.step, Task.prog, Files.writeBytes, Proc.op]
      cases sys.fault w.ops with
      | none =>
        refine (reach_printing _ _).trans ?_
        have := ih (.ok ()) { w with ops := w.ops + 1, log := w.log ++ bytes.map .print }
        rw [contentsAfter_append, contentsAfter_print] at this
        exact this
      | some m =>
        refine (reach_printing _ _).trans ?_
        have := ih (.error .write) { w with ops := w.ops + 1, log := w.log ++ (bytes.take m).map .print }
        rw [contentsAfter_append, contentsAfter_print] at this
        exact this
    | path p =>
      have key : ∀ (bs : Bytes) (r : Except CmdErr Unit),
          Reaches (setFile (contentsAfter F w.log) (sys.file p) [], ⟨sys, ⟨w.log ++ [.create (sys.file p)], w.ops + 1, w.stdinRead, w.drawn⟩,
              .writing (sys.file p) 0 bs r k⟩)
            (contentsAfter F (w.log ++ .create (sys.file p) :: bs.map (.write (sys.file p))),
              ⟨sys, ⟨w.log ++ .create (sys.file p) :: bs.map (.write (sys.file p)), w.ops + 1, w.stdinRead, w.drawn⟩, .next (k r)⟩) := by
        intro bs r
        have := reach_writing (sys := sys) (n := sys.file p) (r := r) (k := k) bs (setFile (contentsAfter F w.log) (sys.file p) [])
          ⟨w.log ++ [.create (sys.file p)], w.ops + 1, w.stdinRead, w.drawn⟩ 0 [] (by simp [setFile]) rfl
        rw [contentsAfter_append]
        simp only [List.append_assoc, List.singleton_append] at this
        exact this
      simp only [Proc.step, Task.prog, Files.writeBytes, Proc.op, Proc.did]
      rcases sys.fault w.ops with _ | _ | m
      · exact (key _ _).trans (ih (.ok ()) ⟨w.log ++ .create (sys.file p) :: bytes.map (.write (sys.file p)), w.ops + 1, w.stdinRead, w.drawn⟩)
      · exact ih (.error .create) { w with ops := w.ops + 1 }
      · exact (key _ _).trans (ih (.error .write)
          ⟨w.log ++ .create (sys.file p) :: (bytes.take m).map (.write (sys.file p)), w.ops + 1, w.stdinRead, w.drawn⟩)

/-! ### What a process did so far -/

theorem step_sys (F : Nat → Option Bytes) (p : Proc) : (p.step F).2.sys = p.sys := by
  unfold Proc.step
  split <;> (try split) <;> rfl

/-- A process only adds to what it did, one effect in a step at most. -/
theorem step_log (F : Nat → Option Bytes) (p : Proc) : p.world.log <+: (p.step F).2.world.log := by
  unfold Proc.step
  split <;> (try split) <;> simp [Proc.op, Proc.did]

/-- The files are what the process made of them, and it is where it should be in the file that it writes. -/
def Sound (F : Nat → Option Bytes) (s : (Nat → Option Bytes) × Proc) : Prop :=
  s.1 = contentsAfter F s.2.world.log ∧
  match s.2.doing with
  | .writing n pos _ _ _ => ∃ old, s.1 n = some old ∧ old.length = pos
  | _ => True

theorem sound_step {F : Nat → Option Bytes} {s : (Nat → Option Bytes) × Proc} (h : Sound F s) : Sound F (s.2.step s.1) := by
  obtain ⟨G, ⟨sys, w, d⟩⟩ := s
  obtain ⟨h1, h2⟩ := h
  simp only at h1 h2
  cases d with
  | next t =>
    cases t with
    | done r => exact ⟨h1, trivial⟩
    | look q k => exact ⟨h1, trivial⟩
    | load k => exact ⟨h1, trivial⟩
    | draw d k => exact ⟨h1, trivial⟩
    | dirs k =>
      simp only [Proc.step]
      cases sys.fault w.ops <;> exact ⟨h1, trivial⟩
    | read f k =>
      cases f with
      | stdio =>
        simp only [Proc.step]
        cases sys.fault w.ops <;> exact ⟨h1, trivial⟩
      | path q =>
        simp only [Proc.step]
        cases G (sys.file q) with
        | none => exact ⟨h1, trivial⟩
        | some b => rcases sys.fault w.ops with _ | _ | m <;> exact ⟨h1, trivial⟩
    | write f bytes k =>
      cases f with
      | stdio =>
        simp only [Proc.step]
        cases sys.fault w.ops <;> exact ⟨h1, trivial⟩
      | path q =>
        simp only [Proc.step]
        have key : setFile G (sys.file q) [] = contentsAfter F (w.log ++ [.create (sys.file q)]) := by
          rw [contentsAfter_append, ← h1]; rfl
        rcases sys.fault w.ops with _ | _ | m
        · exact ⟨key, [], by simp [setFile], rfl⟩
        · exact ⟨h1, trivial⟩
        · exact ⟨key, [], by simp [setFile], rfl⟩
  | reading n got k =>
    simp only [Proc.step]
    cases ((G n).getD [])[got.length]? <;> exact ⟨h1, trivial⟩
  | writing n pos rest r k =>
    cases rest with
    | nil => exact ⟨h1, trivial⟩
    | cons b rest =>
      obtain ⟨old, h3, rfl⟩ := h2
      simp only [Proc.step, h3, Option.getD_some, putByte_end]
      refine ⟨?_, old ++ [b], by simp [setFile], by simp⟩
      show setFile G n (old ++ [b]) = contentsAfter F (w.log ++ [.write n b])
      rw [contentsAfter_append, ← h1]
      funext m
      unfold setFile contentsAfter
      by_cases hm : m = n
      · simp [hm, h3, contentsAfter]
      · simp [hm, contentsAfter]
  | printing rest r k =>
    cases rest with
    | nil => exact ⟨h1, trivial⟩
    | cons b rest =>
      refine ⟨?_, trivial⟩
      show G = contentsAfter F (w.log ++ [.print b])
      rw [contentsAfter_append, ← h1]
      rfl

theorem sound_solo {F : Nat → Option Bytes} {s : (Nat → Option Bytes) × Proc} (h : Sound F s) (n : Nat) : Sound F (solo n s) := by
  induction n generalizing s with
  | zero => exact h
  | succ n ih => exact ih (sound_step h)

theorem solo_log (n : Nat) (s : (Nat → Option Bytes) × Proc) : s.2.world.log <+: (solo n s).2.world.log := by
  induction n generalizing s with
  | zero => exact List.prefix_rfl
  | succ n ih => exact (step_log s.1 s.2).trans (ih _)

theorem solo_done (n : Nat) {F : Nat → Option Bytes} {p : Proc} {r} (h : p.Finished r) : solo n (F, p) = (F, p) := by
  have h1 : p.step F = (F, p) := by
    unfold Proc.step
    rw [show p.doing = _ from h]
  induction n with
  | zero => rfl
  | succ n ih => show solo n (p.step F) = _; rw [h1, ih]

theorem solo_stays (n : Nat) (F : Nat → Option Bytes) (sys : Sys) (w : World) (r : Except CmdErr Unit) :
    solo n (F, ⟨sys, w, .next (.done r)⟩) = (F, ⟨sys, w, .next (.done r)⟩) := solo_done n (show Proc.Finished _ r from rfl)

/-! ### Files that matter -/

/-- The task reads and writes no files but those of `M`, and writes to no files but those of `T`. -/
def Task.Within {α : Type} (sys : Sys) (M T : Nat → Prop) : Task α → Prop
  | .done _ => True
  | .read f k => (∀ n, fileOf sys f = some n → M n) ∧ ∀ r, (k r).Within sys M T
  | .look p k => M (sys.file p) ∧ ∀ r, (k r).Within sys M T
  | .write f _ k => (∀ n, fileOf sys f = some n → M n ∧ T n) ∧ ∀ r, (k r).Within sys M T
  | .dirs k => ∀ r, (k r).Within sys M T
  | .load k => (∀ F F' : Nat → Option Bytes, (∀ n, M n → F n = F' n) → k F = k F') ∧ ∀ r, (k r).Within sys M T
  | .draw _ k => ∀ r, (k r).Within sys M T

/-- The same for a process in the middle of something. -/
def Doing.Within (sys : Sys) (M T : Nat → Prop) : Doing → Prop
  | .next t => t.Within sys M T
  | .reading n _ k => M n ∧ ∀ r, (k r).Within sys M T
  | .writing n _ _ _ k => (M n ∧ T n) ∧ ∀ r, (k r).Within sys M T
  | .printing _ _ k => ∀ r, (k r).Within sys M T

variable {M T : Nat → Prop}

theorem within_bind {α β : Type} {sys : Sys} {t : Task α} {g : α → Task β} (h : t.Within sys M T) (hg : ∀ a, (g a).Within sys M T) :
    (t >>= g).Within sys M T := by
  show (t.bind g).Within sys M T
  induction t with
  | done r =>
    cases r with
    | error e => trivial
    | ok a => exact hg a
  | read f k ih => exact ⟨h.1, fun r => ih r (h.2 r)⟩
  | look p k ih => exact ⟨h.1, fun r => ih r (h.2 r)⟩
  | write f b k ih => exact ⟨h.1, fun r => ih r (h.2 r)⟩
  | dirs k ih => exact fun r => ih r (h r)
  | load k ih => exact ⟨fun F F' hF => by show (k F).bind g = (k F').bind g; rw [h.1 F F' hF], fun r => ih r (h.2 r)⟩
  | draw d k ih => exact fun r => ih r (h r)

theorem within_ofOption {α : Type} {sys : Sys} (e : CmdErr) (x : Option α) : (Task.ofOption e x).Within sys M T := by
  cases x <;> trivial

theorem within_ofExcept {ε α : Type} {sys : Sys} (x : Except ε α) : (Task.ofExcept x).Within sys M T := by
  cases x <;> trivial

theorem within_readBytes {sys : Sys} {f : FileSpec} (h : ∀ n, fileOf sys f = some n → M n) : (Task.readBytes f).Within sys M T :=
  ⟨h, fun _ => trivial⟩

theorem within_readFile {sys : Sys} {f : FileSpec} (h : ∀ n, fileOf sys f = some n → M n) : (Task.readFile f).Within sys M T :=
  within_bind (within_readBytes h) fun _ => within_ofOption _ _

theorem within_readLedgerFile {sys sys' : Sys} {f : FileSpec} (h : ∀ n, fileOf sys f = some n → M n) :
    (Task.readLedgerFile sys' f).Within sys M T :=
  within_bind (within_readFile h) fun _ => within_ofOption _ _

theorem within_writeLedgerFile {sys sys' : Sys} {f : FileSpec} {L : Ledger} (h : ∀ n, fileOf sys f = some n → M n ∧ T n) :
    (Task.writeLedgerFile sys' f L).Within sys M T := ⟨h, fun _ => trivial⟩

/-- A command reads and writes no files but those that it is told to. -/
theorem task_within {sys : Sys} {o : Outside} {cmd : SubCommand} (hr : ∀ f n, Reads cmd f → fileOf sys f = some n → M n)
    (hw : ∀ f n, Target cmd f → fileOf sys f = some n → M n ∧ T n)
    (hrules : ∀ F F' : Nat → Option Bytes, (∀ n, M n → F n = F' n) → rulesFor F cmd = rulesFor F' cmd) :
    (cmd.task sys o).Within sys M T := by
  cases cmd with
  | applyRules rules input output =>
    refine within_bind ⟨fun F F' h => ?_, fun F => within_ofOption _ _⟩ fun table => ?_
    · show Task.ofOption _ (rules F) = Task.ofOption _ (rules F')
      rw [show rules F = rules F' from hrules F F' h]
    refine within_bind (within_readLedgerFile fun n => hr _ n rfl) fun L => within_bind (within_ofOption _ _) fun ts => ?_
    split
    · trivial
    · exact within_writeLedgerFile fun n => hw _ n rfl
  | format fs =>
    show (Task.fmt sys fs).Within sys M T
    replace hr : ∀ f ∈ fs, ∀ n, fileOf sys f = some n → M n := fun f hf n => hr f n hf
    replace hw : ∀ f ∈ fs, ∀ n, fileOf sys f = some n → M n ∧ T n := fun f hf n => hw f n hf
    clear hrules
    induction fs with
    | nil => trivial
    | cons f fs ih =>
      exact within_bind (within_readLedgerFile (hr f (by simp))) fun L => within_bind (within_writeLedgerFile (hw f (by simp)))
        fun _ => ih (fun g hg => hr g (by simp [hg])) fun g hg => hw g (by simp [hg])
  | generateFingerprints fs =>
    show (Task.fpGen sys _ fs).Within sys M T
    replace hr : ∀ f ∈ fs, ∀ n, fileOf sys f = some n → M n := fun f hf n => hr f n hf
    replace hw : ∀ f ∈ fs, ∀ n, fileOf sys f = some n → M n ∧ T n := fun f hf n => hw f n hf
    clear hrules
    induction fs with
    | nil => trivial
    | cons f fs ih =>
      exact within_bind (within_readLedgerFile (hr f (by simp))) fun L => within_bind (within_ofOption _ _) fun ts =>
        within_bind (t := .draw _ _) (fun _ => trivial) fun ts' => within_bind (within_writeLedgerFile (hw f (by simp)))
        fun _ => ih (fun g hg => hr g (by simp [hg])) fun g hg => hw g (by simp [hg])
  | importFrom source args =>
    refine within_bind ?_ fun imp => ?_
    · cases source with
      | nationwideCsv fpNs legacy input => exact within_bind (within_readBytes fun n => hr _ n rfl) fun _ => within_ofExcept _
      | nationwidePdf fpNs input programs => exact ⟨hr _ _ rfl rfl, fun _ => within_ofExcept _⟩
      | paypalCsv ns legacy input tz =>
        exact within_bind (within_readFile fun n => hr _ n (.inl rfl)) fun _ =>
          within_bind (within_readFile fun n => hr _ n (.inr rfl)) fun _ => within_ofExcept _
    · split
      · trivial
      · rename_i imp' _
        cases ho : ImportCmd.outputFor args imp'.userFpNamespace with
        | none => trivial
        | some f =>
          have hout := (C57_output _ _ _).1 ho
          show ((Task.makeDirs o.hasParent args f >>= fun _ => _).Within sys M T)
          refine within_bind ?_ fun _ => within_writeLedgerFile fun n => hw _ n ⟨_, hout⟩
          unfold Task.makeDirs
          split
          · split
            · trivial
            · split
              · exact fun _ => trivial
              · trivial
          · trivial
  | merge args =>
    refine within_bind ?_ fun acc => within_bind ?_ fun _ => ?_
    · have hr : ∀ f ∈ args.inputs, ∀ n, fileOf sys f = some n → M n := fun f hf n => hr f n hf
      generalize args.inputs = fs at hr
      generalize (⟨0, Merger.new, []⟩ : MergeCmd.Acc) = acc
      induction fs generalizing acc with
      | nil => trivial
      | cons f fs ih =>
        refine within_bind (within_readLedgerFile (hr f (by simp))) fun L => within_bind (within_ofOption _ _) fun ts => ?_
        split
        · trivial
        · exact ih (fun g hg => hr g (by simp [hg])) _
    · unfold Task.writeUnmerged
      split
      · trivial
      · split
        · rename_i f hf
          exact within_writeLedgerFile fun n => hw _ n (.inr hf)
        · trivial
    · split
      · trivial
      · exact within_writeLedgerFile fun n => hw _ n (.inl rfl)

/-- A step depends on nothing but the files that matter, and changes nothing but files that may be written to. -/
theorem step_within {p : Proc} {F F' : Nat → Option Bytes} (hp : p.doing.Within p.sys M T) (hF : ∀ n, M n → F n = F' n) :
    (p.step F).2 = (p.step F').2 ∧ (∀ n, M n → (p.step F).1 n = (p.step F').1 n) ∧ (p.step F).2.doing.Within p.sys M T ∧
      ∀ n, ¬ T n → (p.step F).1 n = F n := by
  obtain ⟨sys, w, d⟩ := p
  have set : ∀ n b m, M m → setFile F n b m = setFile F' n b m := by
    intro n b m hm
    unfold setFile
    rw [hF m hm]
  have unset : ∀ n b m, T n → ¬ T m → setFile F n b m = F m := by
    intro n b m hn hm
    unfold setFile
    rw [if_neg (fun h : m = n => hm (h ▸ hn))]
  cases d with
  | next t =>
    cases t with
    | done r => exact ⟨rfl, hF, hp, fun _ _ => rfl⟩
    | look q k =>
      refine ⟨?_, hF, hp.2 _, fun _ _ => rfl⟩
      simp only [Proc.step]
      rw [hF _ hp.1]
    | load k =>
      refine ⟨?_, hF, hp.2 _, fun _ _ => rfl⟩
      simp only [Proc.step]
      rw [hp.1 F F' hF]
    | draw d k => exact ⟨rfl, hF, hp _, fun _ _ => rfl⟩
    | dirs k =>
      simp only [Proc.step]
      cases sys.fault w.ops <;> exact ⟨rfl, hF, hp _, fun _ _ => rfl⟩
    | read f k =>
      cases f with
      | stdio =>
        simp only [Proc.step]
        cases sys.fault w.ops <;> exact ⟨rfl, hF, hp.2 _, fun _ _ => rfl⟩
      | path q =>
        simp only [Proc.step]
        rw [← hF _ (hp.1 _ rfl)]
        cases F (sys.file q) with
        | none => exact ⟨rfl, hF, hp.2 _, fun _ _ => rfl⟩
        | some b =>
          rcases sys.fault w.ops with _ | _ | m
          · exact ⟨rfl, hF, ⟨hp.1 _ rfl, hp.2⟩, fun _ _ => rfl⟩
          · exact ⟨rfl, hF, hp.2 _, fun _ _ => rfl⟩
          · exact ⟨rfl, hF, hp.2 _, fun _ _ => rfl⟩
    | write f bytes k =>
      cases f with
      | stdio =>
        simp only [Proc.step]
        cases sys.fault w.ops <;> exact ⟨rfl, hF, hp.2, fun _ _ => rfl⟩
      | path q =>
        simp only [Proc.step]
        rcases sys.fault w.ops with _ | _ | m
        · exact ⟨rfl, set _ _, ⟨hp.1 _ rfl, hp.2⟩, fun m hm => unset _ _ m (hp.1 _ rfl).2 hm⟩
        · exact ⟨rfl, hF, hp.2 _, fun _ _ => rfl⟩
        · exact ⟨rfl, set _ _, ⟨hp.1 _ rfl, hp.2⟩, fun m hm => unset _ _ m (hp.1 _ rfl).2 hm⟩
  | reading n got k =>
    simp only [Proc.step]
    rw [← hF _ hp.1]
    cases ((F n).getD [])[got.length]? with
    | none => exact ⟨rfl, hF, hp.2 _, fun _ _ => rfl⟩
    | some b => exact ⟨rfl, hF, hp, fun _ _ => rfl⟩
  | writing n pos rest r k =>
    cases rest with
    | nil => exact ⟨rfl, hF, hp.2 _, fun _ _ => rfl⟩
    | cons b rest =>
      simp only [Proc.step]
      rw [← hF _ hp.1.1]
      exact ⟨trivial, set _ _, hp, fun m hm => unset _ _ m hp.1.2 hm⟩
  | printing rest r k =>
    cases rest with
    | nil => exact ⟨rfl, hF, hp _, fun _ _ => rfl⟩
    | cons b rest => exact ⟨rfl, hF, hp, fun _ _ => rfl⟩

/-! ### Reading first -/

/-- The task reads nothing. -/
def Task.Blind {α : Type} : Task α → Prop
  | .done _ => True
  | .read _ _ => False
  | .look _ _ => False
  | .write _ _ k => ∀ r, (k r).Blind
  | .dirs k => ∀ r, (k r).Blind
  | .load _ => False
  | .draw _ k => ∀ r, (k r).Blind

/-- The task reads nothing once it has written. -/
def Task.First {α : Type} : Task α → Prop
  | .done _ => True
  | .read _ k => ∀ r, (k r).First
  | .look _ k => ∀ r, (k r).First
  | .write _ _ k => ∀ r, (k r).Blind
  | .dirs k => ∀ r, (k r).First
  | .load k => ∀ r, (k r).First
  | .draw _ k => ∀ r, (k r).First

theorem blind_bind {α β : Type} {t : Task α} {g : α → Task β} (h : t.Blind) (hg : ∀ a, (g a).Blind) : (t >>= g).Blind := by
  show (t.bind g).Blind
  induction t with
  | done r =>
    cases r with
    | error e => trivial
    | ok a => exact hg a
  | read f k ih => exact h.elim
  | look p k ih => exact h.elim
  | write f b k ih => exact fun r => ih r (h r)
  | dirs k ih => exact fun r => ih r (h r)
  | load k ih => exact h.elim
  | draw d k ih => exact fun r => ih r (h r)

/-- The task writes nothing. -/
def Task.Mute {α : Type} : Task α → Prop
  | .done _ => True
  | .read _ k => ∀ r, (k r).Mute
  | .look _ k => ∀ r, (k r).Mute
  | .write _ _ _ => False
  | .dirs k => ∀ r, (k r).Mute
  | .load k => ∀ r, (k r).Mute
  | .draw _ k => ∀ r, (k r).Mute

theorem first_bind {α β : Type} {t : Task α} {g : α → Task β} (h : t.Mute) (hg : ∀ a, (g a).First) : (t >>= g).First := by
  show (t.bind g).First
  induction t with
  | done r =>
    cases r with
    | error e => trivial
    | ok a => exact hg a
  | read f k ih => exact fun r => ih r (h r)
  | look p k ih => exact fun r => ih r (h r)
  | write f b k ih => exact h.elim
  | dirs k ih => exact fun r => ih r (h r)
  | load k ih => exact fun r => ih r (h r)
  | draw d k ih => exact fun r => ih r (h r)

theorem mute_bind {α β : Type} {t : Task α} {g : α → Task β} (h : t.Mute) (hg : ∀ a, (g a).Mute) : (t >>= g).Mute := by
  show (t.bind g).Mute
  induction t with
  | done r =>
    cases r with
    | error e => trivial
    | ok a => exact hg a
  | read f k ih => exact fun r => ih r (h r)
  | look p k ih => exact fun r => ih r (h r)
  | write f b k ih => exact h.elim
  | dirs k ih => exact fun r => ih r (h r)
  | load k ih => exact fun r => ih r (h r)
  | draw d k ih => exact fun r => ih r (h r)

theorem first_bind_blind {α β : Type} {t : Task α} {g : α → Task β} (h : t.First) (hg : ∀ a, (g a).Blind) (hg' : ∀ a, (g a).First) :
    (t >>= g).First := by
  show (t.bind g).First
  induction t with
  | done r =>
    cases r with
    | error e => trivial
    | ok a => exact hg' a
  | read f k ih => exact fun r => ih r (h r)
  | look p k ih => exact fun r => ih r (h r)
  | write f b k ih => exact fun r => blind_bind (h r) hg
  | dirs k ih => exact fun r => ih r (h r)
  | load k ih => exact fun r => ih r (h r)
  | draw d k ih => exact fun r => ih r (h r)

theorem mute_ofOption {α : Type} (e : CmdErr) (x : Option α) : (Task.ofOption e x).Mute := by
  cases x <;> trivial

theorem mute_ofExcept {ε α : Type} (x : Except ε α) : (Task.ofExcept x).Mute := by
  cases x <;> trivial

theorem mute_readFile (f : FileSpec) : (Task.readFile f).Mute := mute_bind (t := Task.readBytes f) (fun _ => trivial) fun _ => mute_ofOption _ _

theorem mute_readLedgerFile (sys : Sys) (f : FileSpec) : (Task.readLedgerFile sys f).Mute :=
  mute_bind (mute_readFile f) fun _ => mute_ofOption _ _

theorem first_writeLedgerFile (sys : Sys) (f : FileSpec) (L : Ledger) : (Task.writeLedgerFile sys f L).First := fun _ => trivial

theorem blind_writeLedgerFile (sys : Sys) (f : FileSpec) (L : Ledger) : (Task.writeLedgerFile sys f L).Blind := fun _ => trivial

theorem task_first {cmd : SubCommand} (h : ReadsFirst cmd) (sys : Sys) (o : Outside) : (cmd.task sys o).First := by
  cases cmd with
  | applyRules rules input output =>
    refine first_bind (fun _ => mute_ofOption _ _) fun table => first_bind (mute_readLedgerFile _ _) fun L =>
      first_bind (mute_ofOption _ _) fun ts => ?_
    split
    · trivial
    · exact first_writeLedgerFile _ _ _
  | format fs =>
    match fs, h with
    | [], _ => trivial
    | [f], _ =>
      exact first_bind (mute_readLedgerFile _ _) fun L => first_bind_blind (first_writeLedgerFile _ _ _) (fun _ => trivial) fun _ => trivial
  | generateFingerprints fs =>
    match fs, h with
    | [], _ => trivial
    | [f], _ =>
      exact first_bind (mute_readLedgerFile _ _) fun L => first_bind (mute_ofOption _ _) fun ts => first_bind (t := .draw _ _) (fun _ => trivial)
        fun _ => first_bind_blind (first_writeLedgerFile _ _ _) (fun _ => trivial) fun _ => trivial
  | importFrom source args =>
    refine first_bind ?_ fun imp => ?_
    · cases source with
      | nationwideCsv fpNs legacy input => exact mute_bind (t := Task.readBytes input) (fun _ => trivial) fun _ => mute_ofExcept _
      | nationwidePdf fpNs input programs => exact fun _ => mute_ofExcept _
      | paypalCsv ns legacy input tz => exact mute_bind (mute_readFile _) fun _ => mute_bind (mute_readFile _) fun _ => mute_ofExcept _
    · split
      · trivial
      · refine first_bind (mute_ofOption _ _) fun f => first_bind ?_ fun _ => first_writeLedgerFile _ _ _
        unfold Task.makeDirs
        split
        · split
          · trivial
          · split
            · exact fun _ => trivial
            · trivial
        · trivial
  | merge args =>
    refine first_bind ?_ fun acc => first_bind_blind ?_ ?_ ?_
    · generalize (⟨0, Merger.new, []⟩ : MergeCmd.Acc) = acc
      generalize args.inputs = fs
      induction fs generalizing acc with
      | nil => trivial
      | cons f fs ih =>
        refine mute_bind (mute_readLedgerFile _ _) fun L => mute_bind (mute_ofOption _ _) fun ts => ?_
        split
        · trivial
        · exact ih _
    · unfold Task.writeUnmerged
      split
      · trivial
      · split
        · exact first_writeLedgerFile _ _ _
        · trivial
    · intro _
      split
      · trivial
      · exact blind_writeLedgerFile _ _ _
    · intro _
      split
      · trivial
      · exact first_writeLedgerFile _ _ _

/-- A task that reads nothing does the same whatever the files are. -/
theorem blind_prog {α : Type} {t : Task α} (h : t.Blind) (sys : Sys) (F F' : Nat → Option Bytes) (w : World) :
    t.prog { sys with start := F } w = t.prog { sys with start := F' } w := by
  induction t generalizing w with
  | done r => rfl
  | read f k ih => exact h.elim
  | look p k ih => exact h.elim
  | load k ih => exact h.elim
  | write f b k ih => exact ih _ (h _) _
  | dirs k ih => exact ih _ (h _) _
  | draw d k ih => exact ih _ (h _) _

/-- A process comes to the point where it has read all that it reads, and has done nothing that can be seen. -/
theorem reach_blind {t : Task Unit} (h : t.First) (F : Nat → Option Bytes) (sys : Sys) (w : World) (hw : w.log = []) :
    ∃ w' t', Reaches (F, ⟨sys, w, .next t⟩) (F, ⟨sys, w', .next t'⟩) ∧ t'.Blind ∧ w'.log = [] ∧
      t'.prog { sys with start := F } w' = t.prog { sys with start := F } w := by
  have hF : contentsAfter F w.log = F := by rw [hw]; rfl
  induction t generalizing w with
  | done r => exact ⟨w, _, .refl _, trivial, hw, rfl⟩
  | look p k ih =>
    obtain ⟨w', t', h1, h2, h3, h4⟩ := ih _ (h _) w hw hF
    exact ⟨w', t', .first h1, h2, h3, by rw [h4]; show _ = (k (contentsAfter F w.log (sys.file p))).prog _ w; rw [hF]⟩
  | load k ih =>
    obtain ⟨w', t', h1, h2, h3, h4⟩ := ih _ (h _) w hw hF
    exact ⟨w', t', .first h1, h2, h3, by rw [h4]; show _ = (k (contentsAfter F w.log)).prog _ w; rw [hF]⟩
  | draw d k ih =>
    obtain ⟨w', t', h1, h2, h3, h4⟩ := ih _ (h _) { w with drawn := d w.drawn } hw hF
    exact ⟨w', t', .first h1, h2, h3, h4⟩
  | dirs k ih =>
    have key : (⟨sys, w, .next (.dirs k)⟩ : Proc).step F = (F, ⟨sys, (ImportCmd.createDirs { sys with start := F } w).2,
        .next (k (ImportCmd.createDirs { sys with start := F } w).1)⟩) := by
      simp only [Proc.step, ImportCmd.createDirs, Proc.op]
      cases sys.fault w.ops <;> rfl
    have hlog : (ImportCmd.createDirs { sys with start := F } w).2.log = w.log := by
      simp only [ImportCmd.createDirs]; cases sys.fault w.ops <;> rfl
    obtain ⟨w', t', h1, h2, h3, h4⟩ := ih _ (h (ImportCmd.createDirs { sys with start := F } w).1) _ (hlog.trans hw) (by rw [hlog]; exact hF)
    exact ⟨w', t', .first (by rw [show ((F, (⟨sys, w, .next (.dirs k)⟩ : Proc)).2.step F) = _ from key]; exact h1), h2, h3, h4⟩
  | write f b k ih => exact ⟨w, _, .refl _, h, hw, rfl⟩
  | read f k ih =>
    have hlog : (Files.readBytes { sys with start := F } f w).2.log = w.log := by
      cases f with
      | stdio => simp only [Files.readBytes]; cases sys.fault w.ops <;> rfl
      | path p =>
        simp only [Files.readBytes]
        cases contentsAfter F w.log (sys.file p) with
        | none => rfl
        | some b => rcases sys.fault w.ops with _ | _ | m <;> rfl
    obtain ⟨w', t', h1, h2, h3, h4⟩ := ih _ (h (Files.readBytes { sys with start := F } f w).1) _ (hlog.trans hw) (by rw [hlog]; exact hF)
    refine ⟨w', t', .trans ?_ h1, h2, h3, h4⟩
    apply Reaches.first
    cases f with
    | stdio => simp only [Proc.step, Files.readBytes]; cases sys.fault w.ops <;> exact .refl _
    | path p =>
      simp only [Proc.step, Files.readBytes, Proc.op, hF]
      cases hb : F (sys.file p) with
      | none => exact .refl _
      | some b =>
        rcases sys.fault w.ops with _ | _ | m
        · exact reach_reading b [] hb
        · exact .refl _
        · exact .refl _

/-- In one step a process has at most one effect. -/
theorem step_log_length (F : Nat → Option Bytes) (p : Proc) : (p.step F).2.world.log.length ≤ p.world.log.length + 1 := by
  unfold Proc.step
  split <;> (try split) <;> simp [Proc.op, Proc.did]

/-- There is a moment when a process that is alone has done just so much. -/
theorem solo_moment (s : (Nat → Option Bytes) × Proc) (N : Nat) (k : Nat) (h1 : s.2.world.log.length ≤ k)
    (h2 : k ≤ (solo N s).2.world.log.length) : ∃ m ≤ N, (solo m s).2.world.log.length = k := by
  induction N with
  | zero => exact ⟨0, Nat.le_refl _, Nat.le_antisymm h1 h2⟩
  | succ N ih =>
    by_cases h : k ≤ (solo N s).2.world.log.length
    · obtain ⟨m, hm, e⟩ := ih h
      exact ⟨m, Nat.le_succ_of_le hm, e⟩
    · refine ⟨N + 1, Nat.le_refl _, ?_⟩
      have := step_log_length (solo N s).1 (solo N s).2
      rw [← solo_succ] at this
      omega

end Verif
