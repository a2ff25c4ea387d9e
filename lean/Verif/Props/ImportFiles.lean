import Verif.Spec.ImportFiles
import Verif.Props.Encoding
import Verif.Props.Pipeline

/-!
# C79: the command `import`, from files
-/

namespace Verif
open Spec Spec.Book Spec.Rules Verif.Rules

theorem decode_some {b : Bytes} {s : Str} : decodeUtf8 b = some s ↔ b = encodeUtf8 s := by
  constructor
  · intro h
    unfold decodeUtf8 at h
    obtain ⟨a, ha, rfl⟩ := Option.map_eq_some_iff.1 h
    have h1 := ByteArray.utf8Encode_get_utf8Decode? (b := b.toByteArray) (h := by rw [ha]; rfl)
    simp only [ha, Option.get_some] at h1
    have h2 := h1.trans rfl
    rw [← encodeUtf8_eq] at h2
    have h3 := congrArg (fun x => x.data.toList) h2
    simpa using h3.symm
  · rintro rfl; exact decode_encode s

/-- Reading a text is reading bytes and decoding them. -/
theorem readFile_eq (sys : Sys) (f : FileSpec) :
    Files.readFile sys f = (do let b ← Files.readBytes sys f; Prog.ofOption .utf8 (decodeUtf8 b)) := by
  funext w
  show _ = Prog.bind _ _ w
  unfold Files.readFile Files.readBytes Prog.bind
  cases f with
  | stdio => simp only; cases sys.fault w.ops <;> rfl
  | path p =>
    simp only
    cases contentsAfter sys.start w.log (sys.file p) with
    | none => rfl
    | some b =>
      simp only
      rcases sys.fault w.ops with _ | _ | _ <;> rfl

theorem readBytes_sat (sys : Sys) (f : FileSpec) (w : World) (h : w.log = []) :
    Sat (Files.readBytes sys f) w
      (fun b w' => w'.log = [] ∧ w'.drawn = w.drawn ∧ w'.stdinRead = (w.stdinRead || decide (f = .stdio)) ∧ bytesAt sys w.stdinRead f = some b)
      (fun _ w' => w'.log = [] ∧ ((∀ n, sys.fault n = none) → bytesAt sys w.stdinRead f = none)) := by
  unfold Sat Files.readBytes
  cases f with
  | stdio =>
    simp only [bytesAt, fileOf]
    cases hf : sys.fault w.ops with
    | some k => exact ⟨h, fun hn => by rw [hn] at hf; cases hf⟩
    | none => exact ⟨h, rfl, by simp, rfl⟩
  | path p =>
    simp only [bytesAt, fileOf, h, contentsAfter]
    cases hs : sys.start (sys.file p) with
    | none => simp
    | some b =>
      simp only
      rcases hf : sys.fault w.ops with _ | _ | _
      · exact ⟨rfl, rfl, by simp, rfl⟩
      · exact ⟨rfl, fun hn => by rw [hn] at hf; cases hf⟩
      · exact ⟨rfl, fun hn => by rw [hn] at hf; cases hf⟩

theorem ofExcept_sat {ε α : Type} {r : Except ε α} {w : World} {ok : α → World → Prop} {err} (h1 : ∀ a, r = .ok a → ok a w)
    (h2 : ∀ e, r = .error e → err .other w) : Sat (ImportCmd.ofExcept r) w ok err := by
  cases r with
  | error e => exact h2 e rfl
  | ok a => exact h1 a rfl

/-- The files are read as they are before, and nothing is written. -/
theorem importer_sat (sys : Sys) (source : ImportCmd.Source) :
    Sat (source.importer sys) World.start (fun importer w' => w'.log = [] ∧ w'.drawn = 0 ∧ ReadsFrom sys source importer)
      (fun _ w' => w'.log = [] ∧ ((∀ n, sys.fault n = none) → ∀ importer, ¬ ReadsFrom sys source importer)) := by
  cases source with
  | nationwideCsv fpNs legacy input =>
    unfold ImportCmd.Source.importer
    apply Sat.bind
    refine (readBytes_sat sys input World.start rfl).imp ?_ ?_
    · rintro b w ⟨h1, h2, h3, h4⟩
      refine ofExcept_sat (fun a ha => ⟨h1, h2, .nationwideCsv h4 ha⟩) (fun e he => ⟨h1, fun _ importer hr => ?_⟩)
      cases hr with
      | nationwideCsv h5 h6 =>
        rw [show World.start.stdinRead = false from rfl] at h4
        rw [h4] at h5
        cases h5
        rw [he] at h6
        cases h6
    · rintro e w ⟨h1, h2⟩
      refine ⟨h1, fun hn importer hr => ?_⟩
      cases hr with
      | nationwideCsv h5 h6 => rw [show bytesAt sys false input = none from h2 hn] at h5; cases h5
  | nationwidePdf fpNs input programs =>
    show Sat (ImportCmd.ofExcept ((Ocr.ocrDocument (programs (sys.start (sys.file input)))).map _)) World.start _ _
    cases hd : Ocr.ocrDocument (programs (sys.start (sys.file input))) with
    | error e =>
      refine ⟨rfl, fun _ importer hr => ?_⟩
      cases hr with
      | nationwidePdf h => rw [hd] at h; cases h
    | ok doc => exact ⟨rfl, rfl, .nationwidePdf hd⟩
  | paypalCsv ns legacy input tz =>
    show Sat (Files.readFile sys input >>= fun text => Files.readFile sys tz >>= fun tzText =>
      ImportCmd.ofExcept (ImportCmd.Texts.paypalCsv ns legacy text tzText).importer) World.start _ _
    simp only [readFile_eq]
    apply Sat.bind
    apply Sat.bind
    refine (readBytes_sat sys input World.start rfl).imp ?_ ?_
    · rintro b w ⟨h1, h2, h3, h4⟩
      rw [show World.start.stdinRead = false from rfl, Bool.false_or] at h3
      rw [show World.start.stdinRead = false from rfl] at h4
      apply Sat.ofOption
      · intro text ht
        rw [decode_some] at ht
        subst ht
        apply Sat.bind
        apply Sat.bind
        refine (readBytes_sat sys tz w h1).imp ?_ ?_
        · rintro b w' ⟨h1', h2', h3', h4'⟩
          rw [h3] at h4'
          apply Sat.ofOption
          · intro tzText ht
            rw [decode_some] at ht
            subst ht
            refine ofExcept_sat (fun a ha => ⟨h1', h2'.trans h2, .paypalCsv h4 h4' ha⟩) (fun e he => ⟨h1', fun _ importer hr => ?_⟩)
            cases hr with
            | paypalCsv h5 h6 h7 =>
              rw [h4] at h5
              rw [h4'] at h6
              cases encodeUtf8_inj (Option.some.inj h5)
              cases encodeUtf8_inj (Option.some.inj h6)
              rw [he] at h7
              cases h7
          · intro hnone
            refine ⟨h1', fun _ importer hr => ?_⟩
            cases hr with
            | paypalCsv h5 h6 h7 =>
              rw [h4'] at h6
              cases h6
              rw [decode_encode] at hnone
              cases hnone
        · rintro e w' ⟨h1', h2'⟩
          refine ⟨h1', fun hn importer hr => ?_⟩
          cases hr with
          | paypalCsv h5 h6 h7 =>
            rw [← h3, h2' hn] at h6
            cases h6
      · intro hnone
        refine ⟨h1, fun _ importer hr => ?_⟩
        cases hr with
        | paypalCsv h5 h6 h7 =>
          rw [h4] at h5
          cases h5
          rw [decode_encode] at hnone
          cases hnone
    · rintro e w ⟨h1, h2⟩
      refine ⟨h1, fun hn importer hr => ?_⟩
      cases hr with
      | paypalCsv h5 h6 h7 => rw [show bytesAt sys false input = none from h2 hn] at h5; cases h5

/-- What is read is determined by the files. -/
theorem readsFrom_unique {sys : Sys} {source : ImportCmd.Source} {a b : ImportCmd.Importer} (ha : ReadsFrom sys source a)
    (hb : ReadsFrom sys source b) : a = b := by
  cases ha with
  | nationwideCsv h1 h2 =>
    cases hb with
    | nationwideCsv h3 h4 =>
      rw [h1] at h3
      cases h3
      rw [h2] at h4
      cases h4
      rfl
  | nationwidePdf h1 =>
    cases hb with
    | nationwidePdf h2 =>
      rw [h1] at h2
      cases h2
      rfl
  | paypalCsv h1 h2 h3 =>
    cases hb with
    | paypalCsv h4 h5 h6 =>
      rw [h1] at h4
      rw [h2] at h5
      cases encodeUtf8_inj (Option.some.inj h4)
      cases encodeUtf8_inj (Option.some.inj h5)
      rw [h3] at h6
      cases h6
      rfl

theorem runFiles_sat (sys : Sys) (L : ImportLib) (hasParent : Str → Bool) (source : ImportCmd.Source) (args : ImportCmd.Args) :
    Sat (ImportCmd.runFiles sys L hasParent source args) World.start
      (fun _ w' => FitTogether args ∧ ∃ importer imp f, ReadsFrom sys source importer ∧ Imports sys L importer args imp f w'.log)
      (fun _ w' => (∃ importer imp f es, ReadsFrom sys source importer ∧ Imports sys L importer args imp f es ∧ w'.log <+: es) ∧
          (¬ ∀ n, sys.fault n = none) ∨
        w'.log = [] ∧ ((∀ n, sys.fault n = none) →
          (∀ importer imp, ReadsFrom sys source importer → importer.doImport L ≠ .ok imp) ∨ ¬ FitTogether args)) := by
  unfold ImportCmd.runFiles
  apply Sat.bind
  refine (importer_sat sys source).imp ?_ ?_
  · rintro importer w ⟨h1, _, h2⟩
    refine (import_sat sys L hasParent importer args w).imp ?_ ?_
    · rintro _ w' ⟨h3, imp, f, es, h4, h5⟩
      rw [h1, List.nil_append] at h5
      exact ⟨h3, importer, imp, f, h2, by rw [h5]; exact h4⟩
    · rintro e w' (⟨⟨imp, f, es, n, h3, h4⟩, h5⟩ | ⟨h3, h4⟩)
      · rw [h1, List.nil_append] at h4
        exact .inl ⟨⟨importer, imp, f, es, h2, h3, by rw [h4]; exact List.take_prefix _ _⟩, h5⟩
      · refine .inr ⟨h3.trans h1, fun hn => ?_⟩
        rcases h4 hn with ⟨e, he⟩ | h4
        · refine .inl fun importer' imp hr hi => ?_
          cases readsFrom_unique h2 hr
          rw [he] at hi
          cases hi
        · exact .inr h4
  · rintro e w ⟨h1, h2⟩
    exact .inr ⟨h1, fun hn => .inl fun importer imp hr _ => h2 hn importer hr⟩

/-- **C79.** A single hyphen stands for standard input and output; every other argument is the path of a file. -/
theorem C79_argument (s : Str) : (FileSpec.fromStr s = .stdio ↔ s = "-".toList) ∧ ∀ p, FileSpec.fromStr s = .path p ↔ s = p ∧ s ≠ "-".toList := by
  unfold FileSpec.fromStr
  rw [show "-".toList = ['-'] from rfl]
  refine ⟨?_, fun p => ?_⟩ <;> split_ifs with h <;> simp [h]

/-- The file with the name `-` can be given too. -/
example : FileSpec.fromStr "./-".toList = .path "./-".toList ∧ FileSpec.fromStr "-".toList = .stdio ∧ FileSpec.fromStr [] = .path [] := by decide

/-- **C79.** If the command succeeds then it has written, in full, what is imported from the files as they were before the command was
started, and nothing else. If it fails then it has written nothing, or a part of that. -/
theorem C79_run (sys : Sys) (L : ImportLib) (hasParent : Str → Bool) (source : ImportCmd.Source) (args : ImportCmd.Args) :
    match (ImportCmd.runFiles sys L hasParent source args World.start).1 with
    | .ok _ => ∃ importer imp f, ReadsFrom sys source importer ∧
        Imports sys L importer args imp f (ImportCmd.runFiles sys L hasParent source args World.start).2.log
    | .error _ => (ImportCmd.runFiles sys L hasParent source args World.start).2.log = [] ∨
        ∃ importer imp f es, ReadsFrom sys source importer ∧ Imports sys L importer args imp f es ∧
          (ImportCmd.runFiles sys L hasParent source args World.start).2.log <+: es := by
  have hs := runFiles_sat sys L hasParent source args
  rcases hr : ImportCmd.runFiles sys L hasParent source args World.start with ⟨e | ⟨⟩, w⟩
  · rcases hs.err hr with ⟨h, _⟩ | ⟨h, _⟩
    · exact .inr h
    · exact .inl h
  · exact (hs.ok hr).2

/-- **C79.** When no operation on files fails, the command succeeds exactly if the files are there and can be read and imported, and the
options fit together. -/
theorem C79_succeeds_iff (sys : Sys) (L : ImportLib) (hasParent : Str → Bool) (source : ImportCmd.Source) (args : ImportCmd.Args)
    (hf : ∀ n, sys.fault n = none) :
    (ImportCmd.runFiles sys L hasParent source args World.start).1 = .ok () ↔
      (∃ importer imp, ReadsFrom sys source importer ∧ importer.doImport L = .ok imp) ∧ FitTogether args := by
  have hs := runFiles_sat sys L hasParent source args
  rcases hr : ImportCmd.runFiles sys L hasParent source args World.start with ⟨e | ⟨⟩, w⟩
  · refine ⟨fun h => (by simp at h), ?_⟩
    rintro ⟨⟨importer, imp, h1, h2⟩, h3⟩
    rcases hs.err hr with ⟨_, h⟩ | ⟨_, h⟩
    · exact absurd hf h
    · rcases h hf with h | h
      · exact absurd h2 (h importer imp h1)
      · exact absurd h3 h
  · obtain ⟨h1, importer, imp, f, h2, h3⟩ := hs.ok hr
    exact ⟨fun _ => ⟨⟨importer, imp, h2, h3.1⟩, h1⟩, fun _ => rfl⟩

/-- **C79.** The output can be one of the files that are read: at the end it contains all that is imported from what it contained
before. No other file is changed. -/
theorem C79_contents {sys : Sys} {L : ImportLib} {hasParent : Str → Bool} {source : ImportCmd.Source} {args : ImportCmd.Args} {w : World}
    (h : ImportCmd.runFiles sys L hasParent source args World.start = (.ok (), w)) :
    ∃ importer imp f, ReadsFrom sys source importer ∧ importer.doImport L = .ok imp ∧ WritesTo args imp.userFpNamespace f ∧
      ∀ n, contentsAfter sys.start w.log n =
        if fileOf sys f = some n then some (encodeUtf8 (sys.render (ledgerFromTransactions imp.transactions))) else sys.start n := by
  obtain ⟨_, importer, imp, f, h1, h2, h3, _, h4⟩ := (runFiles_sat sys L hasParent source args).ok h
  exact ⟨importer, imp, f, h1, h2, h3, fun n => by rw [h4, contentsAfter_whole]⟩

/-- C59 and C60, from files: at each moment of the run each file is as before or a part of what it will be, only the output is touched, and
the files that are read are complete until everything that is imported has been read. -/
theorem C79_crash (sys : Sys) (L : ImportLib) (hasParent : Str → Bool) (source : ImportCmd.Source) (args : ImportCmd.Args) :
    CrashSafe sys (ImportCmd.runFiles sys L hasParent source args World.start).1
      (ImportCmd.runFiles sys L hasParent source args World.start).2.log ∧
    ∀ importer imp f, ReadsFrom sys source importer → importer.doImport L = .ok imp → WritesTo args imp.userFpNamespace f →
      LosesNothingBetweenWrites sys [f] (ImportCmd.runFiles sys L hasParent source args World.start).1
        (ImportCmd.runFiles sys L hasParent source args World.start).2.log := by
  have hplan : ∃ plan : List (FileSpec × Str),
      (∀ e ∈ plan, ∃ importer imp, ReadsFrom sys source importer ∧ importer.doImport L = .ok imp ∧ WritesTo args imp.userFpNamespace e.1) ∧
      (ImportCmd.runFiles sys L hasParent source args World.start).2.log <+: wholeWrites sys plan ∧
      ((ImportCmd.runFiles sys L hasParent source args World.start).1 = .ok () →
        (ImportCmd.runFiles sys L hasParent source args World.start).2.log = wholeWrites sys plan) := by
    have h := C79_run sys L hasParent source args
    have key : ∀ {importer imp f es}, ReadsFrom sys source importer → Imports sys L importer args imp f es →
        ∃ plan : List (FileSpec × Str),
          (∀ e ∈ plan, ∃ importer imp, ReadsFrom sys source importer ∧ importer.doImport L = .ok imp ∧ WritesTo args imp.userFpNamespace e.1) ∧
          es = wholeWrites sys plan := by
      rintro importer imp f es hr ⟨h1, h2, _, h3⟩
      refine ⟨[(f, sys.render (ledgerFromTransactions imp.transactions))], ?_, by rw [h3]; simp [wholeWrites]⟩
      intro e he
      rw [List.mem_singleton] at he
      exact ⟨importer, imp, hr, h1, by rw [he]; exact h2⟩
    rcases hr : ImportCmd.runFiles sys L hasParent source args World.start with ⟨e | ⟨⟩, w⟩
    · rw [hr] at h
      rcases h with h | ⟨importer, imp, f, es, h1, h2, h3⟩
      · exact ⟨[], by simp, by rw [h]; exact List.nil_prefix, fun h => by cases h⟩
      · obtain ⟨plan, h4, rfl⟩ := key h1 h2
        exact ⟨plan, h4, h3, fun h => by cases h⟩
    · rw [hr] at h
      obtain ⟨importer, imp, f, h1, h2⟩ := h
      obtain ⟨plan, h3, h4⟩ := key h1 h2
      exact ⟨plan, h3, by rw [h4]; exact List.prefix_rfl, fun _ => h4⟩
  obtain ⟨plan, h0, h1, h2⟩ := hplan
  refine ⟨crashSafe_of_plan h1 h2, fun importer imp f hr hi hw => losesNothing_of_plan h1 h2 (fun e he => ?_)⟩
  obtain ⟨importer', imp', g1, g2, g3⟩ := h0 e he
  cases readsFrom_unique hr g1
  rw [hi] at g2
  cases g2
  rw [← C57_output] at hw g3
  rw [hw] at g3
  cases g3
  exact List.mem_singleton_self _

/-- **C79.** What is imported depends on nothing but the contents of the files that are read: where they are, what other files there are
and in which order faults occur does not matter. -/
theorem C79_nationwide_csv {sys : Sys} {L : ImportLib} {fpNs : Nationwide.FpNamespace} {legacy : Bool} {input : FileSpec}
    {importer : ImportCmd.Importer} (h : ReadsFrom sys (.nationwideCsv fpNs legacy input) importer) :
    ∃ b, bytesAt sys false input = some b ∧
      importer.doImport L = (ImportCmd.Texts.nationwideCsv fpNs legacy (Windows1252.decode b)).doImport L := by
  cases h with
  | nationwideCsv h1 h2 => exact ⟨_, h1, by rw [ImportCmd.Texts.doImport, h2]⟩

/-! ### The other commands, one after the other -/

/-- The system in which the operations so far do not count. -/
def laterSys (sys : Sys) (w : World) : Sys := { sys with fault := fun n => sys.fault (w.ops + n) }

theorem run_later (sys : Sys) (L : ImportLib) (hasParent : Str → Bool) (importer : ImportCmd.Importer) (args : ImportCmd.Args) {w : World}
    (hw : w.log = []) :
    (ImportCmd.run sys L hasParent importer args w).1 = (ImportCmd.run (laterSys sys w) L hasParent importer args World.start).1 ∧
    (ImportCmd.run sys L hasParent importer args w).2.log = (ImportCmd.run (laterSys sys w) L hasParent importer args World.start).2.log := by
  have hwrite : ∀ (f : FileSpec) (text : Str) (n : Nat) (w1 w2 : World), w1.log = [] → w2.log = [] → w1.ops = w.ops + n → w2.ops = n →
      (Files.writeFile sys f text w1).1 = (Files.writeFile (laterSys sys w) f text w2).1 ∧
      (Files.writeFile sys f text w1).2.log = (Files.writeFile (laterSys sys w) f text w2).2.log := by
    intro f text n w1 w2 h1 h2 h3 h4
    unfold Files.writeFile
    rw [h3, h4, h1, h2]
    show _ ∧ _
    simp only [laterSys]
    cases f with
    | stdio => cases sys.fault (w.ops + n) <;> exact ⟨rfl, rfl⟩
    | path p => rcases sys.fault (w.ops + n) with _ | _ | _ <;> exact ⟨rfl, rfl⟩
  unfold ImportCmd.run
  cases importer.doImport L with
  | error e => exact ⟨rfl, hw⟩
  | ok imp =>
    simp only
    cases ImportCmd.outputFor args imp.userFpNamespace with
    | none => exact ⟨rfl, hw⟩
    | some f =>
      show (Prog.bind (ImportCmd.makeDirs sys hasParent args f) _ w).1 = (Prog.bind (ImportCmd.makeDirs (laterSys sys w) hasParent args f) _ World.start).1 ∧ _ =
        (Prog.bind (ImportCmd.makeDirs (laterSys sys w) hasParent args f) _ World.start).2.log
      show _ ∧ (Prog.bind (ImportCmd.makeDirs sys hasParent args f) _ w).2.log = _
      unfold Prog.bind ImportCmd.makeDirs
      split_ifs
      · cases f with
        | stdio => exact ⟨rfl, hw⟩
        | path p =>
          simp only
          split_ifs
          · unfold ImportCmd.createDirs
            rw [show (laterSys sys w).fault World.start.ops = sys.fault w.ops from rfl]
            cases sys.fault w.ops with
            | some k => exact ⟨rfl, hw⟩
            | none => exact hwrite _ _ 1 _ _ hw rfl rfl rfl
          · exact hwrite _ _ 0 _ _ hw rfl rfl rfl
      · exact hwrite _ _ 0 _ _ hw rfl rfl rfl

/-- As `Prepared`, but from the files of the statement: it is imported to the file `raw`, and rules are applied to it with the result in
the file `ruled`. -/
structure PreparedFrom (sys : Sys) (L : ImportLib) (source : ImportCmd.Source) (lower : Str → Str) (T : Table) (raw ruled : Str)
    (imp : Import) (next : Sys) where
  args : ImportCmd.Args
  hasParent : Str → Bool
  fuel : Nat
  order : HashOrder
  w1 : World
  w2 : World
  between : Sys
  importer : ImportCmd.Importer
  reads : ReadsFrom sys source importer
  imports : importer.doImport L = .ok imp
  output : WritesTo args imp.userFpNamespace (.path raw)
  run1 : ImportCmd.runFiles sys L hasParent source args World.start = (.ok (), w1)
  between_eq : ∃ i f r, between = sysAfter sys w1.log i f r
  run2 : applyRules between order lower fuel (some T) (.path raw) (.path ruled) World.start = (.ok (), w2)
  next_eq : ∃ i f r, next = sysAfter between w2.log i f r

/-- The printed ledgers that are read by the next command are read as they were printed. -/
structure PreparedFrom.Faithful {sys L source lower T raw ruled imp next} (P : PreparedFrom sys L source lower T raw ruled imp next) :
    Prop where
  raw : sys.parse (sys.render (ledgerFromTransactions imp.transactions)) = some (ledgerFromTransactions imp.transactions)
  ruled : ∀ ts, T.updateTransactions lower P.fuel imp.postings = .ok ts →
    sys.parse (sys.render (TransactionPostings.intoLedger P.order ts)) = some (TransactionPostings.intoLedger P.order ts)

section
variable {sys : Sys} {L : ImportLib} {source : ImportCmd.Source} {lower : Str → Str} {T : Table} {raw ruled merged : Str}
  {before after : List FileSpec} {imp : Import} {next : Sys} {files : Nat → Option Bytes}

theorem PreparedFrom.prepared (P : PreparedFrom sys L source lower T raw ruled imp next) (hF : P.Faithful) :
    ∃ w, ∃ P' : Prepared (laterSys sys w) L P.importer lower T raw ruled imp next, P'.Faithful := by
  have h1 := P.run1
  change Prog.bind (source.importer sys) _ World.start = _ at h1
  unfold Prog.bind at h1
  have hs := importer_sat sys source
  rcases hi : source.importer sys World.start with ⟨e | importer, w⟩
  · rw [hi] at h1; cases h1
  · rw [hi] at h1
    obtain ⟨hlog, _, hr⟩ := hs.ok hi
    cases readsFrom_unique P.reads hr
    simp only at h1
    obtain ⟨h2, h3⟩ := run_later sys L P.hasParent P.importer P.args hlog
    rw [h1] at h2 h3
    simp only at h2 h3
    rcases hrun : ImportCmd.run (laterSys sys w) L P.hasParent P.importer P.args World.start with ⟨res, w1⟩
    rw [hrun] at h2 h3
    simp only at h2 h3
    subst h2
    obtain ⟨i, f, r, hb⟩ := P.between_eq
    refine ⟨w, ⟨P.args, P.hasParent, P.fuel, P.order, w1, P.w2, P.between, P.imports, P.output, hrun, ⟨i, f, r, ?_⟩, P.run2, P.next_eq⟩, ?_⟩
    · rw [hb, h3]; rfl
    · exact ⟨hF.raw, hF.ruled⟩

/-- **C79.** From a statement to the journal, through files (C72 from the contents of the files of the statement): whatever the statement
is, every imported transaction is in the written journal, recognised by all fingerprints of all its postings. -/
theorem C79_nothing_lost (P : PreparedFrom sys L source lower T raw ruled imp next) (hF : P.Faithful)
    (hM : Merges next before ruled after merged files) (hT : LeavesFingerprints T) (hT' : PlainTable T) :
    ∃ js h, files (sys.file merged) = some (encodeUtf8 (sys.render (TransactionPostings.intoLedger h js))) ∧
      (∀ t ∈ imp.transactions, t.postings ≠ [] ∧
        ∃ J ∈ js, ∀ p ∈ t.postings, ∃ q ∈ J.posts, ∀ f, fingerprintsIn p f → f ∈ tagsOf q) := by
  obtain ⟨w, P', hF'⟩ := P.prepared hF
  obtain ⟨js, h, h1, h2, _⟩ := C72_nothing_lost P' hF' hM hT hT'
  exact ⟨js, h, h1, h2⟩

end

/-- **C79.** From the bytes of a Nationwide CSV file to the journal: the merge succeeds exactly if no two postings of the statement share a
fingerprint, and then the journal has the transactions of the statement, in the order of their dates. -/
theorem C79_nationwide_journal {sys : Sys} {L : ImportLib} {lower : Str → Str} {T : Table} {raw ruled merged : Str} {imp : Import}
    {next : Sys} {fpNs : Nationwide.FpNamespace} {legacy : Bool} {input : FileSpec} {b : Bytes}
    (P : PreparedFrom sys L (.nationwideCsv fpNs legacy input) lower T raw ruled imp next) (hF : P.Faithful)
    (hb : bytesAt sys false input = some b)
    (hpl : NationwideCsv.PlainFields ((Csv.trimmedRecords ',' (Windows1252.decode b)).map some))
    (hT : LeavesFingerprints T) (hT' : PlainTable T) (hs : NotesNoSource T) :
    (ImportCmd.Texts.nationwideCsv fpNs legacy (Windows1252.decode b)).doImport L = .ok imp ∧
    ((∀ n, next.fault n = none) → ∀ (orders : Nat → HashOrder) (out : FileSpec),
      (MergeCmd.run next orders ⟨[.path ruled], none, out⟩ World.start).1 = .ok () ↔ NationwideCsv.DistinctFingerprints imp.transactions) ∧
    ∀ files, Merges next [] ruled [] merged files → ∃ js h,
      files (sys.file merged) = some (encodeUtf8 (sys.render (TransactionPostings.intoLedger h js))) ∧
      js.Pairwise (fun t u => (compare t.trn.raw.date u.trn.raw.date).isLE = true) ∧
      ∀ d : Date, List.Forall₂ IsImported (imp.transactions.filter fun t => t.date = d) (js.filter fun J => J.trn.raw.date = d) := by
  obtain ⟨b', hb', hi⟩ := C79_nationwide_csv (L := L) P.reads
  rw [hb] at hb'
  cases hb'
  refine ⟨by rw [← hi]; exact P.imports, ?_⟩
  have hprep := P.prepared hF
  have himp : P.importer = .nationwideCsv fpNs legacy ((Csv.trimmedRecords ',' (Windows1252.decode b)).map some) := by
    cases hr : P.reads with
    | nationwideCsv h1 h2 =>
      rw [hb] at h1
      cases h1
      exact (Except.ok.inj h2).symm
  rw [himp] at hprep
  obtain ⟨w, P', hF'⟩ := hprep
  exact NationwideCsv.C72_nationwide_csv (sys := laterSys sys w) P' hF' hpl hT hT' hs

/-! ### A case: a statement that is replaced by what is imported from it -/

/-- The bytes of a Nationwide CSV file. -/
def Ex.bytes5 : Bytes := Ex.text5.map fun c => UInt8.ofNat c.toNat

/-- As `Ex.pipeSystem`, with the statement in the file `a`. -/
def Ex.csvSystem : Sys := { Ex.pipeSystem with start := fun n => if n = 97 then some Ex.bytes5 else none }

/-- The statement in the file `a`. -/
def Ex.csvSource : ImportCmd.Source := .nationwideCsv .generated false (.path "a".toList)

set_option maxRecDepth 100000 in
theorem Ex.csv_text : Windows1252.decode Ex.bytes5 = Ex.text5 := by decide +kernel

set_option maxRecDepth 100000 in
theorem Ex.csv_records : (Csv.trimmedRecords ',' Ex.text5).map some = Ex.file5 := by decide +kernel

theorem Ex.csv_bytes : bytesAt Ex.csvSystem false (.path "a".toList) = some Ex.bytes5 := by
  show Ex.csvSystem.start (Ex.csvSystem.file "a".toList) = _
  rw [show Ex.csvSystem.file "a".toList = 97 from by decide]
  rfl

theorem Ex.csv_reads : ReadsFrom Ex.csvSystem Ex.csvSource (.nationwideCsv .generated false Ex.file5) := by
  refine .nationwideCsv Ex.csv_bytes ?_
  rw [Ex.csv_text, ← Ex.csv_records]
  rfl

theorem Ex.csv_ok : (ImportCmd.runFiles Ex.csvSystem Ex.plainLib (fun _ => true) Ex.csvSource ⟨.path "a".toList, false, false⟩ World.start).1 = .ok () :=
  (C79_succeeds_iff Ex.csvSystem Ex.plainLib (fun _ => true) Ex.csvSource ⟨.path "a".toList, false, false⟩ (fun _ => rfl)).2
    ⟨⟨_, _, Ex.csv_reads, Ex.pipe_import⟩, by unfold FitTogether; decide⟩

/-- The system after the import. -/
def Ex.csvBetween : Sys := sysAfter Ex.csvSystem
  (ImportCmd.runFiles Ex.csvSystem Ex.plainLib (fun _ => true) Ex.csvSource ⟨.path "a".toList, false, false⟩ World.start).2.log
  [] (fun _ => none) (fun _ => [])

set_option maxRecDepth 100000 in
theorem Ex.csv_run2 : (applyRules Ex.csvBetween HashOrder.sorted id 2 (some Ex.pipeRules) (.path "a".toList) (.path "b".toList) World.start).1 = .ok () := by
  decide +kernel

/-- The import and the rules in the example. -/
def Ex.csvPipe : PreparedFrom Ex.csvSystem Ex.plainLib Ex.csvSource id Ex.pipeRules "a".toList "b".toList Ex.pipeImport
    (sysAfter Ex.csvBetween (applyRules Ex.csvBetween HashOrder.sorted id 2 (some Ex.pipeRules) (.path "a".toList) (.path "b".toList) World.start).2.log
      [] (fun _ => none) (fun _ => [])) where
  args := ⟨.path "a".toList, false, false⟩
  hasParent := fun _ => true
  fuel := 2
  order := HashOrder.sorted
  w1 := (ImportCmd.runFiles Ex.csvSystem Ex.plainLib (fun _ => true) Ex.csvSource ⟨.path "a".toList, false, false⟩ World.start).2
  w2 := (applyRules Ex.csvBetween HashOrder.sorted id 2 (some Ex.pipeRules) (.path "a".toList) (.path "b".toList) World.start).2
  between := Ex.csvBetween
  importer := .nationwideCsv .generated false Ex.file5
  reads := Ex.csv_reads
  imports := Ex.pipe_import
  output := Ex.pipe_output _
  run1 := by rw [← Ex.csv_ok]
  between_eq := ⟨_, _, _, rfl⟩
  run2 := by rw [← Ex.csv_run2]
  next_eq := ⟨_, _, _, rfl⟩

/-- The hypotheses are met: the statement with three transactions is in the file to which it is imported, the rules change one of the
transactions, and the result is merged. (For the hypotheses on the rules see the example for C72.) -/
example : Ex.csvPipe.Faithful ∧ bytesAt Ex.csvSystem false (.path "a".toList) = some Ex.bytes5 ∧
    NationwideCsv.PlainFields ((Csv.trimmedRecords ',' (Windows1252.decode Ex.bytes5)).map some) ∧ Ex.pipeImport.transactions.length = 3 := by
  refine ⟨⟨?_, ?_⟩, Ex.csv_bytes, ?_, ?_⟩
  · exact Ex.pipe_faithful.raw
  · exact Ex.pipe_faithful.ruled
  · rw [Ex.csv_text, Ex.csv_records]
    unfold NationwideCsv.PlainFields
    decide +kernel
  · decide +kernel

/-- The statement is in the file at the beginning; at the end what is imported from it is there. -/
example : Ex.csvSystem.start 97 = some Ex.bytes5 ∧
    contentsAfter Ex.csvSystem.start (ImportCmd.runFiles Ex.csvSystem Ex.plainLib (fun _ => true) Ex.csvSource ⟨.path "a".toList, false, false⟩
      World.start).2.log 97 = some (encodeUtf8 "raw".toList) := by
  refine ⟨Ex.csv_bytes, ?_⟩
  obtain ⟨importer, imp, f, h1, h2, h3, h4⟩ := C79_contents (w := (ImportCmd.runFiles Ex.csvSystem Ex.plainLib (fun _ => true) Ex.csvSource
    ⟨.path "a".toList, false, false⟩ World.start).2) (by rw [← Ex.csv_ok])
  cases readsFrom_unique h1 Ex.csv_reads
  cases Except.ok.inj (h2.symm.trans Ex.pipe_import)
  cases Option.some.inj (((C57_output _ _ _).2 h3).symm.trans ((C57_output _ _ _).2 (Ex.pipe_output Ex.pipeImport.userFpNamespace)))
  rw [h4, if_pos (by rfl), show Ex.csvSystem.render = Ex.pipeSystem.render from rfl, Ex.pipe_render.1]

/-- The command fails if the file is not there, and nothing is written. -/
example : (ImportCmd.runFiles Ex.csvSystem Ex.plainLib (fun _ => true) (.nationwideCsv .generated false (.path "d".toList))
    ⟨.path "a".toList, false, false⟩ World.start).1 = .error .open_ := by decide

set_option maxRecDepth 100000 in
/-- PayPal files, with the table of time zones from standard input. -/
example : let sys : Sys := { Ex.system "" "" (fun _ => none) with start := fun n => if n = 97 then some (encodeUtf8 Ex.paypalText) else none, stdin := encodeUtf8 Ex.paypalTzText }
    ∃ importer, ReadsFrom sys (.paypalCsv "n".toList false (.path "a".toList) .stdio) importer := by
  intro sys
  obtain ⟨importer, h⟩ : ∃ importer, (ImportCmd.Texts.paypalCsv "n".toList false Ex.paypalText Ex.paypalTzText).importer = .ok importer := by
    rcases h : (ImportCmd.Texts.paypalCsv "n".toList false Ex.paypalText Ex.paypalTzText).importer with e | importer
    · have : (ImportCmd.Texts.paypalCsv "n".toList false Ex.paypalText Ex.paypalTzText).importer.isOk = true := by decide +kernel
      rw [h] at this
      cases this
    · exact ⟨importer, rfl⟩
  refine ⟨importer, .paypalCsv (text := Ex.paypalText) ?_ rfl h⟩
  show sys.start (sys.file "a".toList) = _
  rw [show sys.file "a".toList = 97 from by decide]
  rfl

end Verif
