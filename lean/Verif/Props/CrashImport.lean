import Verif.Props.CrashMoment
import Verif.Props.ImportFiles

/-!
# C60 for `import` from files
-/

namespace Verif
open Spec

/-- C60 fails in every successful run of `import` from files: its output is empty at some moment, whatever the kind of statement. -/
theorem C60_import_files_moment {sys : Sys} {L : ImportLib} {hasParent : Str → Bool} {source : ImportCmd.Source} {args : ImportCmd.Args} {w : World}
    (h : ImportCmd.runFiles sys L hasParent source args World.start = (.ok (), w)) :
    ∃ importer imp f, ReadsFrom sys source importer ∧ importer.doImport L = .ok imp ∧ WritesTo args imp.userFpNamespace f ∧
      ∀ n, fileOf sys f = some n → EmptyMoment sys w.log n ∧
        (sys.start n ≠ some [] → encodeUtf8 (sys.render (ledgerFromTransactions imp.transactions)) ≠ [] → ¬ NeverLoses sys w.log) := by
  obtain ⟨_, importer, imp, f, h1, h2, h3, _, h4⟩ := (runFiles_sat sys L hasParent source args).ok h
  refine ⟨importer, imp, f, h1, h2, h3, fun n hn => ?_⟩
  have he : EmptyMoment sys w.log n := by
    rw [h4]
    have := emptyMoment_of_plan (sys := sys) (plan := [(f, sys.render (ledgerFromTransactions imp.transactions))]) (f := f) (by simp) hn
    simpa [wholeWrites] using this
  refine ⟨he, fun hs hr => C60_loses he hs ?_⟩
  rw [h4, contentsAfter_whole, if_pos hn]
  exact fun e => hr (Option.some.inj e)

/-- A statement is imported into its own file. The run succeeds, and at some moment the file has neither the statement nor what is imported from it. -/
example : ∃ w, ImportCmd.runFiles Ex.csvSystem Ex.plainLib (fun _ => true) Ex.csvSource ⟨.path "a".toList, false, false⟩ World.start = (.ok (), w) ∧
    EmptyMoment Ex.csvSystem w.log 97 ∧ ¬ NeverLoses Ex.csvSystem w.log := by
  refine ⟨(ImportCmd.runFiles Ex.csvSystem Ex.plainLib (fun _ => true) Ex.csvSource ⟨.path "a".toList, false, false⟩ World.start).2,
    by rw [← Ex.csv_ok], ?_⟩
  obtain ⟨importer, imp, f, h1, h2, h3, h4⟩ := C60_import_files_moment (w := (ImportCmd.runFiles Ex.csvSystem Ex.plainLib (fun _ => true) Ex.csvSource
    ⟨.path "a".toList, false, false⟩ World.start).2) (by rw [← Ex.csv_ok])
  cases readsFrom_unique h1 Ex.csv_reads
  cases Except.ok.inj (h2.symm.trans Ex.pipe_import)
  cases Option.some.inj (((C57_output _ _ _).2 h3).symm.trans ((C57_output _ _ _).2 (Ex.pipe_output Ex.pipeImport.userFpNamespace)))
  obtain ⟨h5, h6⟩ := h4 97 rfl
  refine ⟨h5, h6 ?_ ?_⟩
  · rw [show Ex.csvSystem.start 97 = some Ex.bytes5 from Ex.csv_bytes]
    exact fun e => absurd (Option.some.inj e) (by decide +kernel)
  · rw [show Ex.csvSystem.render = Ex.pipeSystem.render from rfl, Ex.pipe_render.1]
    decide +kernel

end Verif
