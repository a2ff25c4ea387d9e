import Verif.Props.Rules
import Verif.Props.ImportCmd

/-!
# C60: the moment at which a journal is lost

`C60_counterexample` (Props/Crash) shows one run that breaks the claim. Here: every successful run of every command does, unless the
file is empty before or after.
-/

namespace Verif
open Spec Spec.Book Verif.Rules

/-- At some moment the file is there, but empty. -/
def EmptyMoment (sys : Sys) (log : List Eff) (n : Nat) : Prop := ∃ es, es <+: log ∧ contentsAfter sys.start es n = some []

theorem emptyMoment_of_plan {sys : Sys} {plan : List (FileSpec × Str)} {f : FileSpec} {n : Nat} (hf : f ∈ plan.map (·.1))
    (hn : fileOf sys f = some n) : EmptyMoment sys (wholeWrites sys plan) n := by
  obtain ⟨e, he, rfl⟩ := List.mem_map.1 hf
  obtain ⟨a, b, rfl⟩ := List.append_of_mem he
  obtain ⟨f, text⟩ := e
  cases f with
  | stdio => cases hn
  | path p =>
    cases hn
    refine ⟨wholeWrites sys a ++ [.create (sys.file p)], ?_, ?_⟩
    · rw [wholeWrites_append, List.prefix_append_right_inj]
      exact ⟨(encodeUtf8 text).map (.write (sys.file p)) ++ wholeWrites sys b, by
        rw [show wholeWrites sys ((.path p, text) :: b) = wholeWrite sys (.path p) text ++ wholeWrites sys b from List.flatMap_cons]
        rfl⟩
    · rw [contentsAfter_append]
      simp [contentsAfter]

/-- So the claim of C60 fails whenever a file that is not empty is written, with something in it. -/
theorem C60_loses {sys : Sys} {log : List Eff} {n : Nat} (h : EmptyMoment sys log n) (h1 : sys.start n ≠ some [])
    (h2 : contentsAfter sys.start log n ≠ some []) : ¬ NeverLoses sys log := by
  obtain ⟨es, hes, h⟩ := h
  intro hn
  rcases hn es hes n with h' | h'
  · exact h1 (h'.symm.trans h)
  · exact h2 (h'.symm.trans h)

/-- C60 fails in every successful run of `fmt`: every file that it is given is empty at some moment. -/
theorem C60_fmt_moment (sys : Sys) (fs : List FileSpec) (h : (fmtRun sys fs World.start).1 = .ok ()) {f : FileSpec} (hf : f ∈ fs) {n : Nat}
    (hn : fileOf sys f = some n) : EmptyMoment sys (fmtRun sys fs World.start).2.log n := by
  obtain ⟨plan, _, _, h2⟩ := rewrittenInOrder_plan (C58_fmt sys fs)
  obtain ⟨h3, h4⟩ := h2 h
  rw [h3]
  exact emptyMoment_of_plan (h4 ▸ hf) hn

/-- The same for `generate-fingerprints`. -/
theorem C60_generate_fingerprints_moment (sys : Sys) (ho : HashOrder) (fs : List FileSpec) (h : (FpGen.run sys ho fs World.start).1 = .ok ())
    {f : FileSpec} (hf : f ∈ fs) {n : Nat} (hn : fileOf sys f = some n) : EmptyMoment sys (FpGen.run sys ho fs World.start).2.log n := by
  obtain ⟨plan, _, _, h2⟩ := rewrittenInOrder_plan (C58_generate_fingerprints sys ho fs)
  obtain ⟨h3, h4⟩ := h2 h
  rw [h3]
  exact emptyMoment_of_plan (h4 ▸ hf) hn

/-- The same for the output of `merge`. -/
theorem C60_merge_moment (sys : Sys) (ho : Nat → HashOrder) (args : MergeCmd.Args) (h : (MergeCmd.run sys ho args World.start).1 = .ok ())
    {n : Nat} (hn : fileOf sys args.output = some n) : EmptyMoment sys (MergeCmd.run sys ho args World.start).2.log n := by
  rcases hr : MergeCmd.run sys ho args World.start with ⟨r, w⟩
  rw [hr] at h
  obtain rfl : r = .ok () := h
  obtain ⟨gs, u, h, h1, h2, h3, h4, h5⟩ := (mergeCmd_sat sys ho args).ok hr
  simp only
  rw [h5]
  refine emptyMoment_of_plan (f := args.output) ?_ hn
  unfold mergePlan
  simp

/-- The same for the output of `apply-rules`. -/
theorem C60_apply_rules_moment (sys : Sys) (ho : HashOrder) (lower : Str → Str) (fuel : Nat) (table : Option Table) (input output : FileSpec)
    (h : (applyRules sys ho lower fuel table input output World.start).1 = .ok ()) {n : Nat} (hn : fileOf sys output = some n) :
    EmptyMoment sys (applyRules sys ho lower fuel table input output World.start).2.log n := by
  rcases hr : applyRules sys ho lower fuel table input output World.start with ⟨r, w⟩
  rw [hr] at h
  obtain rfl : r = .ok () := h
  obtain ⟨T, l, us, ts, _, _, _, _, h5⟩ := (applyRules_sat sys ho lower fuel table input output).ok hr
  simp only
  rw [h5]
  have := emptyMoment_of_plan (sys := sys) (plan := [(output, sys.render (TransactionPostings.intoLedger ho ts))]) (f := output) (by simp) hn
  simpa [wholeWrites] using this

/-- The same for the output of `import`. -/
theorem C60_import_moment (sys : Sys) (L : ImportLib) (hasParent : Str → Bool) (importer : ImportCmd.Importer) (args : ImportCmd.Args)
    (h : (ImportCmd.run sys L hasParent importer args World.start).1 = .ok ()) {imp : Import} (hi : importer.doImport L = .ok imp) {f : FileSpec}
    (hf : WritesTo args imp.userFpNamespace f) {n : Nat} (hn : fileOf sys f = some n) :
    EmptyMoment sys (ImportCmd.run sys L hasParent importer args World.start).2.log n := by
  have h1 := C57_run sys L hasParent importer args
  rcases hr : ImportCmd.run sys L hasParent importer args World.start with ⟨r, w⟩
  rw [hr] at h h1
  obtain rfl : r = .ok () := h
  obtain ⟨imp', f', hi', hw, _, hlog⟩ := h1
  rw [hi] at hi'
  cases hi'
  have : f' = f := by
    have a := (C57_output ..).2 hw
    rw [(C57_output ..).2 hf] at a
    exact (Option.some.inj a).symm
  subst this
  simp only at hlog ⊢
  rw [hlog]
  have := emptyMoment_of_plan (sys := sys) (plan := [(f', sys.render (ledgerFromTransactions imp.transactions))]) (f := f') (by simp) hn
  simpa [wholeWrites] using this

set_option maxRecDepth 100000 in
/-- Two journals are formatted; each is empty at some moment, and neither is empty before or after. -/
example : (fmtRun (Ex.system "ab" "c" (fun _ => none)) [Ex.file "a", Ex.file "b"] World.start).1 = .ok () ∧
    (∀ n ∈ [97, 98], (Ex.system "ab" "c" (fun _ => none)).start n ≠ some [] ∧
      contentsAfter (Ex.system "ab" "c" (fun _ => none)).start
        (fmtRun (Ex.system "ab" "c" (fun _ => none)) [Ex.file "a", Ex.file "b"] World.start).2.log n ≠ some []) := by decide +kernel

set_option maxRecDepth 100000 in
/-- The other commands can succeed in the same way: the hypotheses of `C60_generate_fingerprints_moment` and `C60_apply_rules_moment`. -/
example : (FpGen.run (Ex.system "ab" "c" (fun _ => none)) HashOrder.sorted [Ex.file "a", Ex.file "b"] World.start).1 = .ok () ∧
    (applyRules (Ex.system "ab" "c" (fun _ => none)) HashOrder.rev id 2 (some Ex.rules) (Ex.file "a") (Ex.file "b") World.start).1 = .ok () ∧
    fileOf (Ex.system "ab" "c" (fun _ => none)) (Ex.file "b") = some 98 := by decide +kernel

end Verif
