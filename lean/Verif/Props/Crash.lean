import Verif.Props.Commands

/-!
# C58, C59, C60: rewriting files, and crashes

A crash is a prefix of the effects of a run.
-/

namespace Verif
open Spec Spec.Book

/-! ## C58: `fmt` and `generate-fingerprints` rewrite files one after the other -/

/-- What `fmt` writes for a ledger. -/
def FmtText (sys : Sys) (L : Ledger) (text : Str) : Prop := text = sys.render L

/-- What `generate-fingerprints` writes for a ledger: every transaction is kept and gains fingerprints from the supply of
random values. See `C38` for what `updateTransactions` does. -/
def FpGenText (sys : Sys) (h : HashOrder) (L : Ledger) (text : Str) : Prop :=
  ∃ ts n, TransactionPostings.fromLedger L = some ts ∧
    text = sys.render (TransactionPostings.intoLedger h (FpGen.updateTransactions sys.random n ts).2)

/-- The outcome of a run that rewrites `fs`: either all of them have been rewritten, or those before some file `f`, and
that file and later ones have not been touched, except if the very writing of `f` failed. -/
def RewrittenInOrder (sys : Sys) (T : Ledger → Str → Prop) (again : Bool) (log : List Eff) (fs : List FileSpec)
    (r : Except CmdErr Unit) (log' : List Eff) : Prop :=
  match r with
  | .ok _ => ∃ again', Rewritten sys T again log fs again' log'
  | .error e => ∃ done f rest again' mid, fs = done ++ f :: rest ∧ Rewritten sys T again log done again' mid ∧
    ((e ≠ .write ∧ log' = mid) ∨
     (e = .write ∧ ∃ L text n, ledgerAt sys (contentsAfter sys.start mid) again' f = some L ∧ T L text ∧
       log' = mid ++ (wholeWrite sys f text).take n))

theorem isWrite_ne {e : CmdErr} (h : e.isWrite = false) : e ≠ .write := by rintro rfl; cases h

theorem fmt_sat (sys : Sys) (fs : List FileSpec) (w : World) :
    Sat (fmtRun sys fs) w (fun _ w' => RewrittenInOrder sys (FmtText sys) w.stdinRead w.log fs (.ok ()) w'.log)
      (fun e w' => RewrittenInOrder sys (FmtText sys) w.stdinRead w.log fs (.error e) w'.log) := by
  induction fs generalizing w with
  | nil => exact ⟨_, .nil⟩
  | cons f fs ih =>
    unfold fmtRun
    apply Sat.bind
    refine (readLedgerFile_sat sys f w).imp ?_ ?_
    · rintro L w₁ ⟨h1, _, h2, h3⟩
      apply Sat.bind
      refine (writeFile_sat sys f (sys.render L) w₁).imp ?_ ?_
      · rintro _ w₂ ⟨g1, _, g2⟩
        have hl : w₂.log = w.log ++ wholeWrite sys f (sys.render L) := by rw [g1, h1]
        have hs : w₂.stdinRead = (w.stdinRead || decide (f = .stdio)) := by rw [g2, h2]
        refine (ih w₂).imp ?_ ?_
        · rintro _ w₃ ⟨again', h⟩
          rw [hl, hs] at h
          exact ⟨again', .cons h3 rfl h⟩
        · rintro e w₃ ⟨done, f', rest, again', mid, rfl, h, h'⟩
          rw [hl, hs] at h
          exact ⟨f :: done, f', rest, again', mid, rfl, .cons h3 rfl h, h'⟩
      · rintro e w₂ ⟨⟨n, g1, g2⟩, _⟩
        refine ⟨[], f, fs, _, _, rfl, .nil, ?_⟩
        rcases g2 with ⟨rfl, rfl⟩ | rfl
        · left; exact ⟨by decide, by rw [g1, h1]; simp⟩
        · right; exact ⟨rfl, L, _, n, h3, rfl, by rw [g1, h1]⟩
    · rintro e w₁ ⟨h1, h2, _⟩
      exact ⟨[], f, fs, _, _, rfl, .nil, .inl ⟨isWrite_ne h2, h1⟩⟩

theorem fpgen_sat (sys : Sys) (h : HashOrder) (fs : List FileSpec) (w : World) :
    Sat (FpGen.run sys h fs) w (fun _ w' => RewrittenInOrder sys (FpGenText sys h) w.stdinRead w.log fs (.ok ()) w'.log)
      (fun e w' => RewrittenInOrder sys (FpGenText sys h) w.stdinRead w.log fs (.error e) w'.log) := by
  induction fs generalizing w with
  | nil => exact ⟨_, .nil⟩
  | cons f fs ih =>
    unfold FpGen.run
    apply Sat.bind
    refine (readLedgerFile_sat sys f w).imp ?_ ?_
    · rintro L w₁ ⟨h1, _, h2, h3⟩
      apply Sat.bind
      apply Sat.ofOption
      · intro ts hts
        apply Sat.bind
        change Sat (Files.writeFile sys f (sys.render (TransactionPostings.intoLedger h
          (FpGen.updateTransactions sys.random w₁.drawn ts).2)) >>= fun _ => FpGen.run sys h fs)
          { w₁ with drawn := (FpGen.updateTransactions sys.random w₁.drawn ts).1 } _ _
        have hT : FpGenText sys h L (sys.render (TransactionPostings.intoLedger h
            (FpGen.updateTransactions sys.random w₁.drawn ts).2)) := ⟨ts, w₁.drawn, hts, rfl⟩
        generalize sys.render (TransactionPostings.intoLedger h (FpGen.updateTransactions sys.random w₁.drawn ts).2) = text at hT ⊢
        apply Sat.bind
        refine (writeFile_sat sys f text _).imp ?_ ?_
        · rintro _ w₂ ⟨g1, _, g2⟩
          have hl : w₂.log = w.log ++ wholeWrite sys f text := by rw [g1, h1]
          have hs : w₂.stdinRead = (w.stdinRead || decide (f = .stdio)) := by rw [g2, h2]
          refine (ih w₂).imp ?_ ?_
          · rintro _ w₃ ⟨again', h⟩
            rw [hl, hs] at h
            exact ⟨again', .cons h3 hT h⟩
          · rintro e w₃ ⟨done, f', rest, again', mid, rfl, h, h'⟩
            rw [hl, hs] at h
            exact ⟨f :: done, f', rest, again', mid, rfl, .cons h3 hT h, h'⟩
        · rintro e w₂ ⟨⟨n, g1, g2⟩, _⟩
          refine ⟨[], f, fs, _, _, rfl, .nil, ?_⟩
          rcases g2 with ⟨rfl, rfl⟩ | rfl
          · left; exact ⟨by decide, by rw [g1, h1]; simp⟩
          · right; exact ⟨rfl, L, _, n, h3, hT, by rw [g1, h1]⟩
      · intro _
        exact ⟨[], f, fs, _, _, rfl, .nil, .inl ⟨by decide, h1⟩⟩
    · rintro e w₁ ⟨h1, h2, _⟩
      exact ⟨[], f, fs, _, _, rfl, .nil, .inl ⟨isWrite_ne h2, h1⟩⟩

theorem Sat.result {α : Type} {p : Prog α} {w : World} {Q : Except CmdErr α → World → Prop}
    (h : Sat p w (fun a w' => Q (.ok a) w') (fun e w' => Q (.error e) w')) : Q (p w).1 (p w).2 := by
  unfold Sat at h
  rcases hp : p w with ⟨_ | _, w'⟩
  · rw [hp] at h; exact h
  · rw [hp] at h; exact h

/-- C58: `fmt` rewrites files one at a time and in order; on the first failure, earlier files have been rewritten and
nothing has happened to the failing file and later ones, unless the failure was in the writing of the file itself. -/
theorem C58_fmt (sys : Sys) (fs : List FileSpec) :
    RewrittenInOrder sys (FmtText sys) false [] fs (fmtRun sys fs World.start).1 (fmtRun sys fs World.start).2.log :=
  Sat.result (Q := fun r w => RewrittenInOrder sys (FmtText sys) false [] fs r w.log) (fmt_sat sys fs World.start)

/-- C58: the same for `generate-fingerprints`. -/
theorem C58_generate_fingerprints (sys : Sys) (h : HashOrder) (fs : List FileSpec) :
    RewrittenInOrder sys (FpGenText sys h) false [] fs (FpGen.run sys h fs World.start).1 (FpGen.run sys h fs World.start).2.log :=
  Sat.result (Q := fun r w => RewrittenInOrder sys (FpGenText sys h) false [] fs r w.log) (fpgen_sat sys h fs World.start)

theorem rewritten_other {sys : Sys} {T : Ledger → Str → Prop} {again again' : Bool} {log log' : List Eff} {fs : List FileSpec}
    (h : Rewritten sys T again log fs again' log') (n : Nat) (hn : ∀ f ∈ fs, fileOf sys f ≠ some n) :
    contentsAfter sys.start log' n = contentsAfter sys.start log n := by
  induction h with
  | nil => rfl
  | @cons again log f fs L text again' log' h1 h2 h3 ih =>
    rw [ih (fun f hf => hn f (List.mem_cons_of_mem _ hf)), contentsAfter_append, contentsAfter_whole,
      if_neg (hn f (by simp))]

/-- A file that is named once and rewritten holds the complete new text for what it contained before. -/
theorem rewritten_done {sys : Sys} {T : Ledger → Str → Prop} {again again' : Bool} {log log' : List Eff} {fs : List FileSpec}
    (h : Rewritten sys T again log fs again' log') (hd : (fs.filterMap (fileOf sys)).Nodup) (n : Nat)
    (hn : n ∈ fs.filterMap (fileOf sys)) :
    ∃ b L text, contentsAfter sys.start log n = some b ∧ (decodeUtf8 b).bind sys.parse = some L ∧ T L text ∧
      contentsAfter sys.start log' n = some (encodeUtf8 text) := by
  induction h with
  | nil => cases hn
  | @cons again log f fs L text again' log' h1 h2 h3 ih =>
    by_cases hf : fileOf sys f = some n
    · have hfs : ∀ f' ∈ fs, fileOf sys f' ≠ some n := by
        intro f' hf' he
        rw [List.filterMap_cons, hf, List.nodup_cons] at hd
        exact hd.1 (List.mem_filterMap.2 ⟨f', hf', he⟩)
      unfold ledgerAt at h1
      rw [hf] at h1
      simp only at h1
      cases hc : contentsAfter sys.start log n with
      | none => rw [hc] at h1; cases h1
      | some b =>
        rw [hc] at h1
        refine ⟨b, L, text, rfl, h1, h2, ?_⟩
        rw [rewritten_other h3 n hfs, contentsAfter_append, contentsAfter_whole, if_pos hf]
    · have hd' : (fs.filterMap (fileOf sys)).Nodup := by
        rw [List.filterMap_cons] at hd
        split at hd
        · exact hd
        · exact (List.nodup_cons.1 hd).2
      have hn' : n ∈ fs.filterMap (fileOf sys) := by
        obtain ⟨f', hf', he⟩ := List.mem_filterMap.1 hn
        rcases List.mem_cons.1 hf' with rfl | hf'
        · exact absurd he hf
        · exact List.mem_filterMap.2 ⟨f', hf', he⟩
      obtain ⟨b, L', text', g1, g2⟩ := ih hd' hn'
      rw [contentsAfter_append, contentsAfter_whole, if_neg hf] at g1
      exact ⟨b, L', text', g1, g2⟩

/-- C58, as seen in the files: if the arguments name different files, then after success every file holds the new text for
its old contents. After a failure this is so for the files before some `f`; later files, and `f` too unless its writing
failed, have their old contents. Files that are not named are never touched. -/
theorem C58_contents (sys : Sys) (T : Ledger → Str → Prop) (fs : List FileSpec) (r : Except CmdErr Unit) (log : List Eff)
    (h : RewrittenInOrder sys T false [] fs r log) (hd : (fs.filterMap (fileOf sys)).Nodup) :
    ∃ done rest, fs = done ++ rest ∧
      (∀ n ∈ done.filterMap (fileOf sys), ∃ b L text, sys.start n = some b ∧ (decodeUtf8 b).bind sys.parse = some L ∧ T L text ∧
        contentsAfter sys.start log n = some (encodeUtf8 text)) ∧
      (∀ n, n ∉ fs.filterMap (fileOf sys) → contentsAfter sys.start log n = sys.start n) ∧
      (match r with
       | .ok _ => rest = []
       | .error e => ∃ f rest', rest = f :: rest' ∧
          (∀ n ∈ rest'.filterMap (fileOf sys), contentsAfter sys.start log n = sys.start n) ∧
          (e ≠ .write → ∀ n, fileOf sys f = some n → contentsAfter sys.start log n = sys.start n)) := by
  cases r with
  | ok _ =>
    obtain ⟨again', h⟩ := h
    refine ⟨fs, [], by simp, fun n hn => rewritten_done h hd n hn, fun n hn => ?_, rfl⟩
    exact rewritten_other h n (fun f hf he => hn (List.mem_filterMap.2 ⟨f, hf, he⟩))
  | error e =>
    obtain ⟨done, f, rest, again', mid, rfl, h, h'⟩ := h
    rw [List.filterMap_append, List.nodup_append] at hd
    obtain ⟨hd1, hd2, hd3⟩ := hd
    have hlog : ∀ n, (e ≠ .write ∨ fileOf sys f ≠ some n) → contentsAfter sys.start log n = contentsAfter sys.start mid n := by
      intro n hn
      rcases h' with ⟨_, rfl⟩ | ⟨he, L, text, k, _, _, rfl⟩
      · rfl
      · rw [contentsAfter_append]
        apply contentsAfter_other
        intro ef hef
        rw [file_wholeWrite (List.mem_of_mem_take hef)]
        rcases hn with hn | hn
        · exact absurd he hn
        · exact hn
    have hmem : ∀ {n l}, n ∈ List.filterMap (fileOf sys) l ↔ ∃ f ∈ l, fileOf sys f = some n := by
      intro n l; exact List.mem_filterMap
    have hmid : ∀ n, n ∉ done.filterMap (fileOf sys) → contentsAfter sys.start mid n = sys.start n := by
      intro n hn
      exact rewritten_other h n (fun f hf he => hn (List.mem_filterMap.2 ⟨f, hf, he⟩))
    refine ⟨done, f :: rest, rfl, ?_, ?_, f, rest, rfl, ?_, ?_⟩
    · intro n hn
      have hne : fileOf sys f ≠ some n := by
        intro he
        exact hd3 n hn n (hmem.2 ⟨f, by simp, he⟩) rfl
      rw [hlog n (.inr hne)]
      exact rewritten_done h hd1 n hn
    · intro n hn
      rw [List.filterMap_append, List.mem_append] at hn
      rw [hlog n (.inr fun he => hn (.inr (hmem.2 ⟨f, by simp, he⟩))), hmid n (fun h => hn (.inl h))]
    · intro n hn
      have hne : fileOf sys f ≠ some n := by
        intro he
        rw [List.filterMap_cons, he, List.nodup_cons] at hd2
        exact hd2.1 hn
      rw [hlog n (.inr hne)]
      apply hmid
      intro hn'
      obtain ⟨f', hf', he⟩ := hmem.1 hn
      exact hd3 n hn' n (hmem.2 ⟨f', List.mem_cons_of_mem _ hf', he⟩) rfl
    · intro hw n he
      rw [hlog n (.inl hw)]
      apply hmid
      intro hn'
      exact hd3 n hn' n (hmem.2 ⟨f, by simp, he⟩) rfl

set_option maxRecDepth 100000 in
/-- Two files, of which the second is no ledger: the first one is rewritten (`shop` and `cafe` give `sc`). -/
example : (fmtRun (Ex.system "ab" "?" (fun _ => none)) [Ex.file "a", Ex.file "b"] World.start).1 = .error .parse ∧
    contentsAfter (Ex.system "ab" "?" (fun _ => none)).start
      (fmtRun (Ex.system "ab" "?" (fun _ => none)) [Ex.file "a", Ex.file "b"] World.start).2.log 97 = some (encodeUtf8 "sc".toList) ∧
    ([Ex.file "a", Ex.file "b"].filterMap (fileOf (Ex.system "ab" "?" (fun _ => none)))).Nodup := by decide +kernel

/-! ## C59: a crash damages at most the file that is being written -/

/-- Whatever has been done of a plan to write some files: every file has its old contents, or a complete new text, except
at most one, which holds the beginning of a new text. -/
theorem crash_point {sys : Sys} {plan : List (FileSpec × Str)} {es : List Eff} (h : es <+: wholeWrites sys plan) :
    ∃ current : Option Nat, ∀ n,
      contentsAfter sys.start es n = sys.start n ∨
      (∃ text, Planned sys plan n text ∧ contentsAfter sys.start es n = some (encodeUtf8 text)) ∨
      (current = some n ∧ ∃ text k, Planned sys plan n text ∧ contentsAfter sys.start es n = some ((encodeUtf8 text).take k)) := by
  obtain ⟨done, rest, rfl, h'⟩ := prefix_wholeWrites h
  have hdone : ∀ n, contentsAfter sys.start (wholeWrites sys done) n = sys.start n ∨
      ∃ text, Planned sys (done ++ rest) n text ∧ contentsAfter sys.start (wholeWrites sys done) n = some (encodeUtf8 text) := by
    intro n
    rcases contentsAfter_wholeWrites sys sys.start done n with h | ⟨text, ⟨f, h1, h2⟩, h3⟩
    · exact .inl h
    · exact .inr ⟨text, ⟨f, List.mem_append_left _ h1, h2⟩, h3⟩
  rcases h' with rfl | ⟨f, text, rest', k, rfl, rfl⟩
  · refine ⟨none, fun n => ?_⟩
    rcases hdone n with h | h
    · exact .inl h
    · exact .inr (.inl h)
  · refine ⟨fileOf sys f, fun n => ?_⟩
    rw [contentsAfter_append]
    rcases contentsAfter_part sys (contentsAfter sys.start (wholeWrites sys done)) f text k n with h | ⟨h1, j, h2⟩
    · rw [h]
      rcases hdone n with h | h
      · exact .inl h
      · exact .inr (.inl h)
    · exact .inr (.inr ⟨h1, text, j, ⟨f, by simp, h1⟩, h2⟩)

/-- What a crash may do: there is a plan to write some texts to files, of which the effects of the run are a beginning,
and all of it if the run succeeds. At every moment `es` of the run there is at most one file that has neither its
old contents nor a complete planned text. -/
def CrashSafe (sys : Sys) (r : Except CmdErr Unit) (log : List Eff) : Prop :=
  ∃ plan, log <+: wholeWrites sys plan ∧ (r = .ok () → log = wholeWrites sys plan) ∧
    ∀ es, es <+: log → ∃ current : Option Nat, ∀ n,
      contentsAfter sys.start es n = sys.start n ∨
      (∃ text, Planned sys plan n text ∧ contentsAfter sys.start es n = some (encodeUtf8 text)) ∨
      (current = some n ∧ ∃ text k, Planned sys plan n text ∧ contentsAfter sys.start es n = some ((encodeUtf8 text).take k))

theorem crashSafe_of_plan {sys : Sys} {r : Except CmdErr Unit} {log : List Eff} {plan : List (FileSpec × Str)}
    (h : log <+: wholeWrites sys plan) (hr : r = .ok () → log = wholeWrites sys plan) : CrashSafe sys r log :=
  ⟨plan, h, hr, fun _ hes => crash_point (hes.trans h)⟩

theorem rewritten_plan {sys : Sys} {T : Ledger → Str → Prop} {again again' : Bool} {log log' : List Eff} {fs : List FileSpec}
    (h : Rewritten sys T again log fs again' log') :
    ∃ plan : List (FileSpec × Str), plan.map (·.1) = fs ∧ log' = log ++ wholeWrites sys plan := by
  induction h with
  | nil => exact ⟨[], rfl, by simp [wholeWrites]⟩
  | @cons again log f fs L text again' log' h1 h2 h3 ih =>
    obtain ⟨plan, rfl, rfl⟩ := ih
    exact ⟨(f, text) :: plan, rfl, by simp [wholeWrites]⟩

theorem rewrittenInOrder_plan {sys : Sys} {T : Ledger → Str → Prop} {fs : List FileSpec} {r : Except CmdErr Unit} {log : List Eff}
    (h : RewrittenInOrder sys T false [] fs r log) :
    ∃ plan : List (FileSpec × Str), plan.map (·.1) <+: fs ∧ log <+: wholeWrites sys plan ∧
      (r = .ok () → log = wholeWrites sys plan ∧ plan.map (·.1) = fs) := by
  cases r with
  | ok _ =>
    obtain ⟨again', h⟩ := h
    obtain ⟨plan, hp, rfl⟩ := rewritten_plan h
    exact ⟨plan, hp ▸ List.prefix_rfl, List.prefix_rfl, fun _ => ⟨rfl, hp⟩⟩
  | error e =>
    obtain ⟨done, f, rest, again', mid, rfl, h, h'⟩ := h
    obtain ⟨plan, hp, rfl⟩ := rewritten_plan h
    rcases h' with ⟨_, rfl⟩ | ⟨_, L, text, k, _, _, rfl⟩
    · exact ⟨plan, hp ▸ List.prefix_append _ _, List.prefix_rfl, fun h => by cases h⟩
    · refine ⟨plan ++ [(f, text)], ?_, ?_, fun h => by cases h⟩
      · rw [List.map_append, hp]
        exact ⟨rest, by simp⟩
      · rw [wholeWrites_append, List.nil_append, List.prefix_append_right_inj]
        exact (List.take_prefix _ _).trans (by simp [wholeWrites])

theorem mergeCmd_plan (sys : Sys) (ho : Nat → HashOrder) (args : MergeCmd.Args) :
    ∃ plan : List (FileSpec × Str), (∀ e ∈ plan, some e.1 = args.unmerged ∨ e.1 = args.output) ∧
      (MergeCmd.run sys ho args World.start).2.log <+: wholeWrites sys plan ∧
      ((MergeCmd.run sys ho args World.start).1 = .ok () → (MergeCmd.run sys ho args World.start).2.log = wholeWrites sys plan) := by
  have key : ∀ h u m, ∀ e ∈ mergePlan sys h args u m, some e.1 = args.unmerged ∨ e.1 = args.output := by
    intro h u m e he
    unfold mergePlan at he
    rcases List.mem_append.1 he with he | he
    · left
      cases ha : args.unmerged with
      | none => rw [ha] at he; cases he
      | some f =>
        rw [ha] at he
        simp only at he
        split at he
        · cases he
        · rw [List.mem_singleton] at he; rw [he]
    · right
      rw [List.mem_singleton] at he; rw [he]
  have hs := mergeCmd_sat sys ho args
  rcases hr : MergeCmd.run sys ho args World.start with ⟨e | ⟨⟩, w⟩
  · rcases hs.err hr with ⟨h1, _⟩ | ⟨_, _, gs, u, h, h1, h2, h3, h4, h5⟩
    · exact ⟨[], by simp, by rw [h1]; exact List.nil_prefix, fun h => by cases h⟩
    · exact ⟨_, key _ _ _, h5, fun h => by cases h⟩
  · obtain ⟨gs, u, h, h1, h2, h3, h4, h5⟩ := hs.ok hr
    exact ⟨_, key _ _ _, by rw [h5]; exact List.prefix_rfl, fun _ => h5⟩

/-- C59 for `fmt`. -/
theorem C59_fmt (sys : Sys) (fs : List FileSpec) :
    CrashSafe sys (fmtRun sys fs World.start).1 (fmtRun sys fs World.start).2.log := by
  obtain ⟨plan, _, h1, h2⟩ := rewrittenInOrder_plan (C58_fmt sys fs)
  exact crashSafe_of_plan h1 (fun h => (h2 h).1)

/-- C59 for `generate-fingerprints`. -/
theorem C59_generate_fingerprints (sys : Sys) (h : HashOrder) (fs : List FileSpec) :
    CrashSafe sys (FpGen.run sys h fs World.start).1 (FpGen.run sys h fs World.start).2.log := by
  obtain ⟨plan, _, h1, h2⟩ := rewrittenInOrder_plan (C58_generate_fingerprints sys h fs)
  exact crashSafe_of_plan h1 (fun h => (h2 h).1)

/-- C59 for `merge`. -/
theorem C59_merge (sys : Sys) (ho : Nat → HashOrder) (args : MergeCmd.Args) :
    CrashSafe sys (MergeCmd.run sys ho args World.start).1 (MergeCmd.run sys ho args World.start).2.log := by
  obtain ⟨plan, _, h1, h2⟩ := mergeCmd_plan sys ho args
  exact crashSafe_of_plan h1 h2

/-! ## C60: a crash can lose a journal -/

/-- The claim of C60 for a run: at every moment, every file has its old contents or the contents it has at the end. -/
def NeverLoses (sys : Sys) (log : List Eff) : Prop :=
  ∀ es, es <+: log → ∀ n, contentsAfter sys.start es n = sys.start n ∨ contentsAfter sys.start es n = contentsAfter sys.start log n

set_option maxRecDepth 100000 in
/-- C60 is false: `fmt` truncates the file before it writes it; if the machine crashes then, the journal is gone. -/
theorem C60_counterexample : ¬ ∀ sys fs, (fmtRun sys fs World.start).1 = .ok () → NeverLoses sys (fmtRun sys fs World.start).2.log := by
  intro h
  have h1 := h (Ex.system "ab" "c" (fun _ => none)) [Ex.file "a"] (by decide +kernel) [.create 97] (by decide +kernel) 97
  revert h1
  decide +kernel

/-- What is true of C60 (the full claim is `NeverLoses`; missing: moments inside the writing of a file): at the moments
between two writes, every file has its old contents or a complete new text; and at every moment, files that are
not written to have their old contents. -/
def LosesNothingBetweenWrites (sys : Sys) (targets : List FileSpec) (r : Except CmdErr Unit) (log : List Eff) : Prop :=
  ∃ plan : List (FileSpec × Str), log <+: wholeWrites sys plan ∧ (r = .ok () → log = wholeWrites sys plan) ∧
    (∀ e ∈ plan, e.1 ∈ targets) ∧
    (∀ done, done <+: plan → ∀ n, contentsAfter sys.start (wholeWrites sys done) n = sys.start n ∨
      ∃ text, Planned sys plan n text ∧ contentsAfter sys.start (wholeWrites sys done) n = some (encodeUtf8 text)) ∧
    (∀ es, es <+: log → ∀ n, (∀ f ∈ targets, fileOf sys f ≠ some n) → contentsAfter sys.start es n = sys.start n)

theorem losesNothing_of_plan {sys : Sys} {targets : List FileSpec} {r : Except CmdErr Unit} {log : List Eff}
    {plan : List (FileSpec × Str)} (h : log <+: wholeWrites sys plan) (hr : r = .ok () → log = wholeWrites sys plan)
    (ht : ∀ e ∈ plan, e.1 ∈ targets) : LosesNothingBetweenWrites sys targets r log := by
  refine ⟨plan, h, hr, ht, ?_, ?_⟩
  · rintro done ⟨rest, rfl⟩ n
    rcases contentsAfter_wholeWrites sys sys.start done n with h | ⟨text, ⟨f, h1, h2⟩, h3⟩
    · exact .inl h
    · exact .inr ⟨text, ⟨f, List.mem_append_left _ h1, h2⟩, h3⟩
  · intro es hes n hn
    apply contentsAfter_other
    intro ef hef he
    have : ef ∈ wholeWrites sys plan := (hes.trans h).subset hef
    obtain ⟨e, he1, he2⟩ := List.mem_flatMap.1 this
    rw [file_wholeWrite he2] at he
    exact hn e.1 (ht e he1) he

/-- C60 for `fmt`, as far as it goes. -/
theorem C60_fmt_partial (sys : Sys) (fs : List FileSpec) :
    LosesNothingBetweenWrites sys fs (fmtRun sys fs World.start).1 (fmtRun sys fs World.start).2.log := by
  obtain ⟨plan, h0, h1, h2⟩ := rewrittenInOrder_plan (C58_fmt sys fs)
  exact losesNothing_of_plan h1 (fun h => (h2 h).1) (fun e he => h0.subset (List.mem_map_of_mem he))

/-- C60 for `generate-fingerprints`, as far as it goes. -/
theorem C60_generate_fingerprints_partial (sys : Sys) (h : HashOrder) (fs : List FileSpec) :
    LosesNothingBetweenWrites sys fs (FpGen.run sys h fs World.start).1 (FpGen.run sys h fs World.start).2.log := by
  obtain ⟨plan, h0, h1, h2⟩ := rewrittenInOrder_plan (C58_generate_fingerprints sys h fs)
  exact losesNothing_of_plan h1 (fun h => (h2 h).1) (fun e he => h0.subset (List.mem_map_of_mem he))

/-- C60 for `merge`, as far as it goes: in particular inputs that are not also outputs are never touched. -/
theorem C60_merge_partial (sys : Sys) (ho : Nat → HashOrder) (args : MergeCmd.Args) :
    LosesNothingBetweenWrites sys (args.output :: args.unmerged.toList) (MergeCmd.run sys ho args World.start).1
      (MergeCmd.run sys ho args World.start).2.log := by
  obtain ⟨plan, h0, h1, h2⟩ := mergeCmd_plan sys ho args
  refine losesNothing_of_plan h1 h2 (fun e he => ?_)
  rcases h0 e he with h | h
  · rw [← h]; simp
  · rw [h]; simp

end Verif
