import Verif.Props.Session
import Verif.Props.CrashMoment

/-!
# C60: exactly when nothing can be lost

The claim of C60 is that a crash at any moment leaves every file with its old or its new contents. It is false in general
(`C60_counterexample`). Here is exactly when it is true of a run.
-/

namespace Verif
open Spec

/-- What can be in a file at some moment of a list of whole writes: what was in it, or the first bytes of one of the texts for it, however
many. -/
theorem C60_moments (sys : Sys) (plan : List (FileSpec × Str)) (n : Nat) (c : Option Bytes) :
    (∃ es, es <+: wholeWrites sys plan ∧ contentsAfter sys.start es n = c) ↔
    c = sys.start n ∨ ∃ f text j, (f, text) ∈ plan ∧ fileOf sys f = some n ∧ c = some ((encodeUtf8 text).take j) := by
  constructor
  · rintro ⟨es, hes, rfl⟩
    obtain ⟨current, h⟩ := crash_point hes
    rcases h n with h | ⟨text, ⟨f, hf, hn⟩, h⟩ | ⟨_, text, k, ⟨f, hf, hn⟩, h⟩
    · exact .inl h
    · exact .inr ⟨f, text, (encodeUtf8 text).length, hf, hn, by rw [h, List.take_length]⟩
    · exact .inr ⟨f, text, k, hf, hn, h⟩
  · rintro (rfl | ⟨f, text, j, hf, hn, rfl⟩)
    · exact ⟨[], List.nil_prefix, rfl⟩
    · obtain ⟨a, b, rfl⟩ := List.append_of_mem hf
      refine ⟨wholeWrites sys a ++ (wholeWrite sys f text).take (j + 1), ?_, ?_⟩
      · rw [wholeWrites_append, show wholeWrites sys ((f, text) :: b) = wholeWrite sys f text ++ wholeWrites sys b from List.flatMap_cons,
          List.prefix_append_right_inj]
        exact (List.take_prefix _ _).trans (List.prefix_append _ _)
      · rw [contentsAfter_append]
        unfold wholeWrite
        rw [hn]
        simp only [List.take_succ_cons, contentsAfter]
        rw [← List.map_take, contentsAfter_writes] <;> simp

/-- **C60.** Exactly when nothing can be lost: at no number of bytes of any text may the file be anything but what it was or what it is in
the end. -/
theorem C60_exact (sys : Sys) (plan : List (FileSpec × Str)) : NeverLoses sys (wholeWrites sys plan) ↔
    ∀ f text n j, (f, text) ∈ plan → fileOf sys f = some n →
      some ((encodeUtf8 text).take j) = sys.start n ∨ some ((encodeUtf8 text).take j) = contentsAfter sys.start (wholeWrites sys plan) n := by
  constructor
  · intro h f text n j hf hn
    obtain ⟨es, hes, he⟩ := (C60_moments sys plan n (some ((encodeUtf8 text).take j))).2 (.inr ⟨f, text, j, hf, hn, rfl⟩)
    rw [← he]
    exact h es hes n
  · intro h es hes n
    rcases (C60_moments sys plan n _).1 ⟨es, hes, rfl⟩ with h' | ⟨f, text, j, hf, hn, h'⟩
    · exact .inl h'
    · rw [h']
      exact h f text n j hf hn

theorem contentsAfter_once {sys : Sys} {plan : List (FileSpec × Str)} (hd : (plan.filterMap fun e => fileOf sys e.1).Nodup) {f : FileSpec}
    {text : Str} {n : Nat} (hf : (f, text) ∈ plan) (hn : fileOf sys f = some n) (start : Nat → Option Bytes) :
    contentsAfter start (wholeWrites sys plan) n = some (encodeUtf8 text) := by
  induction plan generalizing start with
  | nil => cases hf
  | cons e plan ih =>
    rw [show wholeWrites sys (e :: plan) = wholeWrite sys e.1 e.2 ++ wholeWrites sys plan from List.flatMap_cons, contentsAfter_append]
    rcases List.mem_cons.1 hf with rfl | hf
    · rw [List.filterMap_cons, hn, List.nodup_cons] at hd
      rw [contentsAfter_other]
      · rw [contentsAfter_whole, if_pos hn]
      · intro x hx he
        obtain ⟨y, hy1, hy2⟩ := List.mem_flatMap.1 hx
        rw [file_wholeWrite hy2] at he
        exact hd.1 (List.mem_filterMap.2 ⟨y, hy1, he⟩)
    · refine ih ?_ hf _
      rw [List.filterMap_cons] at hd
      split at hd
      · exact hd
      · exact (List.nodup_cons.1 hd).2

/-- **C60.** For every successful run of every command that writes to each file at most once: nothing can be lost exactly if every text that
is written to a file is empty, or is a single byte and the file was there and empty. -/
theorem C60_exact_command (sys : Sys) (o : Outside) (cmd : SubCommand) (h : (cmd.run sys o World.start).1 = .ok ()) :
    ∃ plan : List (FileSpec × Str), (∀ e ∈ plan, Target cmd e.1) ∧ (cmd.run sys o World.start).2.log = wholeWrites sys plan ∧
      ((plan.filterMap fun e => fileOf sys e.1).Nodup →
        (NeverLoses sys (cmd.run sys o World.start).2.log ↔ ∀ f text n, (f, text) ∈ plan → fileOf sys f = some n →
          encodeUtf8 text = [] ∨ (sys.start n = some [] ∧ (encodeUtf8 text).length = 1))) := by
  obtain ⟨plan, h1, _, h2⟩ := command_plan sys o cmd
  refine ⟨plan, h1, h2 h, fun hd => ?_⟩
  rw [h2 h, C60_exact]
  constructor
  · intro hx f text n hf hn
    have hy := fun j => hx f text n j hf hn
    simp only [contentsAfter_once hd hf hn] at hy
    by_cases he : encodeUtf8 text = []
    · exact .inl he
    · right
      have hs : sys.start n = some [] := by
        rcases hy 0 with h | h
        · exact h.symm
        · exact absurd (Option.some.inj h).symm he
      refine ⟨hs, ?_⟩
      rcases hy 1 with h | h
      · rw [hs] at h
        have h := congrArg List.length (Option.some.inj h)
        have := List.length_pos_iff.2 he
        simp at h
        exact absurd h he
      · have h := congrArg List.length (Option.some.inj h)
        have := List.length_pos_iff.2 he
        rw [List.length_take] at h
        omega
  · intro hx f text n j hf hn
    rw [contentsAfter_once hd hf hn]
    rcases hx f text n hf hn with h | ⟨h, h'⟩
    · right; rw [h]; simp
    · cases j with
      | zero => left; rw [h]; rfl
      | succ j => right; rw [List.take_of_length_le (by omega)]

set_option maxRecDepth 100000 in
/-- Both sides occur: reformatting a journal of one transaction in the file `a` loses it at some moment, and a file `b` that is empty and
stays empty is never in danger. -/
example : ¬ NeverLoses (Ex.system "a" "" fun _ => none) (fmtRun (Ex.system "a" "" fun _ => none) [Ex.file "a"] World.start).2.log ∧
    NeverLoses (Ex.system "a" "" fun _ => none) (fmtRun (Ex.system "a" "" fun _ => none) [Ex.file "b"] World.start).2.log := by
  constructor
  · have h := (C60_exact (Ex.system "a" "" fun _ => none) [(Ex.file "a", ['s'])]).not
    have e : (fmtRun (Ex.system "a" "" fun _ => none) [Ex.file "a"] World.start).2.log =
        wholeWrites (Ex.system "a" "" fun _ => none) [(Ex.file "a", ['s'])] := by decide +kernel
    rw [e, h]
    intro hx
    have := hx (Ex.file "a") ['s'] 97 0 (by simp) (by decide +kernel)
    revert this
    decide +kernel
  · have e : (fmtRun (Ex.system "a" "" fun _ => none) [Ex.file "b"] World.start).2.log =
        wholeWrites (Ex.system "a" "" fun _ => none) [(Ex.file "b", [])] := by decide +kernel
    rw [e, C60_exact]
    intro f text n j hf hn
    obtain ⟨rfl, rfl⟩ : f = Ex.file "b" ∧ text = [] := by simpa using hf
    have hn' : fileOf (Ex.system "a" "" fun _ => none) (Ex.file "b") = some 98 := by decide +kernel
    rw [hn'] at hn
    cases hn
    left
    rw [show encodeUtf8 [] = [] from rfl, List.take_nil]
    decide +kernel

end Verif
