import Verif.Proofs.MergeCmd
import Verif.Examples.Systems

/-!
# C24, C25, C58, C59, C60: the commands and the files

`sys` is everything outside: contents of files, standard input, the parser and printer, and which operation fails and
how. All theorems are for every `sys`.
-/

namespace Verif
open Spec Spec.Book

/-! ## C24, C25: `merge` -/

theorem sourced_groups {h : HashOrder} {d : Str} {ts g : List TransactionPostings} (hg : g ∈ Sources.groups h d ts) :
    ∀ t ∈ g, srcKey ∈ t.trn.comment.valueTags := by
  intro t ht
  obtain ⟨_, s, hs⟩ := (C23_nothing_lost h d ts).2 g hg
  rw [Std.ExtTreeMap.mem_iff_isSome_getElem?, hs t ht]; rfl

theorem sourced_inputs {sys : Sys} {again : Bool} {fs : List FileSpec} {gs : List (List TransactionPostings)}
    (h : mergeInputs sys again fs = some gs) : ∀ g ∈ gs, ∀ t ∈ g, srcKey ∈ t.trn.comment.valueTags := by
  induction fs generalizing again gs with
  | nil => cases h; simp
  | cons f fs ih =>
    rw [mergeInputs, Option.bind_eq_some_iff] at h
    obtain ⟨L, _, h⟩ := h
    rw [Option.bind_eq_some_iff] at h
    obtain ⟨ts, _, h⟩ := h
    rw [Option.map_eq_some_iff] at h
    obtain ⟨gs', h1, rfl⟩ := h
    intro g hg
    rcases List.mem_append.1 hg with hg | hg
    · exact sourced_groups hg
    · exact ih h1 g hg

/-- C25, the names of sources: what `merge` merges comes from its input files, and the source that is noted for a transaction is the one that it
names itself; if it names none, the path of the file as it is shown, or `<stdio>` for standard input. -/
theorem C25_source_names {sys : Sys} {again : Bool} {fs : List FileSpec} {gs : List (List TransactionPostings)}
    (h : mergeInputs sys again fs = some gs) : ∀ g ∈ gs, ∀ t ∈ g, ∃ f ∈ fs, ∃ (b : Bool) (L : Ledger) (ts : List TransactionPostings),
      ledgerAt sys sys.start b f = some L ∧ TransactionPostings.fromLedger L = some ts ∧ ∃ u ∈ ts, t.posts = u.posts ∧ t.trn.raw = u.trn.raw ∧
        t.trn.comment.valueTags[srcKey]? = some ((u.trn.comment.valueTags[srcKey]?).getD
          (match f with | .stdio => "<stdio>".toList | .path p => sys.showPath p)) := by
  induction fs generalizing again gs with
  | nil => cases h; simp
  | cons f fs ih =>
    rw [mergeInputs, Option.bind_eq_some_iff] at h
    obtain ⟨L, hL, h⟩ := h
    rw [Option.bind_eq_some_iff] at h
    obtain ⟨ts, hts, h⟩ := h
    rw [Option.map_eq_some_iff] at h
    obtain ⟨gs', h1, rfl⟩ := h
    intro g hg t ht
    rcases List.mem_append.1 hg with hg | hg
    · have hm := (C23_nothing_lost HashOrder.sorted (f.display sys) ts).1.mem_iff.1 (List.mem_flatten.2 ⟨g, hg, ht⟩)
      obtain ⟨u, hu, rfl⟩ := List.mem_map.1 hm
      refine ⟨f, List.mem_cons_self, _, L, ts, hL, hts, u, hu, rfl, rfl, ?_⟩
      unfold sourced sourceOf
      rw [Std.ExtTreeMap.getElem?_insert_self]
      cases f <;> rfl
    · obtain ⟨f', hf', hx⟩ := ih h1 g hg t ht
      exact ⟨f', List.mem_cons_of_mem _ hf', hx⟩

theorem leftOver_mem {J : Book} {gs : List (List TransactionPostings)} {t : TransactionPostings} (h : t ∈ leftOver J gs) :
    ∃ g ∈ gs, t ∈ g := by
  induction gs generalizing J with
  | nil => cases h
  | cons g gs ih =>
    rcases List.mem_append.1 h with h | h
    · exact ⟨g, by simp, (List.mem_filter.1 h).1⟩
    · obtain ⟨g', hg', ht⟩ := ih h
      exact ⟨g', List.mem_cons_of_mem _ hg', ht⟩

theorem forall₂_mem_right {α β : Type} {Rel : α → β → Prop} {l : List α} {l' : List β} (h : List.Forall₂ Rel l l') {b : β}
    (hb : b ∈ l') : ∃ a ∈ l, Rel a b := by
  obtain ⟨a, ha, hr⟩ := forall₂_mem_left h.flip hb
  exact ⟨a, ha, hr⟩

/-- C24: what the `merge` command writes, if it writes anything, are unmerged transactions that all have their source
noted, and the merged journal, in which no source is noted and nothing else is changed. -/
theorem C24_sources_in_outputs (sys : Sys) (ho : Nat → HashOrder) (args : MergeCmd.Args) (r : Except CmdErr Unit) (w : World)
    (hr : MergeCmd.run sys ho args World.start = (r, w)) (hw : r = .ok () ∨ w.log ≠ []) :
    ∃ h unmerged merged journal, w.log <+: wholeWrites sys (mergePlan sys h args unmerged merged) ∧
      (r = .ok () → w.log = wholeWrites sys (mergePlan sys h args unmerged merged)) ∧
      (∀ t ∈ unmerged, srcKey ∈ t.trn.comment.valueTags) ∧
      (∀ t ∈ merged, srcKey ∉ t.trn.comment.valueTags) ∧
      List.Forall₂ (fun j t => t = unsourced j) journal merged ∧
      ∃ calls : History, mergeInputs sys false args.inputs = some (inputs calls) ∧ (run calls).build h = .ok journal := by
  have key : ∀ gs u, mergeInputs sys false args.inputs = some gs → ¬ Refused Book.empty gs → HandedBackAll Book.empty gs u →
      (∀ t ∈ u, srcKey ∈ t.trn.comment.valueTags) ∧
      (∀ t ∈ (bookAfter gs).journal.map unsourced, srcKey ∉ t.trn.comment.valueTags) ∧
      List.Forall₂ (fun j t => t = unsourced j) (bookAfter gs).journal ((bookAfter gs).journal.map unsourced) ∧
      ∀ h, ∃ calls : History, mergeInputs sys false args.inputs = some (inputs calls) ∧
        (run calls).build h = .ok (bookAfter gs).journal := by
    intro gs u h1 h2 h3
    refine ⟨?_, ?_, ?_, ?_⟩
    · intro t ht
      obtain ⟨t', ht', he⟩ := forall₂_mem_right (handedBackAll_nil h3) ht
      obtain ⟨g, hg, htg⟩ := leftOver_mem ht'
      rw [he]
      exact sourced_inputs h1 g hg t' htg
    · intro t ht
      obtain ⟨j, _, rfl⟩ := List.mem_map.1 ht
      simp [unsourced]
    · rw [List.forall₂_map_right_iff, List.forall₂_same]
      intro _ _; rfl
    · intro h
      have : Spec.inputs (gs.map (fun g => (h, g))) = gs := by
        unfold Spec.inputs
        rw [List.map_map]
        conv => rhs; rw [← List.map_id gs]
        rfl
      refine ⟨gs.map (fun g => (h, g)), by rw [this]; exact h1, ?_⟩
      rw [(run_refines _).build, this]
      congr 2
      unfold bookAfter ofHistory
      clear this h1 h3
      generalize Book.empty = J at h2 ⊢
      induction gs generalizing J with
      | nil => rfl
      | cons g gs ih =>
        rw [List.foldl_cons, List.foldl_cons]
        have hb : ¬ J.Bad g := fun h => h2 (.inl h)
        have : J.step g = J.after g := by
          unfold Book.step; rw [if_neg hb]
        rw [this]
        exact ih _ (fun h => h2 (.inr h))
  have hs := mergeCmd_sat sys ho args
  cases r with
  | ok _ =>
    obtain ⟨gs, u, h, h1, h2, h3, h4, h5⟩ := hs.ok hr
    obtain ⟨k1, k2, k3, k4⟩ := key gs u h1 h2 h3
    exact ⟨h, u, _, _, by rw [h5]; exact List.prefix_rfl, fun _ => h5, k1, k2, k3, k4 h⟩
  | error e =>
    rcases hs.err hr with ⟨h1, _⟩ | ⟨_, _, gs, u, h, h1, h2, h3, h4, h5⟩
    · rcases hw with hw | hw
      · cases hw
      · exact absurd h1 hw
    · obtain ⟨k1, k2, k3, k4⟩ := key gs u h1 h2 h3
      exact ⟨h, u, _, _, h5, fun h => by (cases h), k1, k2, k3, k4 h⟩

/-- C25: if an input cannot be read, or is no ledger of transactions, or a merge call is refused, or something is left
unmerged and there is no file for it, then the command fails and has not done anything to any file. -/
theorem C25_fails_before_writing (sys : Sys) (ho : Nat → HashOrder) (args : MergeCmd.Args) (r : Except CmdErr Unit) (w : World)
    (hr : MergeCmd.run sys ho args World.start = (r, w))
    (hbad : mergeInputs sys false args.inputs = none ∨ ∃ gs, mergeInputs sys false args.inputs = some gs ∧
      (Refused Book.empty gs ∨ (leftOver Book.empty gs ≠ [] ∧ args.unmerged = none))) :
    (∃ e, r = .error e) ∧ w.log = [] ∧ contentsAfter sys.start w.log = sys.start := by
  have key : ∀ gs u, mergeInputs sys false args.inputs = some gs → ¬ Refused Book.empty gs → HandedBackAll Book.empty gs u →
      (u = [] ∨ args.unmerged ≠ none) → False := by
    intro gs u h1 h2 h3 h4
    rcases hbad with hbad | ⟨gs', hgs', hbad⟩
    · rw [h1] at hbad; cases hbad
    · have : gs' = gs := Option.some.inj (hgs'.symm.trans h1)
      subst this
      rcases hbad with hbad | ⟨hl, ha⟩
      · exact h2 hbad
      · rcases h4 with rfl | h4
        · have := handedBackAll_nil h3
          cases hx : leftOver Book.empty gs' with
          | nil => exact hl hx
          | cons _ _ => rw [hx] at this; cases this
        · exact h4 ha
  have hs := mergeCmd_sat sys ho args
  cases r with
  | ok _ =>
    obtain ⟨gs, u, h, h1, h2, h3, h4, h5⟩ := hs.ok hr
    exact (key gs u h1 h2 h3 h4).elim
  | error e =>
    rcases hs.err hr with ⟨h1, _⟩ | ⟨_, _, gs, u, h, h1, h2, h3, h4, h5⟩
    · exact ⟨⟨e, rfl⟩, h1, by rw [h1]; rfl⟩
    · exact (key gs u h1 h2 h3 h4).elim

/-- C25: the unmerged transactions are written before the journal, each file in full before the next; if the command
fails after the first byte was written, then because a file could not be created or written. -/
theorem C25_unmerged_before_output (sys : Sys) (ho : Nat → HashOrder) (args : MergeCmd.Args) (r : Except CmdErr Unit) (w : World)
    (hr : MergeCmd.run sys ho args World.start = (r, w)) :
    (w.log = [] ∧ ∃ e, r = .error e) ∨
    ∃ h gs u, mergeInputs sys false args.inputs = some gs ∧ ¬ Refused Book.empty gs ∧ HandedBackAll Book.empty gs u ∧
      w.log <+: (match args.unmerged with
        | some f => if leftOver Book.empty gs = [] then [] else wholeWrite sys f (sys.render (TransactionPostings.intoLedger h u))
        | none => []) ++
        wholeWrite sys args.output (sys.render (TransactionPostings.intoLedger h ((bookAfter gs).journal.map unsourced))) ∧
      (r = .ok () → w.log = (match args.unmerged with
        | some f => if leftOver Book.empty gs = [] then [] else wholeWrite sys f (sys.render (TransactionPostings.intoLedger h u))
        | none => []) ++
        wholeWrite sys args.output (sys.render (TransactionPostings.intoLedger h ((bookAfter gs).journal.map unsourced)))) ∧
      (r = .ok () ∨ r = .error .create ∨ r = .error .write) := by
  have key : ∀ h gs u, HandedBackAll Book.empty gs u →
      wholeWrites sys (mergePlan sys h args u ((bookAfter gs).journal.map unsourced)) =
      (match args.unmerged with
        | some f => if leftOver Book.empty gs = [] then [] else wholeWrite sys f (sys.render (TransactionPostings.intoLedger h u))
        | none => []) ++
        wholeWrite sys args.output (sys.render (TransactionPostings.intoLedger h ((bookAfter gs).journal.map unsourced))) := by
    intro h gs u hu
    have : leftOver Book.empty gs = [] ↔ u = [] := by
      have h2 := handedBackAll_nil hu
      cases hx : leftOver Book.empty gs <;> rw [hx] at h2 <;> cases h2 <;> simp
    unfold mergePlan
    cases args.unmerged with
    | none => simp [wholeWrites]
    | some f =>
      by_cases hn : u = []
      · simp [wholeWrites, hn, this.2 hn]
      · simp [wholeWrites, hn, mt this.1 hn]
  have hs := mergeCmd_sat sys ho args
  cases r with
  | ok _ =>
    obtain ⟨gs, u, h, h1, h2, h3, h4, h5⟩ := hs.ok hr
    rw [key h gs u h3] at h5
    exact .inr ⟨h, gs, u, h1, h2, h3, by rw [h5]; exact List.prefix_rfl, fun _ => h5, .inl rfl⟩
  | error e =>
    rcases hs.err hr with ⟨h1, _⟩ | ⟨hw, _, gs, u, h, h1, h2, h3, h4, h5⟩
    · exact .inl ⟨h1, e, rfl⟩
    · rw [key h gs u h3] at h5
      refine .inr ⟨h, gs, u, h1, h2, h3, h5, fun h => by (cases h), .inr ?_⟩
      cases e <;> first | exact .inl rfl | exact .inr rfl | cases hw

/-- C25, the converse: if no operation on files fails and none of this is the case, the command succeeds. -/
theorem C25_succeeds_otherwise (sys : Sys) (ho : Nat → HashOrder) (args : MergeCmd.Args) (gs : List (List TransactionPostings))
    (hf : ∀ n, sys.fault n = none) (hgs : mergeInputs sys false args.inputs = some gs) (hb : ¬ Refused Book.empty gs)
    (hu : leftOver Book.empty gs = [] ∨ args.unmerged ≠ none) :
    (MergeCmd.run sys ho args World.start).1 = .ok () := by
  have hs := mergeCmd_sat sys ho args
  rcases hr : MergeCmd.run sys ho args World.start with ⟨e | ⟨⟩, w⟩
  · exfalso
    rcases hs.err hr with ⟨_, h1⟩ | ⟨_, h, _⟩
    · rcases h1 hf gs hgs with h | ⟨h, h'⟩
      · exact hb h
      · rcases hu with hu | hu
        · exact h hu
        · exact hu h'
    · exact h hf
  · rfl

/-! Examples: file `a` has two transactions, file `b` has one that merges into the first; and with two equal postings in
file `a` and a third one in file `b` that could be either. -/

/-- No unmerged file is given. -/
def exArgs : MergeCmd.Args := ⟨[Ex.file "a", Ex.file "b"], none, Ex.file "o"⟩

theorem not_refused_of_eval {gs : List (List TransactionPostings)} {acc : MergeCmd.Acc}
    (h : MergeCmd.mergeGroups (fun _ => HashOrder.sorted) gs ⟨0, Merger.new, []⟩ = .ok acc) :
    ¬ Refused Book.empty gs ∧ (leftOver Book.empty gs).length = acc.unmerged.length := by
  rcases mergeGroups_spec (fun _ => HashOrder.sorted) gs ⟨0, Merger.new, []⟩ R_new with ⟨_, e, h'⟩ | ⟨h1, acc', u, h2, _, h3, h4⟩
  · rw [h] at h'; cases h'
  · rw [h] at h2; cases h2
    refine ⟨h1, ?_⟩
    rw [h3, (handedBackAll_nil h4).length_eq]; rfl

/-- The number of unmerged transactions. -/
def unmergedCount (gs : List (List TransactionPostings)) : Option Nat :=
  match MergeCmd.mergeGroups (fun _ => HashOrder.sorted) gs ⟨0, Merger.new, []⟩ with
  | .ok acc => some acc.unmerged.length
  | .error _ => none

theorem not_refused_of_count {gs : List (List TransactionPostings)} {n : Nat} (h : unmergedCount gs = some n) :
    ¬ Refused Book.empty gs ∧ (leftOver Book.empty gs).length = n := by
  unfold unmergedCount at h
  split at h
  · rename_i acc hacc
    cases h
    exact not_refused_of_eval hacc
  · cases h

set_option maxRecDepth 100000 in
/-- The hypotheses of `C25_succeeds_otherwise` are met: everything is merged. -/
example (ho : Nat → HashOrder) : (MergeCmd.run (Ex.system "ab" "c" (fun _ => none)) ho exArgs World.start).1 = .ok () := by
  have h1 : (mergeInputs (Ex.system "ab" "c" (fun _ => none)) false exArgs.inputs).bind unmergedCount = some 0 := by
    simp only [mergeInputs, exArgs, groups_eval]; decide +kernel
  cases hgs : mergeInputs (Ex.system "ab" "c" (fun _ => none)) false exArgs.inputs with
  | none => rw [hgs] at h1; cases h1
  | some gs =>
    rw [hgs] at h1
    obtain ⟨h2, h3⟩ := not_refused_of_count h1
    exact C25_succeeds_otherwise _ ho exArgs gs (fun _ => rfl) hgs h2 (.inl (List.length_eq_zero_iff.1 h3))

set_option maxRecDepth 100000 in
/-- The hypotheses of `C25_fails_before_writing` are met: the transaction in file `b` could be either of those in `a`. -/
example : ∃ gs, mergeInputs (Ex.system "tu" "v" (fun _ => none)) false exArgs.inputs = some gs ∧
    leftOver Book.empty gs ≠ [] ∧ exArgs.unmerged = none := by
  have h1 : (mergeInputs (Ex.system "tu" "v" (fun _ => none)) false exArgs.inputs).bind unmergedCount = some 1 := by
    simp only [mergeInputs, exArgs, groups_eval]; decide +kernel
  cases hgs : mergeInputs (Ex.system "tu" "v" (fun _ => none)) false exArgs.inputs with
  | none => rw [hgs] at h1; cases h1
  | some gs =>
    rw [hgs] at h1
    obtain ⟨_, h3⟩ := not_refused_of_count h1
    refine ⟨gs, rfl, ?_, rfl⟩
    intro h; rw [h] at h3; cases h3

set_option maxRecDepth 100000 in
/-- Another way to meet them: file `b` is no ledger. -/
example : mergeInputs (Ex.system "tu" "?" (fun _ => none)) false exArgs.inputs = none := by
  simp only [mergeInputs, exArgs, groups_eval]; decide +kernel

end Verif
