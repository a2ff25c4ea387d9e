import Verif.Props.Order
import Verif.Props.ByHandCmd

/-!
# C80: two files in either order, as the `merge` command writes them
-/

namespace Verif
open Spec Spec.Book Comment

/-- The command merges `B` after `A` and leaves nothing exactly if `OneAfter A B`. -/
theorem oneAfter_iff {A B : List TransactionPostings} :
    OneAfter A B ↔ ¬ Refused Book.empty [A, B] ∧ leftOver Book.empty [A, B] = [] := by
  rw [leftOver_cons_nil, leftOver_cons_nil]
  constructor
  · intro h
    refine ⟨?_, fun t ht hu => h.ne t ht (empty_undecided.1 hu), h.dec, rfl⟩
    rintro (hb | hb | hb)
    · exact good_iff.1 h.goodA hb
    · exact good_iff.1 h.good hb
    · exact hb
  · rintro ⟨h1, h2, h3, _⟩
    exact ⟨fun t ht he => h2 t ht (.inl he), good_iff.2 fun hb => h1 (.inl hb), good_iff.2 fun hb => h1 (.inr (.inl hb)), h3⟩

/-- A run of the command without a file for unmerged transactions, if it succeeds. -/
theorem run_without_unmerged {sys : Sys} {ho : Nat → HashOrder} {ins : List FileSpec} {out : FileSpec} {w : World} {gs : List (List TransactionPostings)}
    (hgs : mergeInputs sys false ins = some gs) (hrun : MergeCmd.run sys ho ⟨ins, none, out⟩ World.start = (.ok (), w)) :
    ¬ Refused Book.empty gs ∧ leftOver Book.empty gs = [] ∧
      w.log = wholeWrite sys out (sys.render (TransactionPostings.intoLedger HashOrder.sorted ((bookAfter gs).journal.map unsourced))) := by
  obtain ⟨gs', u, h, e1, hb, hu, hn, hlog⟩ := (mergeCmd_sat sys ho ⟨ins, none, out⟩).ok hrun
  have e1 : mergeInputs sys false ins = some gs' := e1
  rw [hgs] at e1
  cases e1
  rcases hn with rfl | hn
  · refine ⟨hb, List.forall₂_nil_right_iff.1 (handedBackAll_nil hu), ?_⟩
    rw [hlog, intoLedger_order HashOrder.sorted h]
    simp [mergePlan, wholeWrites]
  · exact absurd rfl hn

/-- C80, the `merge` command: if two files, each of one source, were merged by a run that had nothing left over, then
* the run with the files in the other order succeeds exactly if no posting of the first file is a rival, by what it says, of one that goes by
  its fingerprint, and no transaction of the first file is met by two of the second;
* then the journals that the runs write have the same transactions, as in `C80_either_order`;
* otherwise the other run fails and writes nothing. -/
theorem C80_commands (sys : Sys) (ho ho' : Nat → HashOrder) (f g out out' : FileSpec) (A B : List TransactionPostings) (w : World)
    (hf : ∀ n, sys.fault n = none)
    (hab : mergeInputs sys false [f, g] = some [A, B]) (hba : mergeInputs sys false [g, f] = some [B, A])
    (hrun : MergeCmd.run sys ho ⟨[f, g], none, out⟩ World.start = (.ok (), w)) :
    ∃ X, w.log = wholeWrite sys out (sys.render (TransactionPostings.intoLedger HashOrder.sorted (X.map unsourced))) ∧
    ∃ res w', MergeCmd.run sys ho' ⟨[g, f], none, out'⟩ World.start = (res, w') ∧
      (NoRival A B ∧ OneEach A B → res = .ok () ∧ ∃ Y Y',
        w'.log = wholeWrite sys out' (sys.render (TransactionPostings.intoLedger HashOrder.sorted (Y.map unsourced))) ∧
        Y'.Perm Y ∧ List.Forall₂ (SameMerged A B) X Y') ∧
      (¬ (NoRival A B ∧ OneEach A B) → (∃ err, res = .error err) ∧ w'.log = []) := by
  obtain ⟨h1, h2, h3⟩ := run_without_unmerged hab hrun
  have h := oneAfter_iff.2 ⟨h1, h2⟩
  refine ⟨_, h3, ?_⟩
  rcases hr : MergeCmd.run sys ho' ⟨[g, f], none, out'⟩ World.start with ⟨res, w'⟩
  refine ⟨res, w', rfl, ?_, ?_⟩
  · rintro ⟨a, b⟩
    have h' := h.back a b
    obtain ⟨b1, b2⟩ := oneAfter_iff.1 h'
    have hok := C25_succeeds_otherwise sys ho' ⟨[g, f], none, out'⟩ _ hf hba b1 (.inl b2)
    rw [hr] at hok
    simp only at hok
    subst hok
    refine ⟨rfl, ?_⟩
    obtain ⟨_, _, c⟩ := run_without_unmerged hba hr
    obtain ⟨l, hl, hfa⟩ := h.either h'
    obtain ⟨v, hv, hp⟩ := List.perm_comp_forall₂ (journal_perm _) hfa
    exact ⟨_, v, c, hp.trans (hl.trans (journal_perm _).symm), hv⟩
  · intro hn
    have hx : Refused Book.empty [B, A] ∨ leftOver Book.empty [B, A] ≠ [] := by
      by_contra hc
      rw [not_or, not_not] at hc
      have h' := oneAfter_iff.2 hc
      exact hn ⟨OneAfter.noRival h', h.oneEach h'⟩
    obtain ⟨k1, k2, _⟩ := C25_fails_before_writing sys ho' ⟨[g, f], none, out'⟩ res w' hr (.inr ⟨_, hba, hx.imp_right fun h => ⟨h, rfl⟩⟩)
    exact ⟨k1, k2⟩

/-! ### An example: the two banks of `Props/Order`, with files -/

/-- The one bank is the file `a`, the other is the file `b`. -/
noncomputable def bankSystem : Sys :=
  Ex.exactSystem (TransactionPostings.intoLedger HashOrder.sorted Ex.oneBank) (TransactionPostings.intoLedger HashOrder.sorted Ex.otherBank)

set_option maxRecDepth 100000 in
theorem banks_simple : (∀ t ∈ Ex.oneBank, Simple t) ∧ ∀ t ∈ Ex.otherBank, Simple t := by decide +kernel

theorem bank_inputs : mergeInputs bankSystem false [Ex.file "a", Ex.file "b"] =
      some [Ex.oneBank.map (sourced "a".toList), Ex.otherBank.map (sourced "b".toList)] ∧
    mergeInputs bankSystem false [Ex.file "b", Ex.file "a"] =
      some [Ex.otherBank.map (sourced "b".toList), Ex.oneBank.map (sourced "a".toList)] := by
  have h1 := (exact_ledger (TransactionPostings.intoLedger HashOrder.sorted Ex.oneBank) (TransactionPostings.intoLedger HashOrder.sorted Ex.otherBank))
  simp only [mergeInputs]
  unfold bankSystem
  simp only [(h1 _).1, (h1 _).2, Option.bind_some, C62_round_trip _ _ (fun t ht => (banks_simple.1 t ht).tidy),
    C62_round_trip _ _ (fun t ht => (banks_simple.2 t ht).tidy)]
  rw [groups_one_source _ _ ((Ex.file "a").display (Ex.exactSystem _ _)) _ (fun t ht => (banks_simple.1 t ht).source _),
    groups_one_source _ _ ((Ex.file "b").display (Ex.exactSystem _ _)) _ (fun t ht => (banks_simple.2 t ht).source _)]
  exact ⟨rfl, rfl⟩

set_option maxRecDepth 100000 in
/-- The hypotheses of `C80_commands` are met: the files of the two banks can be merged in either order, with files. -/
example (ho ho' : Nat → HashOrder) : ∃ w w',
    MergeCmd.run bankSystem ho ⟨[Ex.file "a", Ex.file "b"], none, Ex.file "o"⟩ World.start = (.ok (), w) ∧
    MergeCmd.run bankSystem ho' ⟨[Ex.file "b", Ex.file "a"], none, Ex.file "p"⟩ World.start = (.ok (), w') := by
  have hl : leftOver Book.empty [Ex.oneBank.map (sourced "a".toList), Ex.otherBank.map (sourced "b".toList)] = [] := by decide +kernel
  have hb : ¬ Refused Book.empty [Ex.oneBank.map (sourced "a".toList), Ex.otherBank.map (sourced "b".toList)] :=
    (not_refused_of_count (n := 0) (by decide +kernel)).1
  have hok := C25_succeeds_otherwise bankSystem ho ⟨[Ex.file "a", Ex.file "b"], none, Ex.file "o"⟩ _ (fun _ => rfl)
    bank_inputs.1 hb (.inl hl)
  rcases hr : MergeCmd.run bankSystem ho ⟨[Ex.file "a", Ex.file "b"], none, Ex.file "o"⟩ World.start with ⟨r, w⟩
  rw [hr] at hok
  simp only at hok
  subst hok
  obtain ⟨X, _, res, w', h1, h2, _⟩ := C80_commands bankSystem ho ho' _ _ _ (Ex.file "p") _ _ w (fun _ => rfl) bank_inputs.1 bank_inputs.2 hr
  obtain ⟨rfl, _⟩ := h2 ⟨by unfold NoRival; decide +kernel, by unfold OneEach TakenTrn Taken; decide +kernel⟩
  exact ⟨w, w', rfl, h1⟩

end Verif
