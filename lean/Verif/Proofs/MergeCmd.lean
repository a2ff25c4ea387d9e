import Verif.Spec.MergeCmd
import Verif.Proofs.Files
import Verif.Proofs.Outcome
import Verif.Props.Sources
import Verif.Props.Matching3

/-!
# Lemmas about the `merge` command
-/

namespace Verif
open Spec Spec.Book

theorem handBack_by {J : Book} (hw : J.WF) {pick : Nat → Str} (hpick : ∀ i r, J.recs[i]? = some r → pick i ∈ fps r.post)
    (t : TransactionPostings) : HandedBackBy J t (J.handBack pick t) := by
  refine ⟨handBack_handedBack hw hpick t, ?_⟩
  unfold handBack
  rw [List.forall₂_map_right_iff, List.forall₂_same]
  intro p _
  rw [← candidates_eq]
  exact handBackPost_annotated hpick _ p

theorem handedBackAll_append {J : Book} {gs gs' : List (List TransactionPostings)} {u u' : List TransactionPostings}
    (h : HandedBackAll J gs u) (h' : HandedBackAll (gs.foldl Book.after J) gs' u') :
    HandedBackAll J (gs ++ gs') (u ++ u') := by
  induction gs generalizing J u with
  | nil => cases h; exact h'
  | cons g gs ih =>
    obtain ⟨u₁, u₂, rfl, h1, h2⟩ := h
    exact ⟨u₁, u₂ ++ u', by simp, h1, ih h2 h'⟩

theorem refused_append {J : Book} {gs gs' : List (List TransactionPostings)} :
    Refused J (gs ++ gs') ↔ Refused J gs ∨ Refused (gs.foldl Book.after J) gs' := by
  induction gs generalizing J with
  | nil => simp [Refused]
  | cons g gs ih => simp [Refused, ih, or_assoc]

theorem handedBackAll_nil {J : Book} {gs : List (List TransactionPostings)} {u : List TransactionPostings}
    (h : HandedBackAll J gs u) : List.Forall₂ (fun t u => u.trn = t.trn) (leftOver J gs) u := by
  induction gs generalizing J u with
  | nil => cases h; exact .nil
  | cons g gs ih =>
    obtain ⟨u₁, u₂, rfl, h1, h2⟩ := h
    exact List.rel_append (h1.imp (fun _ _ h => h.1.1)) (ih h2)

theorem mergeGroups_spec (ho : Nat → HashOrder) (gs : List (List TransactionPostings)) (acc : MergeCmd.Acc) {J : Book}
    (hR : R acc.merger J) :
    (Refused J gs ∧ ∃ e, MergeCmd.mergeGroups ho gs acc = .error (.merge e)) ∨
    (¬ Refused J gs ∧ ∃ acc' u, MergeCmd.mergeGroups ho gs acc = .ok acc' ∧ R acc'.merger (gs.foldl Book.after J) ∧
      acc'.unmerged = acc.unmerged ++ u ∧ HandedBackAll J gs u) := by
  induction gs generalizing acc J with
  | nil => exact .inr ⟨id, acc, [], rfl, hR, by simp, rfl⟩
  | cons g gs ih =>
    unfold MergeCmd.mergeGroups
    rcases merge_spec hR (ho acc.calls) g with ⟨hb, e, he, _⟩ | ⟨hb, m', he, hR'⟩
    · rw [he]
      exact .inl ⟨.inl hb, e, rfl⟩
    · rw [he]
      simp only
      rcases ih ⟨acc.calls + 1, m', acc.unmerged ++ J.handedBack (pickFp (ho acc.calls) J) g⟩ hR' with
        ⟨h1, e, h2⟩ | ⟨h1, acc', u, h2, h3, h4, h5⟩
      · exact .inl ⟨.inr h1, e, h2⟩
      · refine .inr ⟨fun h => h.elim hb h1, acc', J.handedBack (pickFp (ho acc.calls) J) g ++ u, h2, h3, ?_, _, u, rfl, ?_, h5⟩
        · rw [h4, List.append_assoc]
        · unfold handedBack
          rw [List.forall₂_map_right_iff, List.forall₂_same]
          intro t _
          exact handBack_by hR.wf (pickFp_ok hR.wf) t

theorem readInputs_sat (sys : Sys) (ho : Nat → HashOrder) (fs : List FileSpec) (acc : MergeCmd.Acc) {J : Book}
    (hR : R acc.merger J) (w : World) (hw : w.log = []) :
    Sat (MergeCmd.readInputs sys ho fs acc) w
      (fun acc' w' => w'.log = [] ∧ ∃ gs u, mergeInputs sys w.stdinRead fs = some gs ∧ ¬ Refused J gs ∧
        R acc'.merger (gs.foldl Book.after J) ∧ acc'.unmerged = acc.unmerged ++ u ∧ HandedBackAll J gs u)
      (fun _ w' => w'.log = [] ∧ ((∀ n, sys.fault n = none) →
        ∀ gs, mergeInputs sys w.stdinRead fs = some gs → Refused J gs)) := by
  induction fs generalizing acc J w with
  | nil =>
    apply Sat.pure
    exact ⟨hw, [], [], rfl, id, hR, by simp, rfl⟩
  | cons f fs ih =>
    unfold MergeCmd.readInputs Sources.readLedgerFile
    apply Sat.bind; apply Sat.bind
    refine (readLedgerFile_sat sys f w).imp ?_ ?_
    · rintro L w₁ ⟨h1, _, h2, h3⟩
      rw [hw] at h1 h3
      replace h3 : ledgerAt sys sys.start w.stdinRead f = some L := h3
      have hin : mergeInputs sys w.stdinRead (f :: fs) = (TransactionPostings.fromLedger L).bind fun ts =>
          (mergeInputs sys w₁.stdinRead fs).map (Sources.groups HashOrder.sorted (f.display sys) ts ++ ·) := by
        rw [mergeInputs, h3, h2]; rfl
      apply Sat.bind
      apply Sat.ofOption
      · intro ts hts
        apply Sat.pure
        rw [hts] at hin
        rw [C23_deterministic _ HashOrder.sorted]
        rcases mergeGroups_spec ho (Sources.groups HashOrder.sorted (f.display sys) ts) acc hR with
          ⟨h4, e, h5⟩ | ⟨h4, acc', u, h5, h6, h7, h8⟩
        · rw [h5]
          apply Sat.fail
          refine ⟨h1, fun _ gs hgs => ?_⟩
          rw [hin] at hgs
          simp only [Option.bind_some, Option.map_eq_some_iff] at hgs
          obtain ⟨gs', _, rfl⟩ := hgs
          exact refused_append.2 (.inl h4)
        · rw [h5]
          refine (ih acc' h6 w₁ h1).imp ?_ ?_
          · rintro acc'' w₂ ⟨g1, gs, u', g2, g3, g4, g5, g6⟩
            refine ⟨g1, _, u ++ u', by rw [hin, g2]; rfl, ?_, ?_, ?_, ?_⟩
            · rw [refused_append]
              exact fun h => h.elim h4 g3
            · rw [List.foldl_append]; exact g4
            · rw [g5, h7, List.append_assoc]
            · exact handedBackAll_append h8 g6
          · rintro e w₂ ⟨g1, g2⟩
            refine ⟨g1, fun hn gs hgs => ?_⟩
            rw [hin] at hgs
            simp only [Option.bind_some, Option.map_eq_some_iff] at hgs
            obtain ⟨gs', h9, rfl⟩ := hgs
            exact refused_append.2 (.inr (g2 hn gs' h9))
      · intro hts
        refine ⟨h1, fun _ gs hgs => ?_⟩
        rw [hin, hts] at hgs
        cases hgs
    · rintro e w₁ ⟨h1, _, h2⟩
      refine ⟨h1.trans hw, fun hn gs hgs => ?_⟩
      have := h2 hn
      rw [hw] at this
      replace this : ledgerAt sys sys.start w.stdinRead f = none := this
      rw [mergeInputs, this] at hgs
      cases hgs

/-- Everything about a run of the `merge` command. -/
theorem mergeCmd_sat (sys : Sys) (ho : Nat → HashOrder) (args : MergeCmd.Args) :
    Sat (MergeCmd.run sys ho args) World.start
      (fun _ w => ∃ gs u h, mergeInputs sys false args.inputs = some gs ∧ ¬ Refused Book.empty gs ∧
        HandedBackAll Book.empty gs u ∧ (u = [] ∨ args.unmerged ≠ none) ∧
        w.log = wholeWrites sys (mergePlan sys h args u ((bookAfter gs).journal.map unsourced)))
      (fun e w => (w.log = [] ∧ ((∀ n, sys.fault n = none) → ∀ gs, mergeInputs sys false args.inputs = some gs →
          Refused Book.empty gs ∨ (leftOver Book.empty gs ≠ [] ∧ args.unmerged = none))) ∨
        (e.isWrite = true ∧ (¬ ∀ n, sys.fault n = none) ∧ ∃ gs u h, mergeInputs sys false args.inputs = some gs ∧ ¬ Refused Book.empty gs ∧
          HandedBackAll Book.empty gs u ∧ (u = [] ∨ args.unmerged ≠ none) ∧
          w.log <+: wholeWrites sys (mergePlan sys h args u ((bookAfter gs).journal.map unsourced)))) := by
  unfold MergeCmd.run
  apply Sat.bind
  refine (readInputs_sat sys ho args.inputs ⟨0, Merger.new, []⟩ R_new World.start rfl).imp ?_ ?_
  · rintro acc w₁ ⟨h1, gs, u, h2, h3, h4, h5, h6⟩
    have hu : acc.unmerged = u := by simpa using h5
    rw [hu]
    apply Sat.bind
    have hstrip : ∀ ts, Sources.stripSources ts = ts.map unsourced := fun _ => rfl
    have hbuild := h4.build (ho acc.calls)
    rw [hbuild]
    simp only [hstrip]
    change Sat _ _ (fun _ w' => Sat (Files.writeFile sys args.output _) _ _ _) _
    unfold MergeCmd.writeUnmerged
    by_cases hue : u = []
    · rw [if_pos (by simp [hue])]
      apply Sat.pure
      have hplan : mergePlan sys (ho acc.calls) args u ((bookAfter gs).journal.map unsourced) =
          [(args.output, sys.render (TransactionPostings.intoLedger (ho acc.calls) ((bookAfter gs).journal.map unsourced)))] := by
        unfold mergePlan
        cases args.unmerged <;> simp [hue]
      refine (writeFile_sat _ _ _ _).imp ?_ ?_
      · rintro _ w₂ ⟨g1, _, _⟩
        refine ⟨gs, u, ho acc.calls, h2, h3, h6, .inl hue, ?_⟩
        rw [hplan, g1, h1]; simp [wholeWrites, bookAfter]
      · rintro e w₂ ⟨⟨n, g1, g2⟩, g3⟩
        refine .inr ⟨by rcases g2 with ⟨rfl, _⟩ | rfl <;> rfl, g3, gs, u, ho acc.calls, h2, h3, h6, .inl hue, ?_⟩
        rw [hplan, g1, h1]
        simp only [wholeWrites, List.flatMap_cons, List.flatMap_nil, List.append_nil, List.nil_append]
        exact List.take_prefix _ _
    · rw [if_neg (by simpa using hue)]
      cases ha : args.unmerged with
      | none =>
        apply Sat.fail
        refine .inl ⟨h1, fun _ gs' hgs' => .inr ⟨?_, rfl⟩⟩
        have : gs' = gs := by
          have := h2.symm.trans hgs'
          exact (Option.some.inj this).symm
        rw [this]
        intro hl
        have := handedBackAll_nil h6
        rw [hl] at this
        cases this
        exact hue rfl
      | some f =>
        have hplan : mergePlan sys (ho acc.calls) args u ((bookAfter gs).journal.map unsourced) =
            [(f, sys.render (TransactionPostings.intoLedger (ho acc.calls) u)),
             (args.output, sys.render (TransactionPostings.intoLedger (ho acc.calls) ((bookAfter gs).journal.map unsourced)))] := by
          unfold mergePlan
          rw [ha]
          simp [hue]
        refine (writeFile_sat _ _ _ _).imp ?_ ?_
        · rintro _ w₂ ⟨g1, _, _⟩
          refine (writeFile_sat _ _ _ _).imp ?_ ?_
          · rintro _ w₃ ⟨k1, _, _⟩
            refine ⟨gs, u, ho acc.calls, h2, h3, h6, .inr (by simp), ?_⟩
            rw [hplan, k1, g1, h1]; simp [wholeWrites, bookAfter]
          · rintro e w₃ ⟨⟨n, k1, k2⟩, k3⟩
            refine .inr ⟨by rcases k2 with ⟨rfl, _⟩ | rfl <;> rfl, k3, gs, u, ho acc.calls, h2, h3, h6, .inr (by simp), ?_⟩
            rw [hplan, k1, g1, h1]
            simp only [wholeWrites, List.flatMap_cons, List.flatMap_nil, List.append_nil, List.nil_append]
            rw [List.prefix_append_right_inj]
            exact List.take_prefix _ _
        · rintro e w₂ ⟨⟨n, g1, g2⟩, g3⟩
          refine .inr ⟨by rcases g2 with ⟨rfl, _⟩ | rfl <;> rfl, g3, gs, u, ho acc.calls, h2, h3, h6, .inr (by simp), ?_⟩
          rw [hplan, g1, h1]
          simp only [wholeWrites, List.flatMap_cons, List.flatMap_nil, List.append_nil, List.nil_append]
          exact (List.take_prefix _ _).trans (List.prefix_append _ _)
  · rintro e w₁ ⟨h1, h2⟩
    exact .inl ⟨h1, fun hn gs hgs => .inl (h2 hn gs hgs)⟩

end Verif
