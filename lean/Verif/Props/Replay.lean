import Verif.Proofs.Replay

/-!
# C18: merging the result with all its inputs
-/

namespace Verif
open Spec Spec.Book Ex

theorem made_of_allMerged {m : Merger} {J : Book} (hR : R m J) {done : List (List TransactionPostings)} (hm : Made J done)
    (calls : History) (hall : AllMerged m calls) :
    Made ((inputs calls).foldl Book.step J) (done ++ inputs calls) := by
  induction calls generalizing m J done with
  | nil => simpa [inputs] using hm
  | cons c calls ih =>
    obtain ⟨h, ts⟩ := c
    obtain ⟨h1, h2⟩ := hall
    obtain ⟨hnb, hu, hR'⟩ := merge_ok hR (m' := (m.merge h ts).2) (Prod.ext h1 rfl)
    have hd := handedBack_nil_iff.1 hu.symm
    have := ih hR' (hm.step (good_iff.2 hnb) hd hR.wf hR'.wf) h2
    unfold inputs at this ⊢
    rw [List.map_cons, List.foldl_cons]
    have hst : J.step ts = J.after ts := by unfold Book.step; exact if_neg hnb
    show Made (List.foldl Book.step (J.step ts) _) _
    rw [hst]
    simpa using this

theorem replay_all {K : Book} (hw : K.WF) {m : Merger} {K' : Book} (hR : R m K') {done : List (List TransactionPostings)}
    (hs : ∀ ts ∈ done, Settled K ts) (hext : Ext K K') (hh : K'.hdrs = K.hdrs) (hr : K'.recs = K.recs.map (replayed done))
    (calls : History) (hsc : ∀ ts ∈ inputs calls, Settled K ts) :
    AllMerged m calls ∧ ∃ K'', R (continueFrom m calls) K'' ∧ K''.hdrs = K.hdrs ∧ K''.recs = K.recs.map (replayed (done ++ inputs calls)) := by
  induction calls generalizing m K' done with
  | nil => exact ⟨trivial, K', hR, hh, by simpa [inputs] using hr⟩
  | cons c calls ih =>
    obtain ⟨h, ts⟩ := c
    have hst : Settled K' ts := (hsc ts (by simp [inputs])).mono hext hR.wf
    obtain ⟨m', hm', hR'⟩ := merge_of_not_bad hR h (good_iff.1 (hst.good hR.wf))
    rw [handedBack_nil_iff.2 (fun t ht => hst.decided hR.wf ht)] at hm'
    obtain ⟨e1, e2⟩ := replayed_step hw hR.wf hs hst hh hr
    have hs' : ∀ ts' ∈ done ++ [ts], Settled K ts' := by
      intro ts' h'
      rcases List.mem_append.1 h' with h' | h'
      · exact hs ts' h'
      · rw [List.mem_singleton.1 h']; exact hsc ts (by simp [inputs])
    obtain ⟨a1, K'', a2, a3, a4⟩ := ih hR' hs' (hext.trans (ext_after K' ts)) e1 e2
      (fun ts' h' => hsc ts' (by unfold inputs at h' ⊢; rw [List.map_cons]; exact List.mem_cons_of_mem _ h'))
    refine ⟨?_, K'', ?_, a3, ?_⟩
    · show (m.merge h ts).1 = _ ∧ AllMerged (m.merge h ts).2 calls
      rw [hm']; exact ⟨rfl, a1⟩
    · show R (List.foldl _ (m.merge h ts).2 calls) K''
      rw [hm']; exact a2
    · rw [a4]
      unfold inputs
      rw [List.map_cons, List.append_assoc]
      rfl

/-- C18: if inputs merge in order with nothing left unmerged, then merging the built journal followed by all the inputs
into a fresh merger also leaves nothing unmerged, and builds the same journal. -/
theorem C18_merging_with_all_inputs (calls calls' : History) (h h' h'' : HashOrder) (js : List TransactionPostings)
    (hall : AllMerged Merger.new calls) (hb : (run calls).build h = .ok js) (hsame : inputs calls' = inputs calls) :
    AllMerged Merger.new ((h', js) :: calls') ∧ (run ((h', js) :: calls')).build h'' = .ok js := by
  have hR := run_refines calls
  rw [build_iff] at hb; subst hb
  have hmade : Made (ofHistory (inputs calls)) (inputs calls) := by
    have := made_of_allMerged R_new made_empty calls hall
    rw [List.nil_append] at this
    exact this
  set J := ofHistory (inputs calls)
  obtain ⟨m, hm, hRm⟩ := reread hR.wf (populated_ofHistory (inputs calls)) h'
  have hjj : (Book.empty.after J.journal).journal = J.journal := journal_of_journal (populated_ofHistory (inputs calls))
  set K := Book.empty.after J.journal
  have hsK : ∀ ts ∈ inputs calls', Settled K ts := by
    intro ts hts
    have := ((hmade.settled ts (hsame ▸ hts)).contains hR.wf)
    rw [← hjj] at this
    exact this.settled hRm.wf
  have hnil : ∀ r : Rec, replayed [] r = r := fun r => rfl
  obtain ⟨a1, K'', a2, a3, a4⟩ := replay_all hRm.wf hRm (done := []) (by intro ts hts; cases hts) (ext_refl K) rfl
    (by rw [show (replayed [] : Rec → Rec) = id from funext hnil, List.map_id]) calls' hsK
  have hK : K'' = K := by
    have : K''.recs = K.recs := by
      rw [a4, List.nil_append]
      conv_rhs => rw [← List.map_id K.recs]
      apply List.map_congr_left
      intro r hr
      obtain ⟨i, hi⟩ := List.mem_iff_getElem?.1 hr
      have hx : r.post ∈ postingsOf K.journal := (mem_journal_posts hRm.wf).2 ⟨i, r, hi, rfl⟩
      rw [hjj] at hx
      obtain ⟨j, s, hs, hse⟩ := (mem_journal_posts hR.wf).1 hx
      obtain ⟨p, l, h1, h2⟩ := hmade.made s (List.mem_of_getElem? hs)
      rw [hse] at h1 h2
      rw [hsame]
      exact replayed_all h1 h2
    cases K''; cases hK : K
    rw [hK] at a3 this
    simp only at a3 this
    rw [a3, this]
  constructor
  · show (Merger.new.merge h' J.journal).1 = _ ∧ AllMerged (Merger.new.merge h' J.journal).2 calls'
    rw [hm]; exact ⟨rfl, a1⟩
  · have : run ((h', J.journal) :: calls') = continueFrom m calls' := by
      show List.foldl _ (Merger.new.merge h' J.journal).2 calls' = _
      rw [hm]; rfl
    rw [this]
    rw [hK] at a2
    rw [a2.build h'', hjj]

/-- Two statements that are merged completely; the second gives an account to a posting of the first. -/
example : AllMerged Merger.new [(HashOrder.sorted, bankA), (HashOrder.rev, bankB)] := by
  refine ⟨?_, ?_, trivial⟩ <;> (set_option maxRecDepth 100000 in decide +kernel)

end Verif
