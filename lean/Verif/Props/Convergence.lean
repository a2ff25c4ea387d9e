import Verif.Props.Matching4

/-!
# C03, C04, C17, C22: merging again
-/

namespace Verif
open Spec Spec.Book Ex

/-! ## C03 -/

/-- C03: if a call leaves nothing unmerged, making it again leaves nothing unmerged and changes nothing. -/
theorem C03_remerge_is_noop (calls : History) (h h' : HashOrder) (ts : List TransactionPostings) (m' : Merger)
    (hm : (run calls).merge h ts = (.ok [], m')) : m'.merge h' ts = (.ok [], m') := by
  have hR := run_refines calls
  obtain ⟨hnb, hu, hR'⟩ := merge_ok hR hm
  have hd := handedBack_nil_iff.1 hu.symm
  have hs := settled_after (good_iff.2 hnb) hd
  obtain ⟨m'', hm'', hR''⟩ := merge_of_not_bad hR' h' (good_iff.1 (hs.good hR'.wf))
  rw [handedBack_nil_iff.2 (fun t ht => hs.decided hR'.wf ht)] at hm''
  rw [after_after (good_iff.2 hnb) hR'.wf hd] at hR''
  rw [hm'', hR''.unique hR']

/-- The second statement, merged twice. -/
example : ∃ m', (run (hist.take 1)).merge HashOrder.rev bankB = (.ok [], m') := ⟨_, Prod.ext merge_B rfl⟩

/-! ## C04 -/

theorem forall₂_mapIdx {α β : Type} {Rel : α → β → Prop} (f : Nat → α → β) (l : List α)
    (h : ∀ (i : Nat) (hi : i < l.length), Rel l[i] (f i l[i])) : List.Forall₂ Rel l (l.mapIdx f) := by
  rw [List.forall₂_iff_get]
  refine ⟨by simp, ?_⟩
  intro i h1 h2
  simp only [List.get_eq_getElem, List.getElem_mapIdx]
  exact h i h1

/-- Same headers, and the same postings in them, each possibly `Grown`. -/
theorem Settled.journal {J : Book} {ts : List TransactionPostings} (hs : Settled J ts) (hw : J.WF) :
    List.Forall₂ (fun T T' => T'.trn = T.trn ∧ List.Forall₂ Grown T.posts T'.posts) J.journal (J.after ts).journal := by
  obtain ⟨h1, h2⟩ := hs.after_eq hw
  rw [journal_eq, journal_eq]
  refine forall₂_mergeSort dateOf dateOf (fun a b hab => by unfold dateOf; rw [hab.1]) ?_
  unfold Spec.Book.entries
  rw [h1, List.forall₂_iff_get]
  refine ⟨by simp, ?_⟩
  intro k hk1 hk2
  simp only [List.get_eq_getElem, List.getElem_mapIdx]
  refine ⟨trivial, ?_⟩
  rw [List.forall₂_map_left_iff, List.forall₂_map_right_iff, h2]
  refine (forall₂_filter (Rel := fun r r' : Rec => r'.trn = r.trn ∧ Grown r.post r'.post)
    (P := fun r => decide (r.trn = k)) (Q := fun r => decide (r.trn = k)) (fun a b hab => by rw [hab.1]) ?_).imp
    (fun a b hab => hab.2)
  apply forall₂_mapIdx
  intro i hi
  exact ⟨rfl, grown_foldl _ _⟩

/-- C04: once an input has been merged with nothing left, merging it again after any further calls leaves nothing, adds
no transaction and no posting: the journal has the same headers and each transaction has its postings, in
order, each possibly `Grown`. -/
theorem C04_recognised_for_ever (calls later : History) (h h' h₁ h₂ : HashOrder) (ts js js' : List TransactionPostings)
    (hm : ((run calls).merge h ts).1 = .ok []) (hb : (run (calls ++ (h, ts) :: later)).build h₁ = .ok js)
    (hb' : (run (calls ++ (h, ts) :: later ++ [(h', ts)])).build h₂ = .ok js') :
    ((run (calls ++ (h, ts) :: later)).merge h' ts).1 = .ok [] ∧
    List.Forall₂ (fun T T' => T'.trn = T.trn ∧ List.Forall₂ Grown T.posts T'.posts) js js' := by
  have hR := run_refines calls
  obtain ⟨hnb, hu, _⟩ := merge_ok hR (m' := ((run calls).merge h ts).2) (Prod.ext hm rfl)
  have hd := handedBack_nil_iff.1 hu.symm
  have hs := settled_after (good_iff.2 hnb) hd
  have hR₁ := run_refines (calls ++ (h, ts) :: later)
  have hJ : ofHistory (inputs (calls ++ (h, ts) :: later)) =
      (inputs later).foldl Book.step ((ofHistory (inputs calls)).after ts) := by
    unfold ofHistory inputs
    rw [List.map_append, List.foldl_append, List.map_cons, List.foldl_cons]
    congr 1
    unfold Book.step
    exact if_neg hnb
  have hs₁ : Settled (ofHistory (inputs (calls ++ (h, ts) :: later))) ts := by
    rw [hJ]
    exact hs.mono (ext_steps _ _) (by rw [← hJ]; exact hR₁.wf)
  rw [hR₁.build h₁] at hb
  have := Except.ok.inj hb; subst this
  obtain ⟨m₂, hm₂, hR₂⟩ := merge_of_not_bad hR₁ h' (good_iff.1 (hs₁.good hR₁.wf))
  rw [handedBack_nil_iff.2 (fun t ht => hs₁.decided hR₁.wf ht)] at hm₂
  have hrun : run (calls ++ (h, ts) :: later ++ [(h', ts)]) = m₂ := by
    show List.foldl _ _ _ = _
    rw [List.foldl_append]
    show ((run (calls ++ (h, ts) :: later)).merge h' ts).2 = m₂
    rw [hm₂]
  rw [hrun, hR₂.build h₂] at hb'
  have := Except.ok.inj hb'; subst this
  exact ⟨by rw [hm₂], hs₁.journal hR₁.wf⟩

/-- The first statement again, after four further calls. -/
example : ((run ([] : History)).merge HashOrder.sorted bankA).1 = .ok [] ∧
    [] ++ (HashOrder.sorted, bankA) :: hist.tail = hist := by
  refine ⟨?_, rfl⟩
  set_option maxRecDepth 100000 in decide +kernel

/-! ## C17 -/

theorem byDate_of_sorted {l : List TransactionPostings}
    (h : l.Pairwise (fun t t' => (compare (dateOf t) (dateOf t')).isLE = true)) : byDate l = l :=
  List.mergeSort_of_pairwise h

theorem empty_fpHits (p : PostingInternal) : Book.empty.fpHits p = [] := rfl
theorem empty_verdict (d : Date) (p : PostingInternal) : Book.empty.verdict d p = .new := rfl
theorem empty_dests (t : TransactionPostings) : Book.empty.dests t = [] :=
  dests_nil_iff.2 (fun p _ => by rw [empty_verdict]; rfl)
theorem empty_undecided {t : TransactionPostings} : Undecided Book.empty t ↔ t.posts = [] := by
  unfold Undecided verdicts
  constructor
  · rintro (h | ⟨v, hv, ha⟩)
    · exact h
    · obtain ⟨p, _, rfl⟩ := List.mem_map.1 hv
      rw [empty_verdict] at ha; cases ha
  · exact Or.inl

/-- What a fresh merger accepts. -/
theorem good_empty {ts : List TransactionPostings} (hok : ∀ p ∈ allPosts ts, PostOK p)
    (hd : (allPosts ts).Pairwise (fun p q => ¬ SharesFp p q)) : Good Book.empty ts where
  ok := hok
  disjoint := hd
  noConflict := by
    rintro ⟨t, _, hv⟩
    unfold verdicts at hv
    obtain ⟨p, _, hp⟩ := List.mem_map.1 hv
    rw [empty_verdict] at hp; cases hp
  noSplit := by
    rintro ⟨t, _, _, i, hi, _⟩
    rw [empty_dests] at hi; cases hi
  noSame := by
    have : Book.empty.allDests ts = [] := by
      unfold allDests
      rw [List.flatMap_eq_nil_iff]
      intro t _
      exact empty_dests t
    rw [this]
    exact List.nodup_nil

theorem empty_wf : Book.empty.WF := R_new.wf

theorem entries_empty_after {ts : List TransactionPostings} (hne : ∀ t ∈ ts, t.posts ≠ []) : (Book.empty.after ts).entries = ts := by
  obtain ⟨old, ho, hf⟩ := entries_after empty_wf ts
  have h0 : old = [] := by
    have := hf.length_eq
    rw [← List.length_eq_zero_iff, ← this]; rfl
  rw [ho, h0, List.nil_append, List.filter_eq_self]
  intro t ht
  have : Spec.Book.Fresh Book.empty t := ⟨fun hu => hne t ht (empty_undecided.1 hu), empty_dests t⟩
  simpa using this

/-- A journal is a good input for a fresh merger, with nothing left to decide. -/
theorem journal_good {J : Book} (hw : J.WF) : Good Book.empty J.journal := by
  refine good_empty ?_ (pairwise_journal hw)
  intro p hp
  obtain ⟨i, r, hr, rfl⟩ := (mem_journal_posts hw).1 hp
  exact ⟨hw.noCand r (List.mem_of_getElem? hr), hw.hasFp r (List.mem_of_getElem? hr)⟩

theorem journal_nonempty {J : Book} (hp : Populated J) : ∀ t ∈ J.journal, t.posts ≠ [] := by
  intro t ht
  exact hp t ((journal_perm J).mem_iff.1 ht)

theorem journal_sorted (J : Book) : J.journal.Pairwise (fun t t' => (compare (dateOf t) (dateOf t')).isLE = true) :=
  sorted_mergeSort dateOf _

theorem journal_of_journal {J : Book} (hp : Populated J) : (Book.empty.after J.journal).journal = J.journal := by
  rw [journal_eq, entries_empty_after (journal_nonempty hp)]
  exact byDate_of_sorted (journal_sorted J)

/-- Reading a journal back: a fresh merger accepts it, with nothing unmerged. -/
theorem reread {J : Book} (hw : J.WF) (hp : Populated J) (h : HashOrder) :
    ∃ m, Merger.new.merge h J.journal = (.ok [], m) ∧ R m (Book.empty.after J.journal) := by
  obtain ⟨m, hm, hR⟩ := merge_of_not_bad R_new h (good_iff.1 (journal_good hw))
  rw [handedBack_nil_iff.2 (fun t ht hu => journal_nonempty hp t ht (empty_undecided.1 hu))] at hm
  exact ⟨m, hm, hR⟩

/-- C17: merging a built journal into a fresh merger succeeds with nothing unmerged and builds the same journal. -/
theorem C17_journal_is_fixed_point (calls : History) (h h' h'' : HashOrder) (js : List TransactionPostings)
    (hb : (run calls).build h = .ok js) :
    (Merger.new.merge h' js).1 = .ok [] ∧ (Merger.new.merge h' js).2.build h'' = .ok js := by
  have hR := run_refines calls
  rw [build_iff] at hb; subst hb
  obtain ⟨m, hm, hR'⟩ := reread hR.wf (populated_ofHistory _) h'
  rw [hm]
  exact ⟨rfl, by rw [hR'.build h'', journal_of_journal (populated_ofHistory _)]⟩

/-- The journal of `hist` has five transactions. -/
example : ∃ js, (run hist).build HashOrder.rev = .ok js ∧ js.length = 5 := ⟨_, hist_build, rfl⟩

/-! ## C22 -/

/-- C22: merging the same source again changes nothing. -/
theorem C22_idempotent (d s : PostingInternal) : postingMerge (postingMerge d s) s = postingMerge d s := by
  rw [postingMerge_eq, postingMerge_eq, absorb_absorb]

/-- C22: merging a posting into itself changes nothing. -/
theorem C22_self (d : PostingInternal) : postingMerge d d = d := by
  rw [postingMerge_eq, absorb_self]

/-- C22: merging the same sources again, in the same order, changes nothing. -/
theorem C22_replay (d : PostingInternal) (l : List PostingInternal) :
    l.foldl postingMerge (l.foldl postingMerge d) = l.foldl postingMerge d := by
  have : postingMerge = absorb := by funext a b; exact postingMerge_eq a b
  rw [this, absorb_replay]

/-- C22: the fingerprints of the result are those of both sides. -/
theorem C22_fingerprints_union (d s : PostingInternal) (t : Str) (ht : IsFp t) :
    t ∈ tagsOf (postingMerge d s) ↔ t ∈ tagsOf d ∨ t ∈ tagsOf s := by
  rw [postingMerge_eq, mem_tags_absorb, if_neg]
  rintro rfl
  exact absurd ht (by decide)

/-- C22: a posting free of `unknown-account` stays free of it. -/
theorem C22_stays_known (d : PostingInternal) (l : List PostingInternal) (hd : unknownTag ∉ tagsOf d) :
    unknownTag ∉ tagsOf (l.foldl postingMerge d) := by
  induction l generalizing d with
  | nil => exact hd
  | cons s l ih =>
    apply ih
    rw [postingMerge_eq]
    intro h
    exact hd (unknown_absorb.1 h).1

/-- A merge that changes something the first time. -/
example : postingMerge (post "expenses" 500 ["fp-a2", "unknown-account"]) (post "assets:b" 500 ["fp-b1"]) =
    post "assets:b" 500 ["fp-a2", "fp-b1"] := by decide +kernel

end Verif
