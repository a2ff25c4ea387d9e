import Verif.Examples.Journals
import Verif.Proofs.Matching

/-!
# C01, C02, C05, C07, C13, C14, C15, C63: what merging never does

`run calls` is the merger after an arbitrary history of merge calls on a fresh merger, each with its own hash
iteration orders, successful or not. Everything below holds for every history.
-/

namespace Verif
open Spec Spec.Book Ex

/-! ## C01 -/

/-- C01: a merge call that returns an error leaves the merger exactly as it was. -/
theorem C01_failed_merge_changes_nothing (calls : History) (h : HashOrder) (ts : List TransactionPostings) (e : MergeErr)
    (m' : Merger) (he : (run calls).merge h ts = (.error e, m')) : m' = run calls := by
  rcases merge_spec (run_refines calls) h ts with ⟨_, e', he', _⟩ | ⟨_, m'', he', _⟩
  · rw [he] at he'; exact (Prod.mk.inj he').2
  · rw [he] at he'; simp at he'

/-- C01, as seen from outside: later calls and the built journal do not notice that the failed call was made. -/
theorem C01_failed_merge_is_unobservable (calls later : History) (h : HashOrder) (ts : List TransactionPostings) (e : MergeErr)
    (he : ((run calls).merge h ts).1 = .error e) : run (calls ++ (h, ts) :: later) = run (calls ++ later) := by
  have h2 := C01_failed_merge_changes_nothing calls h ts e ((run calls).merge h ts).2 (Prod.ext he rfl)
  unfold run continueFrom at h2 ⊢
  rw [List.foldl_append, List.foldl_append, List.foldl_cons]
  exact congrArg (fun m => List.foldl _ m later) h2

/-- The hypotheses are met: two successful calls, then one that fails. -/
example : ∃ m', (run (hist.take 2)).merge HashOrder.sorted bad = (.error .duplicateFingerprint, m') :=
  ⟨_, Prod.ext hist_bad rfl⟩

/-! ## C02 -/

/-- C02: a merge call never panics and never reports an internal error. -/
theorem C02_merge_never_panics (calls : History) (h : HashOrder) (ts : List TransactionPostings) :
    (∀ p, ((run calls).merge h ts).1 ≠ .error (.panic p)) ∧ ((run calls).merge h ts).1 ≠ .error .internalFingerprint := by
  rcases merge_spec (run_refines calls) h ts with ⟨_, e, he, hm⟩ | ⟨_, m', he, _⟩
  · rw [he]
    constructor
    · rintro p ⟨⟩; exact hm
    · rintro ⟨⟩; exact hm
  · rw [he]; simp

/-- C02: building the journal never fails. -/
theorem C02_build_never_fails (calls : History) (h : HashOrder) : ∃ js, (run calls).build h = .ok js :=
  ⟨_, (run_refines calls).build h⟩

/-- A history in which merging is exercised in all ways: merging into an existing posting, adding, failing, leaving. -/
example : (∃ js, (run hist).build HashOrder.rev = .ok js ∧ (postingsOf js).length = 8) := ⟨_, hist_build, by decide⟩

/-! ## C05, C63 -/

theorem build_iff {calls : History} {h : HashOrder} {js : List TransactionPostings} :
    (run calls).build h = .ok js ↔ js = (ofHistory (inputs calls)).journal := by
  rw [(run_refines calls).build h]
  constructor
  · intro e; exact (Except.ok.inj e).symm
  · rintro rfl; rfl

/-- C05: in the built journal no fingerprint is on two postings, and every posting has one. -/
theorem C05_fingerprints_are_unique (calls : History) (h : HashOrder) (js : List TransactionPostings)
    (hb : (run calls).build h = .ok js) :
    (postingsOf js).Pairwise (fun p q => ∀ f ∈ tagsOf p, IsFp f → f ∉ tagsOf q) ∧
    ∀ p ∈ postingsOf js, ∃ f ∈ tagsOf p, IsFp f := by
  have hR := run_refines calls
  rw [build_iff] at hb; subst hb
  constructor
  · have hsym : Std.Symm (fun p q : PostingInternal => ∀ f ∈ tagsOf p, IsFp f → f ∉ tagsOf q) :=
      ⟨fun p q hpq f hf hfp hf' => hpq f hf' hfp hf⟩
    rw [(journal_posts_perm hR.wf).pairwise_iff (fun {x y} => hsym.symm x y), List.pairwise_map]
    refine (pairwise_recs hR.wf).imp ?_
    intro r s hrs f hf hfp hf'
    exact hrs ⟨f, mem_fps.2 ⟨hf, hfp⟩, mem_fps.2 ⟨hf', hfp⟩⟩
  · intro p hp
    obtain ⟨i, r, hr, rfl⟩ := (mem_journal_posts hR.wf).1 hp
    obtain ⟨f, hf⟩ := List.exists_mem_of_ne_nil _ (hR.wf.hasFp r (List.mem_of_getElem? hr))
    exact ⟨f, mem_fps.1 hf⟩

/-- C63: no posting of a built journal has a candidate tag. -/
theorem C63_no_candidate_tags (calls : History) (h : HashOrder) (js : List TransactionPostings)
    (hb : (run calls).build h = .ok js) : ∀ p ∈ postingsOf js, ∀ t ∈ tagsOf p, ¬ IsCand t := by
  have hR := run_refines calls
  rw [build_iff] at hb; subst hb
  intro p hp
  obtain ⟨i, r, hr, rfl⟩ := (mem_journal_posts hR.wf).1 hp
  exact hR.wf.noCand r (List.mem_of_getElem? hr)

/-- A journal with 8 postings, one of them carrying fingerprints from two sources. -/
example : ∃ js, (run hist).build HashOrder.rev = .ok js ∧ ∃ p ∈ postingsOf js, (fps p).length = 2 :=
  ⟨_, hist_build, post "assets:b" 500 ["fp-a2", "fp-b1"], by decide +kernel, by decide +kernel⟩

/-! ## C07, C13 -/

/-- C07 (and C13 over histories): whatever is merged later, the transactions of the journal stay, in order, with the
same headers; their postings stay in them, in order and each `Grown` (fingerprints, tags, comment lines and keys
kept; amount and reality kept; balance, status and account changed only as `Grown` allows); new postings come after
the old ones. -/
theorem C07_journal_only_grows (calls later : History) (h h' : HashOrder) (js js' : List TransactionPostings)
    (hb : (run calls).build h = .ok js) (hb' : (run (calls ++ later)).build h' = .ok js') :
    ∃ kept, List.Forall₂ Extended js kept ∧ kept.Sublist js' := by
  rw [build_iff] at hb hb'
  subst hb; subst hb'
  apply Ext.journal
  unfold inputs ofHistory
  rw [List.map_append, List.foldl_append]
  exact ext_steps _ _

/-- C13: what merging a posting into an existing one does to money, status and account. -/
theorem C13_merging_never_touches_money (dest src : PostingInternal) :
    let p := postingMerge dest src
    p.raw.amount = dest.raw.amount ∧ p.raw.reality = dest.raw.reality ∧
    (∀ b, dest.raw.balance = some b → p.raw.balance = some b) ∧
    (dest.raw.balance = none → p.raw.balance = src.raw.balance) ∧
    (p.raw.status ≠ dest.raw.status → dest.raw.status = none ∨
      (dest.raw.status = some .pending ∧ p.raw.status = some .cleared ∧ src.raw.status = some .cleared)) ∧
    (dest.raw.status = none → p.raw.status = src.raw.status) ∧
    (p.raw.account ≠ dest.raw.account →
      unknownTag ∈ tagsOf dest ∧ unknownTag ∉ tagsOf src ∧ p.raw.account = src.raw.account) ∧
    (unknownTag ∈ tagsOf dest → unknownTag ∉ tagsOf src → p.raw.account = src.raw.account) := by
  intro p
  have hp : p = absorb dest src := postingMerge_eq dest src
  rw [hp]
  refine ⟨rfl, rfl, ?_, ?_, ?_, ?_, ?_, ?_⟩
  · intro b hb; simp [absorb, hb]
  · intro hb; simp [absorb, hb]
  · simp only [absorb]
    generalize dest.raw.status = a; generalize src.raw.status = b
    rcases a with _ | _ | _ <;> rcases b with _ | _ | _ <;> simp [strongest]
  · simp only [absorb]
    intro h; rw [h]
    generalize src.raw.status = b
    rcases b with _ | _ | _ <;> rfl
  · intro hne
    simp only [absorb] at hne ⊢
    by_cases hc : UnknownAccount dest ∧ ¬ UnknownAccount src
    · rw [if_pos hc]; exact ⟨hc.1, hc.2, rfl⟩
    · rw [if_neg hc] at hne; exact absurd rfl hne
  · intro h1 h2
    simp only [absorb]
    exact if_pos ⟨h1, h2⟩

/-- C13, over histories: a posting of the journal can be followed to a later journal with the same amount; see `C07`
for its place in it. -/
theorem C13_money_never_changes (calls later : History) (h h' : HashOrder) (js js' : List TransactionPostings)
    (hb : (run calls).build h = .ok js) (hb' : (run (calls ++ later)).build h' = .ok js') :
    ∀ t ∈ js, ∀ p ∈ t.posts, ∃ t' ∈ js', t'.trn = t.trn ∧ ∃ p' ∈ t'.posts, Grown p p' := by
  obtain ⟨kept, hf, hs⟩ := C07_journal_only_grows calls later h h' js js' hb hb'
  intro t ht p hp
  obtain ⟨t', ht', hx, old, new, ho, hg⟩ := forall₂_mem_left hf ht
  obtain ⟨p', hp', hg'⟩ := forall₂_mem_left hg hp
  exact ⟨t', hs.subset ht', hx, p', by rw [ho]; exact List.mem_append_left _ hp', hg'⟩

/-- Merging the second bank statement extends the journal of the first: the unknown posting gets its account, and the
"fee" is inserted. -/
example : ∃ js js', (run (hist.take 1)).build HashOrder.sorted = .ok js ∧
    (run (hist.take 1 ++ [(HashOrder.rev, bankB)])).build HashOrder.rev = .ok js' ∧ js ≠ js' ∧ js.length = 2 ∧ js'.length = 3 :=
  ⟨_, _, build_A, build_AB, by decide +kernel, rfl, rfl⟩

/-- An account that is replaced, a status that is raised and a balance that is filled in. -/
example : ∃ dest src : PostingInternal, (postingMerge dest src).raw.account ≠ dest.raw.account ∧
    dest.raw.status = some .pending ∧ (postingMerge dest src).raw.status = some .cleared ∧
    (postingMerge dest src).raw.balance = some .zero :=
  ⟨{ post "expenses" 500 ["fp-a2", "unknown-account"] with
      raw := { (post "expenses" 500 []).raw with status := some .pending } },
   { post "assets:b" 500 ["fp-b1"] with
      raw := { (post "assets:b" 500 []).raw with status := some .cleared, balance := some .zero } },
   by decide +kernel, by decide +kernel, by decide +kernel, by decide +kernel⟩

/-! ## C14 -/

/-- C14: the built journal is in ascending order of dates. -/
theorem C14_sorted (calls : History) (h : HashOrder) (js : List TransactionPostings)
    (hb : (run calls).build h = .ok js) : js.Pairwise (fun t t' => (compare (dateOf t) (dateOf t')).isLE = true) := by
  rw [build_iff] at hb; subst hb
  exact sorted_mergeSort dateOf _

theorem filter_byDate (l : List TransactionPostings) (d : Date) :
    (byDate l).filter (fun t => dateOf t = d) = l.filter (fun t => dateOf t = d) := filter_mergeSort dateOf l d

/-- C14: among equal dates the journal keeps the order of first merging. A successful merge call adds some of the
input transactions (`fresh`, in input order and exactly as they are in the input). For every date, the transactions of
that date are those that were there, in the same order and possibly extended, followed by the fresh ones of that
date. So every transaction appears exactly once. -/
theorem C14_stable (calls : History) (h h₁ h₂ : HashOrder) (ts u js js' : List TransactionPostings) (m' : Merger)
    (hm : (run calls).merge h ts = (.ok u, m')) (hb : (run calls).build h₁ = .ok js) (hb' : m'.build h₂ = .ok js') :
    ∃ fresh : List TransactionPostings, fresh.Sublist ts ∧ ∀ d, ∃ old,
      js'.filter (fun t => dateOf t = d) = old ++ fresh.filter (fun t => dateOf t = d) ∧
      List.Forall₂ Extended (js.filter (fun t => dateOf t = d)) old := by
  have hR := run_refines calls
  rw [build_iff] at hb; subst hb
  obtain ⟨_, _, hR'⟩ := merge_ok hR hm
  rw [hR'.build h₂] at hb'
  have := Except.ok.inj hb'; subst this
  set J := ofHistory (inputs calls)
  obtain ⟨old, h1, h2⟩ := entries_after hR.wf ts
  refine ⟨ts.filter (J.Fresh ·), List.filter_sublist, ?_⟩
  intro d
  refine ⟨old.filter (fun t => dateOf t = d), ?_, ?_⟩
  · rw [journal_eq, filter_byDate, h1, List.filter_append]
  · rw [journal_eq, filter_byDate]
    exact forall₂_filter (fun a b hab => by unfold dateOf; rw [hab.1]) h2

/-- C14: the journal of a fresh merger is empty. -/
theorem C14_start (h : HashOrder) : Merger.new.build h = .ok [] := by
  have := (run_refines []).build h
  rw [show run [] = Merger.new from rfl] at this
  rw [this, journal_eq]
  simp [byDate, ofHistory, inputs, Spec.Book.entries, Spec.Book.empty]

/-- The second statement adds "fee" (date 1) behind "cafe" (date 1). -/
example : ∃ m' js', (run (hist.take 1)).merge HashOrder.rev bankB = (.ok [], m') ∧ m'.build HashOrder.rev = .ok js' ∧
    (js'.map (fun t => t.trn.raw.description)) = ["cafe".toList, "fee".toList, "shop".toList] :=
  ⟨_, _, Prod.ext merge_B rfl, build_AB, by decide +kernel⟩

/-! ## C15 -/

/-- C15: two runs with the same inputs but different hash iteration orders end in the same state, so they build the same
journal. -/
theorem C15_journal_is_deterministic (calls calls' : History) (hsame : inputs calls = inputs calls') (h h' : HashOrder) :
    run calls = run calls' ∧ (run calls).build h = (run calls').build h' := by
  have h1 := run_refines calls
  have h2 := run_refines calls'
  rw [← hsame] at h2
  exact ⟨h1.unique h2, by rw [h1.build h, h2.build h']⟩

/-- C15: the same input to the same journal is accepted or refused with the same kind of error, whatever the iteration
orders. -/
theorem C15_errors_are_deterministic (calls calls' : History) (hsame : inputs calls = inputs calls') (h h' : HashOrder)
    (ts : List TransactionPostings) (e : MergeErr) :
    ((run calls).merge h ts).1 = .error e ↔ ((run calls').merge h' ts).1 = .error e := by
  have h1 := run_refines calls
  have h2 := run_refines calls'
  rw [← hsame] at h2
  rw [merge_error_iff h1, merge_error_iff h2]

/-- C15: the transactions handed back are the same, except that the fingerprint chosen to name a candidate may differ:
each pair of handed back postings is the same input posting annotated with the same candidates. -/
theorem C15_unmerged_is_deterministic (calls calls' : History) (hsame : inputs calls = inputs calls') (h h' : HashOrder)
    (ts u u' : List TransactionPostings) (hu : ((run calls).merge h ts).1 = .ok u)
    (hu' : ((run calls').merge h' ts).1 = .ok u') :
    List.Forall₂ (fun t t' => t.trn = t'.trn ∧
      List.Forall₂ (fun q q' => ∃ p named, Annotated named p q ∧ Annotated named p q') t.posts t'.posts) u u' := by
  have h1 := run_refines calls
  have h2 := run_refines calls'
  rw [← hsame] at h2
  obtain ⟨_, rfl, _⟩ := merge_ok h1 (m' := ((run calls).merge h ts).2) (Prod.ext hu rfl)
  obtain ⟨_, rfl, _⟩ := merge_ok h2 (m' := ((run calls').merge h' ts).2) (Prod.ext hu' rfl)
  unfold handedBack
  rw [List.forall₂_map_left_iff, List.forall₂_map_right_iff, List.forall₂_same]
  intro t _
  refine ⟨rfl, ?_⟩
  unfold handBack
  rw [List.forall₂_map_left_iff, List.forall₂_map_right_iff, List.forall₂_same]
  intro p _
  exact ⟨p, _, handBackPost_annotated (pickFp_ok h1.wf) _ p, handBackPost_annotated (pickFp_ok h1.wf) _ p⟩

/-- Two different iteration orders, a history with five calls. -/
example : inputs hist = inputs (hist.map (fun c => (HashOrder.rev, c.2))) := rfl

end Verif
