import Verif.Props.Matching3

/-!
# C12, C16, C19, C21: independence of the rest of the input, and what the human does next
-/

namespace Verif
open Spec Spec.Book Ex

/-! ## C12 -/

/-- In a journal, a fingerprint determines the transaction. -/
theorem journal_trn_unique {J : Book} (hw : J.WF) {T T' : TransactionPostings} (hT : T ∈ J.journal) (hT' : T' ∈ J.journal)
    {p q : PostingInternal} (hp : p ∈ T.posts) (hq : q ∈ T'.posts) (hs : SharesFp p q) : T = T' := by
  have h := pairwise_journal hw
  unfold postingsOf allPosts at h
  rw [List.pairwise_flatMap] at h
  by_contra hne
  have : Std.Symm (fun a b : TransactionPostings => ∀ x ∈ a.posts, ∀ y ∈ b.posts, ¬ SharesFp x y) :=
    ⟨fun a b hab x hx y hy hxy => hab y hy x hx (sharesFp_comm.1 hxy)⟩
  exact h.2.forall hT hT' hne p hp q hq hs

theorem rec_follow {J : Book} {ts : List TransactionPostings} (hw' : (J.after ts).WF) {i : Nat} (hi : i < J.recs.length)
    {f : Str} (hf : f ∈ fps J.recs[i].post) {q : PostingInternal} (hq : q ∈ postingsOf (J.after ts).journal) (hfq : f ∈ fps q) :
    q = (J.hits ts i).foldl absorb J.recs[i].post := by
  obtain ⟨j, s, hj, rfl⟩ := (mem_journal_posts hw').1 hq
  have ho := after_old J ts hi
  have hfo : f ∈ fps ((J.hits ts i).foldl absorb J.recs[i].post) := mem_fps_foldl.2 (Or.inl hf)
  have := hw'.unique j i _ _ hj ho ⟨f, hfq, hfo⟩
  subst this
  rw [ho] at hj
  rw [← Option.some.inj hj]

/-- C12: an input made of some of the transactions of an accepted input (in the same order) is accepted too. -/
theorem C12_parts_are_accepted (calls : History) (h h' : HashOrder) (ts ts' u' : List TransactionPostings) (m' : Merger)
    (hsub : ts.Sublist ts') (hm' : (run calls).merge h ts' = (.ok u', m')) :
    ∃ u m, (run calls).merge h' ts = (.ok u, m) := by
  have hR := run_refines calls
  obtain ⟨hnb, _, _⟩ := merge_ok hR hm'
  obtain ⟨m, hm, _⟩ := merge_of_not_bad hR h' (good_iff.1 (good_sublist hsub (good_iff.2 hnb)))
  exact ⟨_, _, hm⟩

/-- C12: adding transactions to an input does not change how the others are matched. With the same journal `js`
before, let `ts` be part of `ts'`, both accepted.
* What is handed back for `ts` is handed back for `ts'`, in the same form.
* A posting that is new to the journal with `ts` is, as it is, in a transaction with the same header with `ts'`.
* A posting of the journal, followed by one of its fingerprints, either is untouched with `ts` or it becomes the same
posting with `ts` and with `ts'`. -/
theorem C12_others_do_not_matter (calls : History) (h h₀ h₁ h₂ : HashOrder) (ts ts' u u' js js₁ js₂ : List TransactionPostings)
    (m₁ m₂ : Merger) (hsub : ts.Sublist ts') (hm₁ : (run calls).merge h ts = (.ok u, m₁)) (hm₂ : (run calls).merge h ts' = (.ok u', m₂))
    (hb : (run calls).build h₀ = .ok js) (hb₁ : m₁.build h₁ = .ok js₁) (hb₂ : m₂.build h₂ = .ok js₂) :
    u.Sublist u' ∧
    (∀ T₁ ∈ js₁, ∀ p ∈ T₁.posts, (∀ q ∈ postingsOf js, ¬ SharesFp q p) → ∃ T₂ ∈ js₂, T₂.trn = T₁.trn ∧ p ∈ T₂.posts) ∧
    (∀ q ∈ postingsOf js, ∀ f ∈ fps q, ∀ q₁ ∈ postingsOf js₁, f ∈ fps q₁ → ∀ q₂ ∈ postingsOf js₂, f ∈ fps q₂ → q₁ = q ∨ q₂ = q₁) := by
  have hR := run_refines calls
  rw [build_iff] at hb; subst hb
  obtain ⟨hnb, rfl, hR₁⟩ := merge_ok hR hm₁
  obtain ⟨hnb', rfl, hR₂⟩ := merge_ok hR hm₂
  rw [hR₁.build h₁] at hb₁
  rw [hR₂.build h₂] at hb₂
  have := Except.ok.inj hb₁; subst this
  have := Except.ok.inj hb₂; subst this
  set J := ofHistory (inputs calls)
  have hg := good_iff.2 hnb
  have hg' := good_iff.2 hnb'
  refine ⟨handedBack_sublist hsub _, ?_, ?_⟩
  · intro T₁ hT₁ p hp hno
    obtain ⟨j, r, hr, rfl, hhd⟩ := mem_journal ⟨hT₁, hp⟩
    rcases mem_after.1 (List.mem_of_getElem? hr) with ⟨i, hi, rfl⟩ | hr
    · exfalso
      obtain ⟨f, hf⟩ := List.exists_mem_of_ne_nil _ (hR.wf.hasFp _ (List.getElem_mem hi))
      refine hno J.recs[i].post ((mem_journal_posts hR.wf).2 ⟨i, _, List.getElem?_eq_getElem hi, rfl⟩) ?_
      exact ⟨f, hf, mem_fps_foldl.2 (Or.inl hf)⟩
    · obtain ⟨t, ht, hu, hpt, hv, hd, c, _, hc⟩ := mem_news hr
      by_cases hds : J.dests t = []
      · have hfr : J.Fresh t := ⟨hu, hds⟩
        obtain ⟨old₁, ho₁, _⟩ := entries_after hR.wf ts
        obtain ⟨old₂, ho₂, _⟩ := entries_after hR.wf ts'
        have ht₁ : t ∈ (J.after ts).journal := by
          rw [(journal_perm _).mem_iff, ho₁]
          exact List.mem_append_right _ (List.mem_filter.2 ⟨ht, by simpa using hfr⟩)
        have ht₂ : t ∈ (J.after ts').journal := by
          rw [(journal_perm _).mem_iff, ho₂]
          exact List.mem_append_right _ (List.mem_filter.2 ⟨hsub.subset ht, by simpa using hfr⟩)
        have hpa : r.post ∈ allPosts ts := mem_allPosts.2 ⟨t, ht, hpt⟩
        have := journal_trn_unique hR₁.wf hT₁ ht₁ hp hpt (sharesFp_self (hg.ok _ hpa).2)
        exact ⟨t, ht₂, by rw [this], hpt⟩
      · obtain ⟨c', hc'⟩ := news_of_mem (J := J) J.hdrs.length (hsub.subset ht) hu
        have hn := hc' r.post hpt hv
        have hmem : (⟨J.home c' t, dateOf t, r.post⟩ : Rec) ∈ (J.after ts').recs := mem_after.2 (Or.inr hn)
        obtain ⟨i, hi⟩ := List.mem_iff_getElem?.1 hmem
        obtain ⟨T₂, hT₂, hh₂, hp₂⟩ := journal_mem_of hR₂.wf hi
        refine ⟨T₂, hT₂, ?_, hp₂⟩
        have hhome : J.home c' t = J.home c t := by
          obtain ⟨i, hi⟩ := List.exists_mem_of_ne_nil _ hds
          have h1 := hg.home_eq ht hu hi c
          have h2 := hg.home_eq ht hu hi c'
          rw [h1] at h2
          exact (Option.some.inj h2).symm
        have hlt := home_lt hR.wf hds c
        simp only at hh₂
        rw [hhome, after_hdrs, List.getElem?_append_left hlt] at hh₂
        rw [hc, after_hdrs, List.getElem?_append_left hlt] at hhd
        rw [hhd] at hh₂
        exact (Option.some.inj hh₂).symm
  · intro q hq f hf q₁ hq₁ hf₁ q₂ hq₂ hf₂
    obtain ⟨i, r, hr, rfl⟩ := (mem_journal_posts hR.wf).1 hq
    have hi : i < J.recs.length := by
      by_contra hc; rw [List.getElem?_eq_none (by omega)] at hr; cases hr
    have hre : J.recs[i] = r := by rw [List.getElem?_eq_getElem hi] at hr; exact Option.some.inj hr
    have e₁ := rec_follow hR₁.wf hi (hre ▸ hf) hq₁ hf₁
    have e₂ := rec_follow hR₂.wf hi (hre ▸ hf) hq₂ hf₂
    rw [hre] at e₁ e₂
    have hs := hits_sublist (J := J) hsub i
    have hl := hg'.hits_le_one i
    cases hh : J.hits ts i with
    | nil => left; rw [e₁, hh]; rfl
    | cons a l =>
      right
      have : J.hits ts i = J.hits ts' i := by
        apply hs.eq_of_length_le
        rw [hh]; simp; omega
      rw [e₁, e₂, this]

/-- Two transactions of one call that would match each other softly: both are new. -/
example : ∃ m₁ m₂ : Merger, (run (hist.take 2)).merge HashOrder.sorted (twins.take 1) = (.ok [], m₁) ∧
    (run (hist.take 2)).merge HashOrder.sorted twins = (.ok [], m₂) ∧ (twins.take 1).Sublist twins ∧
    postingMatches (post "expenses:bus" 150 ["fp-t1"]) (post "expenses:bus" 150 ["fp-t2"]) = true :=
  ⟨_, _, Prod.ext (by set_option maxRecDepth 100000 in decide +kernel) rfl,
    Prod.ext (by set_option maxRecDepth 100000 in decide +kernel) rfl, List.take_sublist _ _, by decide +kernel⟩

/-! ## C16 -/

/-- Two postings with two fingerprints each. -/
def doubles : List TransactionPostings :=
  [trn 3 "bus" [post "expenses:bus" 150 ["fp-t1", "fp-t3"]], trn 3 "bus back" [post "expenses:bus" 150 ["fp-t2", "fp-t4"]]]

/-- C16 is false of the code: the name of a candidate is the first fingerprint in hash iteration order, so a run may hand
back other tags than the next run. -/
theorem C16_counterexample : ∃ (calls : History) (ts : List TransactionPostings) (h h' : HashOrder),
    ((run calls).merge h ts).1 ≠ ((run calls).merge h' ts).1 := by
  refine ⟨[(HashOrder.sorted, doubles)], unclear, HashOrder.sorted, HashOrder.rev, ?_⟩
  have h1 : ((run [(HashOrder.sorted, doubles)]).merge HashOrder.sorted unclear).1 = .ok
      [trn 3 "ticket" [post "expenses:bus" 150 ["fp-c1", "candidate-fp-t1", "candidate-fp-t2"]]] := by
    set_option maxRecDepth 100000 in decide +kernel
  have h2 : ((run [(HashOrder.sorted, doubles)]).merge HashOrder.rev unclear).1 = .ok
      [trn 3 "ticket" [post "expenses:bus" 150 ["fp-c1", "candidate-fp-t3", "candidate-fp-t4"]]] := by
    set_option maxRecDepth 100000 in decide +kernel
  rw [h1, h2]
  set_option maxRecDepth 100000 in decide +kernel

theorem annotate_pick_congr {pick pick' : Nat → Str} {is : List Nat} (h : ∀ i ∈ is, pick i = pick' i) (p : PostingInternal) :
    annotate pick is p = annotate pick' is p := by
  have key : ∀ s : TagSet, is.foldl (fun ts i => ts.insert (candPrefix ++ pick i)) s =
      is.foldl (fun ts i => ts.insert (candPrefix ++ pick' i)) s := by
    induction is with
    | nil => intro s; rfl
    | cons i is ih =>
      intro s
      rw [List.foldl_cons, List.foldl_cons, h i (by simp), ih (fun j hj => h j (by simp [hj]))]
  unfold annotate
  rw [key]

/-- C16, the part that holds: the transactions handed back are the same for all iteration orders if every candidate has
only one fingerprint. Missing for the full statement: candidates with several fingerprints (`C16_counterexample`). -/
theorem C16_partial (calls calls' : History) (hsame : inputs calls = inputs calls') (h h' : HashOrder)
    (ts : List TransactionPostings)
    (hone : ∀ t ∈ ts, ∀ p ∈ t.posts, (ofHistory (inputs calls)).Unclear (dateOf t) p →
      ∀ c ∈ (ofHistory (inputs calls)).softMatches (dateOf t) p, (fps c).length = 1) :
    ((run calls).merge h ts).1 = ((run calls').merge h' ts).1 := by
  have h1 := run_refines calls
  have h2 := run_refines calls'
  rw [← hsame] at h2
  have hrun : run calls = run calls' := h1.unique h2
  rw [← hrun]
  set J := ofHistory (inputs calls)
  by_cases hb : J.Bad ts
  · cases hm : ((run calls).merge h ts).1 with
    | error e => exact ((merge_error_iff h1 h' ts e).2 ((merge_error_iff h1 h ts e).1 hm)).symm
    | ok u => exact absurd hb ((merge_ok_iff h1 h ts).1 ⟨u, hm⟩)
  · obtain ⟨m₁, hm₁, _⟩ := merge_of_not_bad h1 h hb
    obtain ⟨m₂, hm₂, _⟩ := merge_of_not_bad h1 h' hb
    rw [hm₁, hm₂]
    show Except.ok _ = Except.ok _
    congr 1
    unfold handedBack
    apply List.map_congr_left
    intro t ht
    unfold handBack
    congr 1
    apply List.map_congr_left
    intro p hp
    unfold handBackPost
    cases hv : J.verdict (dateOf t) p with
    | ambiguous is =>
      obtain ⟨e1, e2, e3⟩ := ambiguous_softHits hv
      show annotate _ _ _ = annotate _ _ _
      apply annotate_pick_congr
      intro i hi
      rw [e2] at hi
      have hlt : i < J.recs.length := where_lt hi
      have hri := List.getElem?_eq_getElem hlt
      have hc : J.recs[i].post ∈ J.softMatches (dateOf t) p := by
        rw [← softHits_posts]
        exact mem_postsAt.2 ⟨i, hi, _, hri, rfl⟩
      have hl := hone t (List.mem_filter.1 ht).1 p hp (unclear_iff.2 ⟨e1, e2 ▸ e3⟩) _ hc
      obtain ⟨f, hf⟩ := List.length_eq_one_iff.1 hl
      have a1 := pickFp_ok (h := h) h1.wf i _ hri
      have a2 := pickFp_ok (h := h') h1.wf i _ hri
      rw [hf] at a1 a2
      rw [List.mem_singleton.1 a1, List.mem_singleton.1 a2]
    | new => rfl
    | into i => rfl
    | conflict => rfl

/-- The candidates for `unclear` have one fingerprint each. -/
example : ∀ t ∈ unclear, ∀ p ∈ t.posts, (ofHistory (inputs hist)).Unclear (dateOf t) p ∧
      (∀ c ∈ (ofHistory (inputs hist)).softMatches (dateOf t) p, (fps c).length = 1) := by
  rw [ofHistory_eval]
  set_option maxRecDepth 100000 in decide +kernel

/-! ## C19 -/

theorem good_single {J : Book} {hdr : TransactionInternal} {p : PostingInternal} (hok : PostOK p)
    (hnc : J.verdict hdr.raw.date p ≠ .conflict) : Good J [⟨hdr, [p]⟩] := by
  have hv : J.verdicts ⟨hdr, [p]⟩ = [J.verdict hdr.raw.date p] := rfl
  refine ⟨?_, ?_, ?_, ?_, ?_⟩
  · intro q hq
    have : q = p := by simpa [allPosts] using hq
    exact this ▸ hok
  · simp [allPosts]
  · rintro ⟨t, ht, hc⟩
    have : t = ⟨hdr, [p]⟩ := by simpa using ht
    subst this
    rw [hv] at hc
    exact hnc (List.mem_singleton.1 hc).symm
  · rintro ⟨t, ht, hu, i, hi, j, hj, hne⟩
    have : t = ⟨hdr, [p]⟩ := by simpa using ht
    subst this
    obtain ⟨q, hq, hqv⟩ := mem_dests.1 hi
    obtain ⟨q', hq', hqv'⟩ := mem_dests.1 hj
    have e1 : q = p := by simpa using hq
    have e2 : q' = p := by simpa using hq'
    subst e1; subst e2
    rw [hqv] at hqv'
    cases hqv'
    exact hne rfl
  · unfold allDests
    by_cases hu : Undecided J ⟨hdr, [p]⟩
    · simp [hu]
    · simp only [hu, not_false_eq_true, decide_true, List.filter_cons_of_pos, List.filter_nil, List.flatMap_cons,
        List.flatMap_nil, List.append_nil]
      unfold dests
      rw [hv]
      have hd : ∀ v : Verdict, ([v].filterMap Verdict.dest?).Nodup := by
        intro v; cases v <;> simp [List.filterMap_cons, Verdict.dest?]
      exact hd _

theorem merge_single_into {m : Merger} {J : Book} (hR : R m J) (h h₁ : HashOrder) {hdr : TransactionInternal}
    {p : PostingInternal} (hok : PostOK p) {i : Nat} {r : Rec} (hr : J.recs[i]? = some r)
    (hv : J.verdict hdr.raw.date p = .into i) :
    ∃ m' js', m.merge h [⟨hdr, [p]⟩] = (.ok [], m') ∧ m'.build h₁ = .ok js' ∧
      ∃ T ∈ js', J.hdrs[r.trn]? = some T.trn ∧ absorb r.post p ∈ T.posts := by
  have hg := good_single (J := J) (hdr := hdr) hok (by rw [hv]; simp)
  obtain ⟨m', hmm, hR'⟩ := merge_of_not_bad hR h (good_iff.1 hg)
  have hu : ¬ Undecided J ⟨hdr, [p]⟩ := by
    rintro (he | ⟨v, hv', ha⟩)
    · simp at he
    · have : v = J.verdict hdr.raw.date p := by simpa [verdicts] using hv'
      rw [this, hv] at ha; cases ha
  rw [handedBack_nil_iff.2 (by simpa using hu)] at hmm
  refine ⟨m', _, hmm, hR'.build h₁, ?_⟩
  have hlt : i < J.recs.length := by
    by_contra hc; rw [List.getElem?_eq_none (by omega)] at hr; cases hr
  have hre : J.recs[i] = r := by rw [List.getElem?_eq_getElem hlt] at hr; exact Option.some.inj hr
  have hold := after_old J [⟨hdr, [p]⟩] hlt
  have hone : J.hits [⟨hdr, [p]⟩] i = [p] := by
    simp [hits, trnHits, hu, hv]
  rw [hre, hone] at hold
  obtain ⟨T', hT', hh', hm'⟩ := journal_mem_of hR'.wf hold
  refine ⟨T', hT', ?_, hm'⟩
  simp only at hh'
  rw [after_hdrs, List.getElem?_append_left (hR.wf.owner r (List.mem_of_getElem? hr))] at hh'
  exact hh'

/-- C19: a posting `q` was handed back with a tag `candidate-f`. The user removes the candidate tags and adds the tag
`f`; whatever else they edit, apart from tags, `q'` is the result. Then `f` is on exactly one posting `c` of the journal
(`C05`); it is what one of the soft matches of the input posting has become. Merging a transaction that consists of
`q'` merges it into `c`. -/
theorem C19_resolve_by_hand (calls : History) (h h₀ h₁ h₂ h₃ : HashOrder) (ts u js js' : List TransactionPostings) (m' : Merger)
    (hm : (run calls).merge h ts = (.ok u, m')) (hb : (run calls).build h₀ = .ok js) (hb' : m'.build h₁ = .ok js')
    (v : TransactionPostings) (hv : v ∈ u) (q : PostingInternal) (hq : q ∈ v.posts) (f : Str) (hf : candPrefix ++ f ∈ tagsOf q)
    (q' : PostingInternal) (hq' : ∀ t, t ∈ tagsOf q' ↔ t = f ∨ (t ∈ tagsOf q ∧ ¬ IsCand t)) (hdr : TransactionInternal) :
    ∃ T ∈ js', ∃ c ∈ T.posts, f ∈ fps c ∧
      (∃ c₀ ∈ postingsOf js, f ∈ fps c₀ ∧ SoftMatch c₀ q ∧ Grown c₀ c) ∧
      ∃ m'' js'', m'.merge h₂ [⟨hdr, [q']⟩] = (.ok [], m'') ∧ m''.build h₃ = .ok js'' ∧
        ∃ T'' ∈ js'', T''.trn = T.trn ∧ absorb c q' ∈ T''.posts := by
  have hR := run_refines calls
  rw [build_iff] at hb; subst hb
  obtain ⟨hnb, rfl, hR'⟩ := merge_ok hR hm
  rw [hR'.build h₁] at hb'
  have := Except.ok.inj hb'; subst this
  set J := ofHistory (inputs calls)
  have hg := good_iff.2 hnb
  unfold handedBack at hv
  obtain ⟨t, ht, rfl⟩ := List.mem_map.1 hv
  obtain ⟨ht, hu⟩ := List.mem_filter.1 ht
  have hu : Undecided J t := by simpa using hu
  unfold handBack at hq
  obtain ⟨p, hp, rfl⟩ := List.mem_map.1 hq
  have hpa : p ∈ allPosts ts := mem_allPosts.2 ⟨t, ht, hp⟩
  have hpok := hg.ok p hpa
  have hcp : IsCand (candPrefix ++ f) := List.prefix_append _ _
  unfold handBackPost at hf hq' ⊢
  cases hvd : J.verdict (dateOf t) p with
  | new => rw [hvd] at hf; exact absurd hcp (hpok.1 _ hf)
  | into i => rw [hvd] at hf; exact absurd hcp (hpok.1 _ hf)
  | conflict => rw [hvd] at hf; exact absurd hcp (hpok.1 _ hf)
  | ambiguous is =>
    rw [hvd] at hf hq'
    simp only at hf hq' ⊢
    obtain ⟨e1, e2, e3⟩ := ambiguous_softHits hvd
    rcases mem_annotate.1 hf with hf | ⟨i, hi, hfi⟩
    · exact absurd hcp (hpok.1 _ hf)
    · have hfi : f = pickFp h J i := List.append_cancel_left hfi
      rw [e2] at hi
      have hlt : i < J.recs.length := where_lt hi
      have hri := List.getElem?_eq_getElem hlt
      have hfr : f ∈ fps J.recs[i].post := hfi ▸ pickFp_ok hR.wf i _ hri
      have hnc : ¬ IsCand f := hR.wf.noCand _ (List.getElem_mem hlt) f (mem_fps.1 hfr).1
      have htags : ∀ x, x ∈ tagsOf q' ↔ x = f ∨ x ∈ tagsOf p := by
        intro x
        rw [hq', mem_annotate]
        constructor
        · rintro (hx | ⟨hx | ⟨k, _, hx⟩, hc⟩)
          · exact Or.inl hx
          · exact Or.inr hx
          · exact absurd (hx ▸ List.prefix_append _ _) hc
        · rintro (hx | hx)
          · exact Or.inl hx
          · exact Or.inr ⟨Or.inl hx, hpok.1 x hx⟩
      have hok' : PostOK q' := by
        constructor
        · intro x hx
          rcases (htags x).1 hx with rfl | hx
          · exact hnc
          · exact hpok.1 x hx
        · intro he
          have : f ∈ fps q' := mem_fps.2 ⟨(htags f).2 (Or.inl rfl), (mem_fps.1 hfr).2⟩
          rw [he] at this; cases this
      have hold := after_old J ts hlt
      set r' : Rec := { J.recs[i] with post := (J.hits ts i).foldl absorb J.recs[i].post } with hr'
      have hfr' : f ∈ fps r'.post := mem_fps_foldl.2 (Or.inl hfr)
      have hhits : ∀ j, j ∈ (J.after ts).fpHits q' ↔ j = i := by
        intro j
        rw [mem_fpHits]
        constructor
        · rintro ⟨s, hs, g, hg1, hg2⟩
          rcases (htags g).1 (mem_fps.1 hg2).1 with rfl | hgp
          · exact hR'.wf.unique j i _ _ hs hold ⟨g, hg1, hfr'⟩
          · exact absurd ⟨g, hg1, mem_fps.2 ⟨hgp, (mem_fps.1 hg1).2⟩⟩ (hg.ambiguous_absent ht hp e1 hu (List.mem_of_getElem? hs))
        · rintro rfl
          exact ⟨r', hold, f, hfr', mem_fps.2 ⟨(htags f).2 (Or.inl rfl), (mem_fps.1 hfr).2⟩⟩
      have hnd : ((J.after ts).fpHits q').Nodup := List.nodup_range.filter _
      have hone : (J.after ts).fpHits q' = [i] := by
        match hx : (J.after ts).fpHits q' with
        | [] => have := (hhits i).2 rfl; rw [hx] at this; cases this
        | [a] => have := (hhits a).1 (by rw [hx]; simp); rw [this]
        | a :: b :: l =>
          have h1 := (hhits a).1 (by rw [hx]; simp)
          have h2 := (hhits b).1 (by rw [hx]; simp)
          rw [hx, h1, h2] at hnd
          simp at hnd
      have hvi : (J.after ts).verdict hdr.raw.date q' = .into i := by unfold verdict; rw [hone]
      obtain ⟨T, hT, hTh, hTp⟩ := journal_mem_of hR'.wf hold
      obtain ⟨m'', js'', hmm, hbb, T'', hT'', hTh'', hTp''⟩ := merge_single_into hR' h₂ h₃ hok' hold hvi
      refine ⟨T, hT, r'.post, hTp, hfr', ⟨J.recs[i].post, ?_, hfr, ?_, grown_foldl _ _⟩, m'', js'', hmm, hbb, T'', hT'', ?_, hTp''⟩
      · exact (mem_journal_posts hR.wf).2 ⟨i, _, hri, rfl⟩
      · have : J.recs[i].post ∈ J.softMatches (dateOf t) p := by
          rw [← softHits_posts]
          exact mem_postsAt.2 ⟨i, hi, _, hri, rfl⟩
        unfold Book.softMatches at this
        obtain ⟨s, hs, hse⟩ := List.mem_map.1 this
        have hsm := (of_decide_eq_true (List.mem_filter.1 hs).2).2
        rw [hse] at hsm
        have hunk : UnknownAccount p → UnknownAccount (annotate (pickFp h J) is p) := fun hx => mem_annotate.2 (Or.inl hx)
        refine ⟨?_, hsm.2.1, hsm.2.2⟩
        rcases hsm.1 with hx | hx | hx
        · exact Or.inl hx
        · exact Or.inr (Or.inl (hunk hx))
        · exact Or.inr (Or.inr hx)
      · rw [hTh] at hTh''
        exact (Option.some.inj hTh'').symm

/-- The user decides that the ticket is the second bus ride. -/
example : ((run hist).merge HashOrder.rev [trn 3 "ticket" [post "expenses:bus" 150 ["fp-c1", "fp-t2"]]]).1 = .ok [] ∧
    (∀ t ∈ tagsOf (post "expenses:bus" 150 ["fp-c1", "fp-t2"]), t = "fp-t2".toList ∨
      (t ∈ tagsOf (post "expenses:bus" 150 ["fp-c1", "candidate-fp-t1", "candidate-fp-t2"]) ∧ ¬ IsCand t)) := by
  set_option maxRecDepth 100000 in decide +kernel

/-! ## C21 -/

theorem trnsError_empty {J : Book} {t : TransactionPostings} (ht : t.posts = []) (xs ys : List TransactionPostings)
    (earlier : List PostingInternal) : J.trnsError earlier (xs ++ t :: ys) = J.trnsError earlier (xs ++ ys) := by
  induction xs generalizing earlier with
  | nil =>
    have hs : ¬ SplitTrn J t := fun h => h.1 (Or.inl ht)
    rw [List.nil_append, List.nil_append, trnsError, ht]
    simp only [postsError, List.append_nil]
    rw [if_neg hs]
  | cons x xs ih =>
    rw [List.cons_append, List.cons_append, trnsError, trnsError]
    rw [ih]

theorem error_empty {J : Book} {t : TransactionPostings} (ht : t.posts = []) (xs ys : List TransactionPostings) :
    J.error? (xs ++ t :: ys) = J.error? (xs ++ ys) := by
  have hu : Undecided J t := Or.inl ht
  have : J.allDests (xs ++ t :: ys) = J.allDests (xs ++ ys) := by
    unfold allDests
    rw [List.filter_append, List.filter_append, List.filter_cons_of_neg (by simpa using hu)]
  unfold Spec.Book.error? SameDest
  rw [trnsError_empty ht]
  congr 1
  simp only [this]

/-- C21: a transaction without postings, anywhere in an input, is handed back unchanged and has no other effect: the call ends in the
same state, with the same error, or with the same other transactions handed back. -/
theorem C21_empty_transactions (calls : History) (h : HashOrder) (xs ys : List TransactionPostings) (t : TransactionPostings)
    (ht : t.posts = []) :
    ((run calls).merge h (xs ++ t :: ys)).2 = ((run calls).merge h (xs ++ ys)).2 ∧
    (∀ e, ((run calls).merge h (xs ++ ys)).1 = .error e ↔ ((run calls).merge h (xs ++ t :: ys)).1 = .error e) ∧
    (∀ u, ((run calls).merge h (xs ++ ys)).1 = .ok u → ∃ u₁ u₂, u = u₁ ++ u₂ ∧
      ((run calls).merge h (xs ++ t :: ys)).1 = .ok (u₁ ++ t :: u₂)) := by
  have hR := run_refines calls
  set J := ofHistory (inputs calls)
  have herr := fun e => merge_error_iff hR h (xs ++ ys) e
  have herr' := fun e => merge_error_iff hR h (xs ++ t :: ys) e
  have hu : Undecided J t := Or.inl ht
  have hiff : ∀ e, ((run calls).merge h (xs ++ ys)).1 = .error e ↔ ((run calls).merge h (xs ++ t :: ys)).1 = .error e := by
    intro e; rw [herr, herr', error_empty ht]
  rcases merge_spec hR h (xs ++ ys) with ⟨hb, e, he, _⟩ | ⟨hb, m₁, he, hR₁⟩
  · have he' : ((run calls).merge h (xs ++ t :: ys)).1 = .error e := (hiff e).1 (by rw [he])
    refine ⟨?_, hiff, ?_⟩
    · rw [he]; exact C01_failed_merge_changes_nothing calls h (xs ++ t :: ys) e _ (Prod.ext he' rfl)
    · intro u hu; rw [he] at hu; cases hu
  · rcases merge_spec hR h (xs ++ t :: ys) with ⟨hb', e', he', _⟩ | ⟨hb', m₂, he', hR₂⟩
    · have := (hiff e').2 (by rw [he'])
      rw [he] at this; cases this
    · have haf : J.after (xs ++ t :: ys) = J.after (xs ++ ys) := by
        unfold after
        rw [List.foldl_append, List.foldl_append, List.foldl_cons, putTrn_undecided hu]
      rw [haf] at hR₂
      refine ⟨?_, hiff, ?_⟩
      · rw [he, he']; exact hR₂.unique hR₁
      · intro u hu'
        rw [he] at hu'
        refine ⟨J.handedBack (pickFp h J) xs, J.handedBack (pickFp h J) ys, ?_, ?_⟩
        · rw [← Except.ok.inj hu']
          unfold handedBack
          rw [List.filter_append, List.map_append]
        · rw [he']
          show Except.ok _ = Except.ok _
          congr 1
          unfold handedBack
          rw [List.filter_append, List.map_append, List.filter_cons_of_pos (by simpa using hu), List.map_cons]
          have : J.handBack (pickFp h J) t = t := by
            unfold handBack; rw [ht]
            cases t; simp at ht; subst ht; rfl
          rw [this]

/-- An empty transaction between two others. -/
example : ((run (hist.take 1)).merge HashOrder.rev (bankB.take 1 ++ trn 5 "nothing" [] :: bankB.drop 1)).1 =
    .ok [trn 5 "nothing" []] := by
  set_option maxRecDepth 100000 in decide +kernel

end Verif
