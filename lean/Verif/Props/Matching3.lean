import Verif.Props.Matching2

/-!
# C10, C11, C12, C21: ambiguity, bad input, independence
-/

namespace Verif
open Spec Spec.Book Ex

/-! ## C10 -/

theorem fpHits_nil_iff {J : Book} {p : PostingInternal} : J.fpHits p = [] ↔ ∀ r ∈ J.recs, ¬ SharesFp r.post p := by
  rw [List.eq_nil_iff_forall_not_mem]
  constructor
  · intro h r hr hs
    obtain ⟨i, hi⟩ := List.mem_iff_getElem?.1 hr
    exact h i (mem_fpHits.2 ⟨r, hi, hs⟩)
  · intro h i hi
    obtain ⟨r, hr, hs⟩ := mem_fpHits.1 hi
    exact h r (List.mem_of_getElem? hr) hs

theorem where_posts (J : Book) (P : Rec → Bool) : J.postsAt (J.where_ P) = (J.recs.filter P).map (·.post) := by
  unfold Spec.Book.postsAt where_
  generalize J.recs = l
  induction l using List.reverseRecOn with
  | nil => rfl
  | append_singleton l a ih =>
    rw [List.length_append, List.length_singleton, List.range_succ, List.filter_append, List.filterMap_append, List.filter_append,
      List.map_append]
    congr 1
    · rw [← ih]
      have h1 : (List.range l.length).filter (fun i => ((l ++ [a])[i]?).any P) =
          (List.range l.length).filter (fun i => (l[i]?).any P) := by
        apply List.filter_congr
        intro i hi
        rw [List.getElem?_append_left (List.mem_range.1 hi)]
      rw [h1]
      apply List.filterMap_congr
      intro i hi
      rw [List.getElem?_append_left (List.mem_range.1 (List.mem_filter.1 hi).1)]
    · simp only [List.filter_cons, List.getElem?_concat_length, Option.any_some, List.filter_nil]
      cases P a <;> simp

theorem softHits_posts (J : Book) (d : Date) (p : PostingInternal) : J.postsAt (J.softHits d p) = J.softMatches d p :=
  where_posts J _

theorem postsAt_length {J : Book} {is : List Nat} (h : ∀ i ∈ is, i < J.recs.length) : (J.postsAt is).length = is.length := by
  unfold Spec.Book.postsAt
  induction is with
  | nil => rfl
  | cons i is ih =>
    rw [List.filterMap_cons, List.getElem?_eq_getElem (h i (by simp))]
    simp only [Option.map_some, List.length_cons]
    rw [ih (fun j hj => h j (by simp [hj]))]

theorem softHits_length (J : Book) (d : Date) (p : PostingInternal) : (J.softHits d p).length = (J.softMatches d p).length := by
  rw [← softHits_posts]
  exact (postsAt_length (fun i hi => where_lt hi)).symm

theorem unclear_iff {J : Book} {d : Date} {p : PostingInternal} :
    J.Unclear d p ↔ J.fpHits p = [] ∧ 2 ≤ (J.softHits d p).length := by
  unfold Spec.Book.Unclear
  rw [fpHits_nil_iff, softHits_length]

theorem verdict_unclear {J : Book} {d : Date} {p : PostingInternal} (h : J.Unclear d p) :
    J.verdict d p = .ambiguous (J.softHits d p) := by
  obtain ⟨h1, h2⟩ := unclear_iff.1 h
  unfold verdict; rw [h1]
  match hl : J.softHits d p, h2 with
  | _ :: _ :: _, _ => rfl

theorem candidates_eq (J : Book) (d : Date) (p : PostingInternal) :
    J.candidates d p = if J.Unclear d p then J.softMatches d p else [] := by
  unfold Spec.Book.candidates
  split
  · rename_i is hv
    obtain ⟨h1, h2, h3⟩ := ambiguous_softHits hv
    rw [if_pos (unclear_iff.2 ⟨h1, h2 ▸ h3⟩), h2, softHits_posts]
  · rename_i hn
    rw [if_neg]
    intro hu
    exact hn _ (verdict_unclear hu)

theorem undecided_iff_unclear {J : Book} {t : TransactionPostings} :
    Undecided J t ↔ t.posts = [] ∨ ∃ p ∈ t.posts, J.Unclear (dateOf t) p := by
  rw [undecided_iff]
  simp only [unclear_iff]

/-- C10: the transactions that a successful call hands back are exactly those without postings and those with an unclear
posting, in input order. Each has the header and postings of the input; an unclear posting has in addition one
candidate tag for each soft match, naming a fingerprint of it, and the other postings are as they were. -/
theorem C10_handed_back (calls : History) (h : HashOrder) (ts u : List TransactionPostings) (m' : Merger)
    (hm : (run calls).merge h ts = (.ok u, m')) :
    let J := ofHistory (inputs calls)
    List.Forall₂ (fun t v => v.trn = t.trn ∧ List.Forall₂ (fun p q =>
        (J.Unclear (dateOf t) p → Annotated (J.softMatches (dateOf t) p) p q) ∧ (¬ J.Unclear (dateOf t) p → q = p)) t.posts v.posts)
      (ts.filter (fun t => t.posts = [] ∨ ∃ p ∈ t.posts, J.Unclear (dateOf t) p)) u := by
  intro J
  have hR := run_refines calls
  obtain ⟨hnb, rfl, hR'⟩ := merge_ok hR hm
  unfold handedBack
  have hfe : (fun t => decide (t.posts = [] ∨ ∃ p ∈ t.posts, J.Unclear (dateOf t) p)) = fun t => decide (Undecided J t) := by
    funext t; rw [decide_eq_decide, undecided_iff_unclear]
  rw [hfe, List.forall₂_map_right_iff, List.forall₂_same]
  intro t _
  refine ⟨rfl, ?_⟩
  unfold handBack
  rw [List.forall₂_map_right_iff, List.forall₂_same]
  intro p _
  refine ⟨fun hu => ?_, fun hu => ?_⟩
  · have := handBackPost_annotated (pickFp_ok (h := h) hR.wf) (dateOf t) p
    rw [candidates_eq, if_pos hu] at this
    exact this
  · unfold handBackPost
    split
    · rename_i is hv
      obtain ⟨h1, h2, h3⟩ := ambiguous_softHits hv
      exact absurd (unclear_iff.2 ⟨h1, h2 ▸ h3⟩) hu
    · rfl

/-- C10: the transactions that are handed back have no influence: without them the call ends in the same state. -/
theorem C10_no_influence (calls : History) (h h' : HashOrder) (ts u : List TransactionPostings) (m' : Merger)
    (hm : (run calls).merge h ts = (.ok u, m')) :
    let J := ofHistory (inputs calls)
    (run calls).merge h' (ts.filter (fun t => ¬ (t.posts = [] ∨ ∃ p ∈ t.posts, J.Unclear (dateOf t) p))) = (.ok [], m') := by
  intro J
  have hR := run_refines calls
  obtain ⟨hnb, rfl, hR'⟩ := merge_ok hR hm
  have hfe : (fun t => decide (¬ (t.posts = [] ∨ ∃ p ∈ t.posts, J.Unclear (dateOf t) p))) = fun t => decide (¬ Undecided J t) := by
    funext t; rw [decide_eq_decide, undecided_iff_unclear]
  rw [hfe]
  have hg : Good J (ts.filter (fun t => ¬ Undecided J t)) := good_sublist List.filter_sublist (good_iff.2 hnb)
  obtain ⟨m'', hm'', hR''⟩ := merge_of_not_bad hR h' (good_iff.1 hg)
  rw [hm'', handedBack_nil_iff.2]
  · have : R m'' (J.after ts) := by rw [← after_filter]; exact hR''
    rw [this.unique hR']
  · intro t ht
    simpa using (List.mem_filter.1 ht).2

/-- The input `mixed`: its first transaction is handed back because one of its two postings is unclear; the second is merged. -/
example : (∃ u m', (run hist).merge HashOrder.rev mixed = (.ok u, m') ∧ u.length = 1) ∧
    ∃ t ∈ mixed, ∃ p ∈ t.posts, (ofHistory (inputs hist)).Unclear (dateOf t) p := by
  constructor
  · exact ⟨[trn 3 "ticket" [post "expenses:bus" 150 ["fp-c1", "candidate-fp-t1", "candidate-fp-t2"], post "assets:c" (-150) ["fp-c2"]]],
      _, Prod.ext (by set_option maxRecDepth 100000 in decide +kernel) rfl, rfl⟩
  · rw [ofHistory_eval]
    set_option maxRecDepth 100000 in decide +kernel

/-! ## C11 -/

/-- C11: a merge call fails exactly on the documented bad inputs, and succeeds otherwise. The six kinds: a candidate
tag; no fingerprint; a fingerprint on two input postings; fingerprints of one input posting on two records; postings of
one input transaction that go into records of two transactions; two input postings that go into one record. -/
theorem C11_bad_inputs (calls : History) (h : HashOrder) (ts : List TransactionPostings) :
    let J := ofHistory (inputs calls)
    (∃ e, ((run calls).merge h ts).1 = .error e) ↔
      (∃ t ∈ ts, ∃ p ∈ t.posts, ∃ c ∈ tagsOf p, IsCand c) ∨
      (∃ t ∈ ts, ∃ p ∈ t.posts, ∀ f ∈ tagsOf p, ¬ IsFp f) ∨
      (¬ (postingsOf ts).Pairwise (fun p q => ∀ f ∈ tagsOf p, IsFp f → f ∉ tagsOf q)) ∨
      (∃ t ∈ ts, ∃ p ∈ t.posts, ∃ (i j : Nat) (r s : Rec), i ≠ j ∧ J.recs[i]? = some r ∧ J.recs[j]? = some s ∧
        SharesFp r.post p ∧ SharesFp s.post p) ∨
      (∃ t ∈ ts, (∀ p ∈ t.posts, ¬ J.Unclear (dateOf t) p) ∧ ∃ p ∈ t.posts, ∃ q ∈ t.posts, ∃ i j,
        J.verdict (dateOf t) p = .into i ∧ J.verdict (dateOf t) q = .into j ∧ J.trnOf i ≠ J.trnOf j) ∨
      (∃ i, 2 ≤ (ts.flatMap fun t => if ∃ p ∈ t.posts, J.Unclear (dateOf t) p then []
        else t.posts.filter (fun p => J.verdict (dateOf t) p = .into i)).length) := by
  intro J
  have hR := run_refines calls
  have h1 : (∃ e, ((run calls).merge h ts).1 = .error e) ↔ J.Bad ts := by
    have := merge_ok_iff hR h ts
    constructor
    · rintro ⟨e, he⟩
      by_contra hb
      obtain ⟨u, hu⟩ := this.2 hb
      rw [he] at hu; cases hu
    · intro hb
      cases hm : ((run calls).merge h ts).1 with
      | error e => exact ⟨e, rfl⟩
      | ok u => exact absurd hb (this.1 ⟨u, hm⟩)
  rw [h1]
  unfold Bad
  refine or_congr ?_ (or_congr ?_ (or_congr ?_ (or_congr ?_ (or_congr ?_ ?_))))
  · unfold HasCandidate
    constructor
    · rintro ⟨p, hp, t, ht, hc⟩
      obtain ⟨s, hs, hps⟩ := mem_allPosts.1 hp
      exact ⟨s, hs, p, hps, t, ht, hc⟩
    · rintro ⟨s, hs, p, hps, t, ht, hc⟩
      exact ⟨p, mem_allPosts.2 ⟨s, hs, hps⟩, t, ht, hc⟩
  · unfold LacksFingerprint
    constructor
    · rintro ⟨p, hp, hf⟩
      obtain ⟨s, hs, hps⟩ := mem_allPosts.1 hp
      refine ⟨s, hs, p, hps, fun f hf1 hf2 => ?_⟩
      have : f ∈ fps p := mem_fps.2 ⟨hf1, hf2⟩
      rw [hf] at this; cases this
    · rintro ⟨s, hs, p, hps, hf⟩
      refine ⟨p, mem_allPosts.2 ⟨s, hs, hps⟩, ?_⟩
      rw [List.eq_nil_iff_forall_not_mem]
      intro f hf1
      exact hf f (mem_fps.1 hf1).1 (mem_fps.1 hf1).2
  · unfold DuplicateFp
    apply not_congr
    apply Iff.of_eq
    congr 1
    funext p q
    apply propext
    constructor
    · intro hn f hf1 hf2 hf3; exact hn ⟨f, mem_fps.2 ⟨hf1, hf2⟩, mem_fps.2 ⟨hf3, hf2⟩⟩
    · rintro hn ⟨f, hf1, hf2⟩; exact hn f (mem_fps.1 hf1).1 (mem_fps.1 hf1).2 (mem_fps.1 hf2).1
  · unfold Conflicting verdicts
    constructor
    · rintro ⟨t, ht, hv⟩
      obtain ⟨p, hp, hv⟩ := List.mem_map.1 hv
      refine ⟨t, ht, p, hp, ?_⟩
      have hl : 2 ≤ (J.fpHits p).length := by
        unfold verdict at hv
        split at hv
        · cases hv
        · rename_i h; rw [h]; simp
        · split at hv <;> cases hv
      have hnd : (J.fpHits p).Nodup := List.nodup_range.filter _
      match hx : J.fpHits p, hl with
      | i :: j :: l, _ =>
        obtain ⟨r, hr, hrs⟩ := mem_fpHits.1 (show i ∈ J.fpHits p by rw [hx]; simp)
        obtain ⟨s, hs, hss⟩ := mem_fpHits.1 (show j ∈ J.fpHits p by rw [hx]; simp)
        rw [hx] at hnd
        exact ⟨i, j, r, s, fun he => by simp [he] at hnd, hr, hs, hrs, hss⟩
    · rintro ⟨t, ht, p, hp, i, j, r, s, hij, hr, hs, hrs, hss⟩
      refine ⟨t, ht, List.mem_map.2 ⟨p, hp, ?_⟩⟩
      have h1 := mem_fpHits.2 ⟨r, hr, hrs⟩
      have h2 := mem_fpHits.2 ⟨s, hs, hss⟩
      unfold verdict
      match hx : J.fpHits p with
      | [] => rw [hx] at h1; cases h1
      | [k] => rw [hx] at h1 h2; simp at h1 h2; exact absurd (h1.trans h2.symm) hij
      | _ :: _ :: _ => rfl
  · unfold Split
    constructor
    · rintro ⟨t, ht, hu, i, hi, j, hj, hne⟩
      obtain ⟨p, hp, hpv⟩ := mem_dests.1 hi
      obtain ⟨q, hq, hqv⟩ := mem_dests.1 hj
      rw [undecided_iff_unclear] at hu
      exact ⟨t, ht, fun x hx hc => hu (Or.inr ⟨x, hx, hc⟩), p, hp, q, hq, i, j, hpv, hqv, hne⟩
    · rintro ⟨t, ht, hu, p, hp, q, hq, i, j, hpv, hqv, hne⟩
      refine ⟨t, ht, ?_, i, mem_dests.2 ⟨p, hp, hpv⟩, j, mem_dests.2 ⟨q, hq, hqv⟩, hne⟩
      rw [undecided_iff_unclear]
      rintro (he | ⟨x, hx, hc⟩)
      · rw [he] at hp; cases hp
      · exact hu x hx hc
  · unfold SameDest
    rw [List.nodup_iff_count_le_one]
    push Not
    simp only [count_allDests]
    refine exists_congr fun i => ?_
    have : J.hits ts i = ts.flatMap fun t => if ∃ p ∈ t.posts, J.Unclear (dateOf t) p then []
        else t.posts.filter (fun p => J.verdict (dateOf t) p = .into i) := by
      unfold hits trnHits
      apply List.flatMap_congr
      intro t _
      by_cases he : t.posts = []
      · simp [he]
      · by_cases hu : ∃ p ∈ t.posts, J.Unclear (dateOf t) p
        · rw [if_pos hu, if_pos (undecided_iff_unclear.2 (Or.inr hu))]
        · rw [if_neg hu, if_neg (fun h => (undecided_iff_unclear.1 h).elim he hu)]
    rw [this]
    rfl

/-- C11, more exactly: the call reports the first problem in the order in which the input is read (`Spec.Book.error?`). -/
theorem C11_which_error (calls : History) (h : HashOrder) (ts : List TransactionPostings) (e : MergeErr) :
    ((run calls).merge h ts).1 = .error e ↔ (ofHistory (inputs calls)).error? ts = some e :=
  merge_error_iff (run_refines calls) h ts e

/-- Each of the six errors occurs. -/
example : ∀ c ∈ ([([trn 1 "x" [post "a" 1 ["fp-n", "candidate-q"]]], .candidateTag),
    ([trn 1 "x" [post "a" 1 ["q"]]], .noFingerprint),
    (bad, .duplicateFingerprint),
    ([trn 1 "x" [post "a" 1 ["fp-a1", "fp-b2"]]], .multipleDestinations),
    ([trn 1 "x" [post "a" 1 ["fp-a1"], post "a" 1 ["fp-b2"]]], .splitTransaction),
    ([trn 1 "x" [post "a" 1 ["fp-a2"]], trn 1 "x" [post "a" 1 ["fp-b1"]]], .sameDestination)] : List (List TransactionPostings × MergeErr)),
    ((run hist).merge HashOrder.rev c.1).1 = .error c.2 := by
  set_option maxRecDepth 100000 in decide +kernel

end Verif
