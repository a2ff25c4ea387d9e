import Verif.Props.Matching
import Verif.Examples.Books

/-!
# C09 – C12, C21: soft matching, ambiguity, bad input, independence
-/

namespace Verif
open Spec Spec.Book Ex

/-! ## C09 -/

/-- C09: the soft match of the code is the documented relation. -/
theorem C09_soft_match (p q : PostingInternal) : postingMatches p q = true ↔
    (unknownTag ∈ tagsOf p ∨ unknownTag ∈ tagsOf q ∨ p.raw.account = q.raw.account) ∧
    OptRel SamePostingAmount p.raw.amount q.raw.amount ∧
    (∀ a b, p.raw.balance = some a → q.raw.balance = some b → SameBalance a b) := by
  rw [postingMatches_iff]
  unfold SoftMatch UnknownAccount
  refine and_congr_right fun _ => and_congr_right fun _ => ?_
  cases p.raw.balance <;> cases q.raw.balance <;> simp [BalancesAgree]

theorem sameAmount_comm {a b : Amount} (h : SameAmount a b) : SameAmount b a := ⟨h.1.symm, h.2.symm⟩
theorem samePrice_comm {a b : Price} (h : SamePrice a b) : SamePrice b a := by
  cases a <;> cases b <;> first | exact sameAmount_comm h | exact h
theorem optRel_comm {α : Type} {Rel : α → α → Prop} (hR : ∀ a b, Rel a b → Rel b a) {a b : Option α} (h : OptRel Rel a b) :
    OptRel Rel b a := by
  cases a <;> cases b <;> first | exact hR _ _ h | exact h
theorem samePostingAmount_comm {a b : PostingAmount} (h : SamePostingAmount a b) : SamePostingAmount b a :=
  ⟨sameAmount_comm h.1, optRel_comm (fun _ _ => samePrice_comm) h.2.1, optRel_comm (fun _ _ => samePrice_comm) h.2.2⟩
theorem sameBalance_comm {a b : Balance} (h : SameBalance a b) : SameBalance b a := by
  cases a <;> cases b <;> first | exact sameAmount_comm h | exact h
theorem softMatch_comm {p q : PostingInternal} (h : SoftMatch p q) : SoftMatch q p := by
  refine ⟨?_, optRel_comm (fun _ _ => samePostingAmount_comm) h.2.1, ?_⟩
  · rcases h.1 with h | h | h
    · exact Or.inr (Or.inl h)
    · exact Or.inl h
    · exact Or.inr (Or.inr h.symm)
  · have := h.2.2
    cases hp : p.raw.balance <;> cases hq : q.raw.balance <;> rw [hp, hq] at this <;>
      first | exact sameBalance_comm this | exact trivial

theorem optRel_refl {α : Type} {Rel : α → α → Prop} (hR : ∀ a, Rel a a) (a : Option α) : OptRel Rel a a := by
  cases a <;> first | exact hR _ | exact trivial
theorem samePrice_refl (a : Price) : SamePrice a a := by cases a <;> exact ⟨rfl, rfl⟩

/-- C09: soft matching is symmetric. -/
theorem C09_symmetric (p q : PostingInternal) : postingMatches p q = postingMatches q p := by
  rw [postingMatches_eq, postingMatches_eq, decide_eq_decide]
  exact ⟨softMatch_comm, softMatch_comm⟩

/-- C09: soft matching is reflexive. -/
theorem C09_reflexive (p : PostingInternal) : postingMatches p p = true := by
  rw [postingMatches_iff]
  refine ⟨Or.inr (Or.inr rfl), optRel_refl (fun a => ⟨⟨rfl, rfl⟩, optRel_refl samePrice_refl _, optRel_refl samePrice_refl _⟩) _, ?_⟩
  cases p.raw.balance with
  | none => trivial
  | some b => cases b <;> first | exact trivial | exact ⟨rfl, rfl⟩

/-- C09: what is done with a posting that shares no fingerprint with the journal depends only on how many records of the
book are filed under its date and match it softly: none, and it is new; one, and it is merged into that; several, and
it is handed back with the tags of exactly those. Shown for a transaction that consists of that posting. -/
theorem C09_soft_match_decides (calls : History) (h h₁ : HashOrder) (hdr : TransactionInternal) (p : PostingInternal)
    (hcand : ∀ t ∈ tagsOf p, ¬ IsCand t) (hfp : ∃ t ∈ tagsOf p, IsFp t)
    (hno : ∀ r ∈ (ofHistory (inputs calls)).recs, ¬ SharesFp r.post p) (matching : List Rec)
    (hmatch : matching = (ofHistory (inputs calls)).recs.filter (fun r => r.date = hdr.raw.date ∧ postingMatches r.post p = true)) :
    ∃ u m' js', (run calls).merge h [⟨hdr, [p]⟩] = (.ok u, m') ∧ m'.build h₁ = .ok js' ∧
      (matching = [] → u = [] ∧ ⟨hdr, [p]⟩ ∈ js') ∧
      (∀ r, matching = [r] → u = [] ∧ ∃ T ∈ js', absorb r.post p ∈ T.posts ∧
        (ofHistory (inputs calls)).hdrs[r.trn]? = some T.trn) ∧
      (2 ≤ matching.length → m' = run calls ∧ ∃ q, u = [⟨hdr, [q]⟩] ∧ Annotated (matching.map (·.post)) p q) := by
  have hR := run_refines calls
  set J := ofHistory (inputs calls) with hJ
  have hf0 : J.fpHits p = [] := by
    rw [List.eq_nil_iff_forall_not_mem]
    intro i hi
    obtain ⟨r, hr, hs⟩ := mem_fpHits.1 hi
    exact hno r (List.mem_of_getElem? hr) hs
  have hpost : ∀ is : List Nat, (∀ i ∈ is, i < J.recs.length) → is.map (fun i => J.recs[i]?) = (is.filterMap (fun i => J.recs[i]?)).map some := by
    intro is
    induction is with
    | nil => intro _; rfl
    | cons i is ih =>
      intro hlt
      have hi := hlt i (by simp)
      rw [List.map_cons, List.filterMap_cons, List.getElem?_eq_getElem hi]
      simp only [List.map_cons]
      rw [ih (fun j hj => hlt j (by simp [hj]))]
  have hm : (J.softHits hdr.raw.date p).filterMap (fun i => J.recs[i]?) = matching := by
    rw [hmatch]
    have hfe : (fun r : Rec => decide (r.date = hdr.raw.date ∧ postingMatches r.post p = true)) =
        fun r => decide (r.date = hdr.raw.date ∧ SoftMatch r.post p) := by
      funext r; rw [decide_eq_decide, postingMatches_iff]
    rw [hfe]
    unfold softHits where_
    generalize (fun r : Rec => decide (r.date = hdr.raw.date ∧ SoftMatch r.post p)) = P
    generalize J.recs = l
    induction l using List.reverseRecOn with
    | nil => rfl
    | append_singleton l a ih =>
      rw [List.length_append, List.length_singleton, List.range_succ, List.filter_append, List.filterMap_append, List.filter_append]
      congr 1
      · rw [← ih]
        have h1 : (List.range l.length).filter (fun i => ((l ++ [a])[i]?).any P) =
            (List.range l.length).filter (fun i => (l[i]?).any P) := by
          apply List.filter_congr
          intro i hi
          rw [List.getElem?_append_left (List.mem_range.1 hi)]
        rw [h1]
        apply List.filterMap_congr
        intro i hi
        rw [List.getElem?_append_left (List.mem_range.1 (List.mem_filter.1 hi).1)]
      · simp only [List.filter_cons, List.getElem?_concat_length, Option.any_some, List.filter_nil]
        cases P a <;> simp
  have hlen : (J.softHits hdr.raw.date p).length = matching.length := by
    have := congrArg List.length (hpost (J.softHits hdr.raw.date p) (fun i hi => where_lt hi))
    rw [hm] at this
    simpa using this
  have hok : PostOK p := ⟨hcand, fun he => by
    obtain ⟨f, hf, hf'⟩ := hfp
    have : f ∈ fps p := mem_fps.2 ⟨hf, hf'⟩
    rw [he] at this; cases this⟩
  have hv : J.verdicts ⟨hdr, [p]⟩ = [J.verdict hdr.raw.date p] := rfl
  have hnc : J.verdict hdr.raw.date p ≠ .conflict := by
    unfold verdict; rw [hf0]; simp only
    split <;> simp
  have hg : Good J [⟨hdr, [p]⟩] := by
    refine ⟨?_, ?_, ?_, ?_, ?_⟩
    · intro q hq
      have : q = p := by simpa [allPosts] using hq
      exact this ▸ hok
    · simp [allPosts]
    · rintro ⟨t, ht, hc⟩
      have : t = ⟨hdr, [p]⟩ := by simpa using ht
      subst this
      rw [hv] at hc
      exact hnc (List.mem_singleton.1 hc).symm
    · rintro ⟨t, ht, hu, i, hi, j, hj, hne⟩
      have : t = ⟨hdr, [p]⟩ := by simpa using ht
      subst this
      obtain ⟨q, hq, hqv⟩ := mem_dests.1 hi
      obtain ⟨q', hq', hqv'⟩ := mem_dests.1 hj
      have e1 : q = p := by simpa using hq
      have e2 : q' = p := by simpa using hq'
      subst e1; subst e2
      rw [hqv] at hqv'
      cases hqv'
      exact hne rfl
    · unfold allDests
      by_cases hu : Undecided J ⟨hdr, [p]⟩
      · simp [hu]
      · simp only [hu, not_false_eq_true, decide_true, List.filter_cons_of_pos, List.filter_nil, List.flatMap_cons,
          List.flatMap_nil, List.append_nil]
        unfold dests
        rw [hv]
        have hd : ∀ v : Verdict, ([v].filterMap Verdict.dest?).Nodup := by
          intro v; cases v <;> simp [List.filterMap_cons, Verdict.dest?]
        exact hd _
  obtain ⟨m', hmm, hR'⟩ := merge_of_not_bad hR h (good_iff.1 hg)
  refine ⟨_, m', _, hmm, hR'.build h₁, ?_, ?_, ?_⟩
  · intro he
    have hsh : J.softHits hdr.raw.date p = [] := by
      rw [← List.length_eq_zero_iff, hlen, he]; rfl
    have hvn : J.verdict hdr.raw.date p = .new := by unfold verdict; rw [hf0, hsh]
    have hu : ¬ Undecided J ⟨hdr, [p]⟩ := by
      rw [undecided_iff]
      rintro (he | ⟨q, hq, _, h2⟩)
      · simp at he
      · have : q = p := by simpa using hq
        subst this
        have hz : (J.softHits hdr.raw.date q).length = 0 := by rw [hsh]; rfl
        have h2 : 2 ≤ (J.softHits hdr.raw.date q).length := h2
        omega
    refine ⟨handedBack_nil_iff.2 (by simpa using hu), ?_⟩
    have hfr : J.Fresh ⟨hdr, [p]⟩ := ⟨hu, by unfold dests; rw [hv, hvn]; rfl⟩
    obtain ⟨old, ho, _⟩ := entries_after hR.wf [⟨hdr, [p]⟩]
    rw [(journal_perm _).mem_iff, ho]
    apply List.mem_append_right
    simp [hfr]
  · intro r he
    have hl1 : (J.softHits hdr.raw.date p).length = 1 := by rw [hlen, he]; rfl
    obtain ⟨i, hi⟩ := List.length_eq_one_iff.1 hl1
    have hri : J.recs[i]? = some r := by
      rw [hi, he] at hm
      simp only [List.filterMap_cons, List.filterMap_nil] at hm
      cases hx : J.recs[i]? with
      | none => rw [hx] at hm; simp at hm
      | some s => rw [hx] at hm; simp at hm; rw [hm]
    have hvn : J.verdict hdr.raw.date p = .into i := by unfold verdict; rw [hf0, hi]
    have hu : ¬ Undecided J ⟨hdr, [p]⟩ := by
      rw [undecided_iff]
      rintro (he | ⟨q, hq, _, h2⟩)
      · simp at he
      · have : q = p := by simpa using hq
        subst this
        have h2 : 2 ≤ (J.softHits hdr.raw.date q).length := h2
        omega
    refine ⟨handedBack_nil_iff.2 (by simpa using hu), ?_⟩
    have hlt : i < J.recs.length := by
      by_contra hc; rw [List.getElem?_eq_none (by omega)] at hri; cases hri
    have hre : J.recs[i] = r := by rw [List.getElem?_eq_getElem hlt] at hri; exact Option.some.inj hri
    have hold := after_old J [⟨hdr, [p]⟩] hlt
    have hone : J.hits [⟨hdr, [p]⟩] i = [p] := by
      simp [hits, trnHits, hu, hvn]
    rw [hre, hone] at hold
    obtain ⟨T', hT', hh', hm'⟩ := journal_mem_of hR'.wf hold
    refine ⟨T', hT', hm', ?_⟩
    simp only at hh'
    rw [after_hdrs, List.getElem?_append_left (hR.wf.owner r (List.mem_of_getElem? hri))] at hh'
    exact hh'
  · intro h2
    rw [← hlen] at h2
    have hu : Undecided J ⟨hdr, [p]⟩ := undecided_iff.2 (Or.inr ⟨p, by simp, hf0, h2⟩)
    constructor
    · have : J.after [⟨hdr, [p]⟩] = J := by
        show J.putTrn J _ = J
        exact putTrn_undecided hu
      rw [this] at hR'
      exact hR'.unique hR
    · refine ⟨J.handBackPost (pickFp h J) hdr.raw.date p, ?_, ?_⟩
      · unfold handedBack
        rw [List.filter_cons_of_pos (by simpa using hu)]
        rfl
      · have := handBackPost_annotated (pickFp_ok (h := h) hR.wf) hdr.raw.date p
        have hc : J.candidates hdr.raw.date p = matching.map (·.post) := by
          have hva : J.verdict hdr.raw.date p = .ambiguous (J.softHits hdr.raw.date p) := by
            unfold verdict; rw [hf0]
            match hl : J.softHits hdr.raw.date p, h2 with
            | _ :: _ :: _, _ => rfl
          unfold Spec.Book.candidates
          rw [hva, ← hm]
          show J.postsAt _ = _
          unfold Spec.Book.postsAt
          rw [List.map_filterMap]
        rw [hc] at this
        exact this

/-- Three new postings that share no fingerprint with the journal of `hist` and match none, one and two of its postings. -/
example : ∀ p ∈ [post "expenses:bus" 151 ["fp-c1"], post "income" 200 ["fp-c1", "unknown-account"], post "expenses:bus" 150 ["fp-c1"]],
    (∀ t ∈ tagsOf p, ¬ IsCand t) ∧ (∃ t ∈ tagsOf p, IsFp t) ∧
    (∀ r ∈ (ofHistory (inputs hist)).recs, ¬ SharesFp r.post p) := by
  rw [ofHistory_eval]
  set_option maxRecDepth 100000 in decide +kernel

example : [(1, post "expenses:bus" 151 ["fp-c1"]), (1, post "income" 200 ["fp-c1", "unknown-account"]), (3, post "expenses:bus" 150 ["fp-c1"])].map
    (fun (d, p) => ((ofHistory (inputs hist)).recs.filter
      (fun r => r.date = (⟨2020, 1, d⟩ : Date) ∧ postingMatches r.post p = true)).length) = [0, 1, 2] := by
  rw [ofHistory_eval]
  set_option maxRecDepth 100000 in decide +kernel

end Verif
