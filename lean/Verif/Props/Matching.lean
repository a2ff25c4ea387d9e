import Verif.Props.Safety

/-!
# C06, C08 – C12, C21: how input postings are matched
-/

namespace Verif
open Spec Spec.Book Ex

theorem journal_lt {J : Book} (hw : J.WF) {r : Rec} (hr : r ∈ J.recs) :
    ∃ i : Nat, (postingsOf J.journal)[i]? = some r.post := by
  have : r.post ∈ postingsOf J.journal := by
    obtain ⟨i, hi⟩ := List.mem_iff_getElem?.1 hr
    exact (mem_journal_posts hw).2 ⟨i, r, hi, rfl⟩
  exact List.mem_iff_getElem?.1 this

/-! ## C06 -/

/-- C06: after a successful merge call every input transaction is either merged or handed back, and never both.

`left` says which ones are handed back. Those are exactly what the call returns, in order. A transaction that is not handed
back has postings, and they are all in one transaction of the new journal: for each there is exactly one
position in the journal with a common fingerprint, and the posting there has all its fingerprints. A transaction that is
handed back has no postings, or one of its postings has no fingerprint in the new journal. -/
theorem C06_nothing_is_lost (calls : History) (h h₁ h₂ : HashOrder) (ts u js js' : List TransactionPostings) (m' : Merger)
    (hm : (run calls).merge h ts = (.ok u, m')) (hb : (run calls).build h₁ = .ok js) (hb' : m'.build h₂ = .ok js') :
    ∃ left : TransactionPostings → Bool,
      List.Forall₂ (HandedBack js) (ts.filter left) u ∧
      (∀ t ∈ ts, left t = false → t.posts ≠ [] ∧
        (∃ T ∈ js', ∀ p ∈ t.posts, ∃ q ∈ T.posts, ∀ f ∈ fps p, f ∈ fps q) ∧
        ∀ p ∈ t.posts, ∃ (i : Nat) (q : PostingInternal), (postingsOf js')[i]? = some q ∧ (∀ f ∈ fps p, f ∈ fps q) ∧
          ∀ (j : Nat) (q' : PostingInternal), (postingsOf js')[j]? = some q' → SharesFp q' p → j = i) ∧
      (∀ t ∈ ts, left t = true → t.posts = [] ∨ ∃ p ∈ t.posts, ∀ q ∈ postingsOf js', ¬ SharesFp q p) := by
  have hR := run_refines calls
  rw [build_iff] at hb; subst hb
  obtain ⟨hnb, rfl, hR'⟩ := merge_ok hR hm
  rw [hR'.build h₂] at hb'
  have := Except.ok.inj hb'; subst this
  set J := ofHistory (inputs calls)
  have hg := good_iff.2 hnb
  refine ⟨fun t => decide (Undecided J t), ?_, ?_, ?_⟩
  · unfold handedBack
    rw [List.forall₂_map_right_iff, List.forall₂_same]
    intro t _
    exact handBack_handedBack hR.wf (pickFp_ok hR.wf) t
  · intro t ht hu
    have hu : ¬ Undecided J t := by simpa using hu
    obtain ⟨k, hk⟩ := hg.lands ht hu
    have hne : t.posts ≠ [] := fun he => hu (Or.inl he)
    refine ⟨hne, ?_, ?_⟩
    · obtain ⟨p₀, hp₀⟩ := List.exists_mem_of_ne_nil _ hne
      obtain ⟨i₀, r₀, hr₀, hk₀, _⟩ := hk p₀ hp₀
      have hlt : k < (J.after ts).hdrs.length := hk₀ ▸ hR'.wf.owner r₀ (List.mem_of_getElem? hr₀)
      refine ⟨⟨(J.after ts).hdrs[k], ((J.after ts).recs.filter (·.trn = k)).map (·.post)⟩, ?_, ?_⟩
      · rw [(journal_perm _).mem_iff]
        unfold Spec.Book.entries
        rw [List.mem_mapIdx]
        exact ⟨k, hlt, rfl⟩
      · intro p hp
        obtain ⟨i, r, hr, hrk, hf⟩ := hk p hp
        exact ⟨r.post, List.mem_map.2 ⟨r, List.mem_filter.2 ⟨List.mem_of_getElem? hr, by simpa using hrk⟩, rfl⟩, hf⟩
    · intro p hp
      obtain ⟨i, r, hr, hrk, hf⟩ := hk p hp
      obtain ⟨n, hn⟩ := journal_lt hR'.wf (List.mem_of_getElem? hr)
      refine ⟨n, _, hn, hf, ?_⟩
      rintro j q' hq' ⟨f, hf1, hf2⟩
      exact journal_index_unique hR'.wf hq' hn ⟨f, hf1, hf f hf2⟩
  · intro t ht hu
    have hu : Undecided J t := by simpa using hu
    rcases undecided_iff.1 hu with he | ⟨p, hp, hf, _⟩
    · exact Or.inl he
    · refine Or.inr ⟨p, hp, ?_⟩
      intro q hq
      obtain ⟨i, r, hr, rfl⟩ := (mem_journal_posts hR'.wf).1 hq
      exact hg.ambiguous_absent ht hp hf hu (List.mem_of_getElem? hr)

/-- A call that merges one transaction and hands back another. -/
def mixed : List TransactionPostings :=
  [trn 3 "ticket" [post "expenses:bus" 150 ["fp-c1"], post "assets:c" (-150) ["fp-c2"]], trn 2 "transfer" [post "assets:b" 500 ["fp-c3", "fp-b1"]]]

set_option maxRecDepth 100000 in
example : ((run hist).merge HashOrder.rev mixed).1 = .ok
    [trn 3 "ticket" [post "expenses:bus" 150 ["fp-c1", "candidate-fp-t1", "candidate-fp-t2"], post "assets:c" (-150) ["fp-c2"]]] := by
  decide +kernel

/-! ## C08 -/

/-- C08: if a posting of the journal shares a fingerprint with an input posting then that posting is the destination: in
the new journal there is, in a transaction with the same header, that posting merged with the input posting, and
nothing else of the input merged into it. Amount, date, balance and account play no role. The only exception is that
the whole input transaction is handed back because some other posting of it is ambiguous. -/
theorem C08_fingerprints_first (calls : History) (h h₁ h₂ : HashOrder) (ts u js js' : List TransactionPostings) (m' : Merger)
    (hm : (run calls).merge h ts = (.ok u, m')) (hb : (run calls).build h₁ = .ok js) (hb' : m'.build h₂ = .ok js')
    (t : TransactionPostings) (ht : t ∈ ts) (p : PostingInternal) (hp : p ∈ t.posts)
    (T : TransactionPostings) (hT : T ∈ js) (q : PostingInternal) (hq : q ∈ T.posts) (hs : SharesFp q p) :
    (∃ T' ∈ js', T'.trn = T.trn ∧ absorb q p ∈ T'.posts) ∨
    ((∃ t' ∈ u, HandedBack js t t') ∧ ∃ p' ∈ t.posts, p' ≠ p ∧ ∀ q' ∈ postingsOf js, ¬ SharesFp q' p') := by
  have hR := run_refines calls
  rw [build_iff] at hb; subst hb
  obtain ⟨hnb, rfl, hR'⟩ := merge_ok hR hm
  rw [hR'.build h₂] at hb'
  have := Except.ok.inj hb'; subst this
  set J := ofHistory (inputs calls)
  have hg := good_iff.2 hnb
  obtain ⟨i, r, hr, rfl, hhd⟩ := mem_journal ⟨hT, hq⟩
  by_cases hu : Undecided J t
  · right
    refine ⟨⟨J.handBack (pickFp h J) t, ?_, handBack_handedBack hR.wf (pickFp_ok hR.wf) t⟩, ?_⟩
    · unfold handedBack
      exact List.mem_map.2 ⟨t, List.mem_filter.2 ⟨ht, by simpa using hu⟩, rfl⟩
    · rcases undecided_iff.1 hu with he | ⟨p', hp', hf, _⟩
      · rw [he] at hp; cases hp
      · have key : ∀ q' ∈ postingsOf J.journal, ¬ SharesFp q' p' := by
          intro q' hq' hs'
          obtain ⟨j, s, hj, rfl⟩ := (mem_journal_posts hR.wf).1 hq'
          have : j ∈ J.fpHits p' := mem_fpHits.2 ⟨s, hj, hs'⟩
          rw [hf] at this; cases this
        refine ⟨p', hp', ?_, key⟩
        rintro rfl
        exact key r.post ((mem_journal_posts hR.wf).2 ⟨i, r, hr, rfl⟩) hs
  · left
    have hv := verdict_of_fp (d := dateOf t) hr hs (not_conflict hg ht hp)
    have hh : p ∈ J.hits ts i := mem_hits.2 ⟨t, ht, hu, hp, hv⟩
    have hone : J.hits ts i = [p] := by
      have := hg.hits_le_one i
      match hl : J.hits ts i, this with
      | [], _ => rw [hl] at hh; cases hh
      | [a], _ => rw [hl] at hh; simp at hh; rw [hh]
      | _ :: _ :: _, h => simp at h
    have hi : i < J.recs.length := by
      by_contra hc; rw [List.getElem?_eq_none (by omega)] at hr; cases hr
    have hre : J.recs[i] = r := by rw [List.getElem?_eq_getElem hi] at hr; exact Option.some.inj hr
    have hold := after_old J ts hi
    rw [hre, hone] at hold
    obtain ⟨T', hT', hh', hm'⟩ := journal_mem_of hR'.wf hold
    refine ⟨T', hT', ?_, hm'⟩
    have hpre : (J.after ts).hdrs[r.trn]? = some T.trn := by
      rw [after_hdrs, List.getElem?_append_left]
      · exact hhd
      · exact hR.wf.owner r (List.mem_of_getElem? hr)
    simp only at hh'
    rw [hpre] at hh'
    exact (Option.some.inj hh').symm

/-- The posting `fp-b1` of another date, amount and account goes into the posting with that fingerprint. -/
example : ∃ u m' js', (run hist).merge HashOrder.rev [trn 9 "odd" [post "other" 7 ["fp-b1"]]] = (.ok u, m') ∧
    m'.build HashOrder.rev = .ok js' ∧
    trn 2 "shop" [post "assets:a" (-500) ["fp-a1"], post "assets:b" 500 ["fp-a2", "fp-b1"]] ∈ js' := by
  have h1 : ((run hist).merge HashOrder.rev [trn 9 "odd" [post "other" 7 ["fp-b1"]]]).1 = .ok [] := by
    set_option maxRecDepth 100000 in decide +kernel
  have h2 : ((run hist).merge HashOrder.rev [trn 9 "odd" [post "other" 7 ["fp-b1"]]]).2.build HashOrder.rev = .ok
      [trn 1 "cafe" [post "assets:a" (-200) ["fp-a3"], post "expenses:food" 200 ["fp-a4"]],
     trn 1 "fee" [post "assets:b" (-1) ["fp-b2"], post "expenses:fee" 1 ["fp-b3"]],
     trn 2 "shop" [post "assets:a" (-500) ["fp-a1"], post "assets:b" 500 ["fp-a2", "fp-b1"]],
     trn 3 "bus" [post "expenses:bus" 150 ["fp-t1"]], trn 3 "bus back" [post "expenses:bus" 150 ["fp-t2"]]] := by
    rw [build_eval]; set_option maxRecDepth 100000 in decide +kernel
  exact ⟨_, _, _, Prod.ext h1 rfl, h2, by simp⟩

end Verif
