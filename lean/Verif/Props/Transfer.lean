import Verif.Spec.Transfer
import Verif.Proofs.Transfer

/-!
# C68: a transfer seen from both accounts becomes one transaction
-/

namespace Verif
open Spec Spec.Book Ex

/-- A candidate tag is not a fingerprint. -/
theorem cand_not_fp (g : Str) : ¬ IsFp (candPrefix ++ g) := by
  rintro ⟨x, hx⟩
  have h := congrArg List.head? hx
  rw [List.head?_append, List.head?_append, show fpPrefix.head? = some 'f' from rfl,
    show candPrefix.head? = some 'c' from rfl] at h
  simp at h

/-- C68: the journal `js` has one side `t` of a transfer, an import `ts` has the other side `u`. No posting of the journal
has a fingerprint of `u`, and on that day no other posting of the journal softly matches those of `u`. Then a
successful merge makes the two sides one transaction: the header of `t` and two postings, of which the first has the account
of `t` and the second the account of `u`, both known, with the amounts of `t`. No other transaction of the new journal and
nothing that is handed back has a fingerprint of either side. -/
theorem C68_transfer (h h' h₂ : HashOrder) (js ts us us' js' : List TransactionPostings) (m m' : Merger)
    (h1 : Merger.new.merge h js = (.ok us, m)) (h2 : m.merge h' ts = (.ok us', m')) (hb : m'.build h₂ = .ok js')
    (t u : TransactionPostings) (own peer own' peer' : PostingInternal) (ht : t ∈ js) (hu : u ∈ ts)
    (hs : TwoSides t u own peer own' peer')
    (hfresh : ∀ T ∈ js, ∀ r ∈ T.posts, ¬ SharesFp r own' ∧ ¬ SharesFp r peer')
    (honly : ∀ T ∈ js, dateOf T = dateOf u → ∀ r ∈ T.posts, (SoftMatch r own' → r = peer) ∧ (SoftMatch r peer' → r = own)) :
    ∃ T' ∈ js', ∃ a b, T'.trn = t.trn ∧ T'.posts = [a, b] ∧
      a = absorb own peer' ∧ b = absorb peer own' ∧
      (a.raw.account = own.raw.account ∧ ¬ UnknownAccount a ∧ a.raw.amount = own.raw.amount) ∧
      (b.raw.account = own'.raw.account ∧ ¬ UnknownAccount b ∧ b.raw.amount = peer.raw.amount) ∧
      (∀ T ∈ js', ∀ r ∈ T.posts, (∃ s ∈ t.posts ++ u.posts, SharesFp r s) → T = T') ∧
      ∀ v ∈ us', ∀ r ∈ v.posts, ∀ s ∈ u.posts, ¬ SharesFp r s := by
  obtain ⟨hnb, rfl, hR⟩ := merge_ok R_new h1
  obtain ⟨hnb', rfl, hR'⟩ := merge_ok hR h2
  rw [hR'.build h₂] at hb
  have := Except.ok.inj hb; subst this
  have hg0 := good_iff.2 hnb
  have hg := good_iff.2 hnb'
  have hte := mem_entries_empty_after ht (by rw [hs.left.posts]; simp)
  set K := Book.empty.after js with hK
  unfold Spec.Book.entries at hte
  rw [List.mem_mapIdx] at hte
  obtain ⟨k, hk, hkt⟩ := hte
  have htrn : K.hdrs[k] = t.trn := by rw [← hkt]
  have hpk : (K.recs.filter (·.trn = k)).map (·.post) = [own, peer] := by
    rw [← hs.left.posts, ← hkt]
  obtain ⟨rp, l, hf1, hrpo, hl⟩ := List.map_eq_cons_iff.1 hpk
  obtain ⟨rq, l', rfl, hrqo, hl'⟩ := List.map_eq_cons_iff.1 hl
  rw [List.map_eq_nil_iff] at hl'; subst hl'
  obtain ⟨A, D, hrecs, hA, hrp, hf2⟩ := List.filter_eq_cons_iff.1 hf1
  obtain ⟨B, C, rfl, hB, hrq, hC⟩ := List.filter_eq_cons_iff.1 hf2
  rw [List.filter_eq_nil_iff] at hC
  simp only [decide_eq_true_eq] at hA hB hC hrp hrq
  have hrpm : rp ∈ K.recs := by rw [hrecs]; simp
  have hrqm : rq ∈ K.recs := by rw [hrecs]; simp
  have dated : ∀ r ∈ K.recs, r.post ∈ t.posts → r.date = dateOf u := by
    intro r hr hrt
    obtain ⟨t', ht', h1, h2⟩ := mem_recs_empty_after hr
    rw [h2, ← hg0.trn_eq ht ht' hrt h1, hs.date]
  have hip : K.recs[A.length]? = some rp := by rw [hrecs]; simp
  have hiq : K.recs[A.length + 1 + B.length]? = some rq := by
    rw [hrecs, List.getElem?_append_right (by omega)]
    have : A.length + 1 + B.length - A.length = B.length + 1 := by omega
    rw [this, List.getElem?_cons_succ, List.getElem?_append_right (by omega)]
    simp
  have nofp : ∀ s ∈ u.posts, ∀ r ∈ K.recs, ¬ SharesFp r.post s := by
    intro s hs' r hr
    obtain ⟨t', ht', h1, _⟩ := mem_recs_empty_after hr
    rw [hs.right.posts] at hs'
    simp only [List.mem_cons, List.not_mem_nil, or_false] at hs'
    rcases hs' with rfl | rfl
    · exact (hfresh t' ht' _ h1).1
    · exact (hfresh t' ht' _ h1).2
  have same_index : ∀ (i j : Nat) (r s : Rec), K.recs[i]? = some r → K.recs[j]? = some s → r.post = s.post → i = j := by
    intro i j r s hr hs e
    refine hR.wf.unique i j r s hr hs ?_
    rw [e]
    exact sharesFp_self (hR.wf.hasFp s (List.mem_of_getElem? hs))
  have hv : K.verdict (dateOf u) peer' = .into A.length := by
    refine verdict_of_soft (nofp _ (by rw [hs.right.posts]; simp)) ?_ ?_
    · refine mem_softHits.2 ⟨rp, hip, dated rp hrpm (by rw [hs.left.posts, hrpo]; simp), ?_⟩
      rw [hrpo]
      exact ⟨Or.inr (Or.inl hs.right.unknown), hs.amount, hs.balance⟩
    · intro j hj
      obtain ⟨r, hr, hrd, hsm⟩ := mem_softHits.1 hj
      obtain ⟨t', ht', h1, h2⟩ := mem_recs_empty_after (List.mem_of_getElem? hr)
      exact same_index j _ r rp hr hip (by rw [hrpo]; exact (honly t' ht' (by rw [← h2, hrd]) _ h1).2 hsm)
  have hv' : K.verdict (dateOf u) own' = .into (A.length + 1 + B.length) := by
    refine verdict_of_soft (nofp _ (by rw [hs.right.posts]; simp)) ?_ ?_
    · refine mem_softHits.2 ⟨rq, hiq, dated rq hrqm (by rw [hs.left.posts, hrqo]; simp), ?_⟩
      rw [hrqo]
      exact ⟨Or.inl hs.left.unknown, hs.amount', hs.balance'⟩
    · intro j hj
      obtain ⟨r, hr, hrd, hsm⟩ := mem_softHits.1 hj
      obtain ⟨t', ht', h1, h2⟩ := mem_recs_empty_after (List.mem_of_getElem? hr)
      exact same_index j _ r rq hr hiq (by rw [hrqo]; exact (honly t' ht' (by rw [← h2, hrd]) _ h1).1 hsm)
  obtain ⟨hnu, hpair⟩ := pair_after hg hu hs.right.posts hk hrecs hA hB hC hrp hrq rfl rfl hv hv'
  rw [hrpo, hrqo] at hpair
  have hkL : k < (K.after ts).hdrs.length := by rw [after_hdrs, List.length_append]; omega
  have htrnL : (K.after ts).hdrs[k] = t.trn := by
    simp only [after_hdrs]
    rw [List.getElem_append_left hk, htrn]
  have hT' : (⟨t.trn, [absorb own peer', absorb peer own']⟩ : TransactionPostings) ∈ (K.after ts).journal := by
    rw [(journal_perm _).mem_iff]
    unfold Spec.Book.entries
    rw [List.mem_mapIdx]
    exact ⟨k, hkL, by rw [htrnL, hpair]⟩
  have hku := hs.left.known
  have hun := hs.left.unknown
  have hku' := hs.right.known
  refine ⟨_, hT', _, _, rfl, rfl, rfl, rfl, ⟨?_, ?_, rfl⟩, ⟨?_, ?_, rfl⟩, ?_, ?_⟩
  · simp [absorb, hku]
  · unfold UnknownAccount at hku ⊢
    simp [absorb, mergedTags, tagsOf, hku]
  · simp [absorb, hun, hku']
  · unfold UnknownAccount at hku' ⊢
    simp [absorb, mergedTags, tagsOf, hku']
  · rintro T hT r hr ⟨s, hs', f, hf1, hf2⟩
    have : ∃ x ∈ [absorb own peer', absorb peer own'], f ∈ fps x := by
      rw [hs.left.posts, hs.right.posts] at hs'
      simp only [List.cons_append, List.nil_append, List.mem_cons, List.not_mem_nil, or_false] at hs'
      rcases hs' with rfl | rfl | rfl | rfl
      · exact ⟨absorb s peer', by simp, mem_fps_absorb.2 (Or.inl hf2)⟩
      · exact ⟨absorb s own', by simp, mem_fps_absorb.2 (Or.inl hf2)⟩
      · exact ⟨absorb peer s, by simp, mem_fps_absorb.2 (Or.inr hf2)⟩
      · exact ⟨absorb own s, by simp, mem_fps_absorb.2 (Or.inr hf2)⟩
    obtain ⟨x, hx, hfx⟩ := this
    exact journal_trn_unique hR'.wf hT hT' hr hx ⟨f, hf1, hfx⟩
  · intro v hv r hr s hs' hsh
    unfold handedBack at hv
    obtain ⟨t0, ht0, rfl⟩ := List.mem_map.1 hv
    rw [List.mem_filter, decide_eq_true_iff] at ht0
    unfold handBack at hr
    obtain ⟨p0, hp0, rfl⟩ := List.mem_map.1 hr
    obtain ⟨f, hf1, hf2⟩ := hsh
    have hann := handBackPost_annotated (pickFp_ok (h := h') hR.wf) (dateOf t0) p0
    have hf0 : f ∈ fps p0 := by
      unfold fps at hf1 ⊢
      rw [List.mem_filter] at hf1 ⊢
      refine ⟨?_, hf1.2⟩
      obtain ⟨names, _, hn⟩ := hann.tags
      rw [Std.ExtTreeSet.mem_toList] at hf1 ⊢
      rcases (hn f).1 hf1.1 with h | ⟨g, _, rfl⟩
      · exact h
      · exfalso
        have h3 := hf1.2
        rw [decide_eq_true_iff] at h3
        exact cand_not_fp g h3
    have := hg.eq_of_shares (mem_allPosts.2 ⟨t0, ht0.1, hp0⟩) (mem_allPosts.2 ⟨u, hu, hs'⟩) ⟨f, hf0, hf2⟩
    subst this
    rw [hg.trn_eq ht0.1 hu hp0 hs'] at ht0
    exact hnu ht0.2

/-- One side of a transfer, and a payment of the same amount on another day. -/
def Ex.transferFrom : List TransactionPostings :=
  [trn 3 "to savings" [post "assets:current" (-500) ["fp-a1"], post "expenses:unknown" 500 ["fp-a2", "unknown-account"]],
   trn 4 "shop" [post "assets:current" (-500) ["fp-a3"], post "expenses:unknown" 500 ["fp-a4", "unknown-account"]]]

/-- The other side of the transfer. -/
def Ex.transferTo : List TransactionPostings :=
  [trn 3 "from current" [post "assets:savings" 500 ["fp-b1"], post "income:unknown" (-500) ["fp-b2", "unknown-account"]]]

/-- The transfer of 500 from the current to the savings account becomes one transaction. -/
example : ∃ us m us' m' js', Merger.new.merge HashOrder.sorted transferFrom = (.ok us, m) ∧
    m.merge HashOrder.rev transferTo = (.ok us', m') ∧ m'.build HashOrder.sorted = .ok js' ∧
    trn 3 "to savings" [post "assets:current" (-500) ["fp-a1", "fp-b2"], post "assets:savings" 500 ["fp-a2", "fp-b1"]] ∈ js' := by
  have h1 : (Merger.new.merge HashOrder.sorted transferFrom).1 = .ok [] := by
    set_option maxRecDepth 100000 in decide +kernel
  have h2 : ((Merger.new.merge HashOrder.sorted transferFrom).2.merge HashOrder.rev transferTo).1 = .ok [] := by
    set_option maxRecDepth 100000 in decide +kernel
  have e1 : Merger.new.merge HashOrder.sorted transferFrom = (.ok [], (Merger.new.merge HashOrder.sorted transferFrom).2) := by
    rw [← h1]
  have e2 : (Merger.new.merge HashOrder.sorted transferFrom).2.merge HashOrder.rev transferTo = (.ok [],
      ((Merger.new.merge HashOrder.sorted transferFrom).2.merge HashOrder.rev transferTo).2) := by
    rw [← h2]
  obtain ⟨_, _, hR⟩ := merge_ok R_new e1
  obtain ⟨_, _, hR'⟩ := merge_ok hR e2
  refine ⟨_, _, _, _, _, e1, e2, hR'.build _, ?_⟩
  obtain ⟨T', hT', a, b, e, hab, ha, hb, _⟩ := C68_transfer _ _ HashOrder.sorted _ _ _ _ _ _ _ e1 e2 (hR'.build _)
    (trn 3 "to savings" [post "assets:current" (-500) ["fp-a1"], post "expenses:unknown" 500 ["fp-a2", "unknown-account"]])
    (trn 3 "from current" [post "assets:savings" 500 ["fp-b1"], post "income:unknown" (-500) ["fp-b2", "unknown-account"]])
    _ _ _ _ (by simp [transferFrom]) (by simp [transferTo])
    ⟨⟨rfl, by decide +kernel, by decide +kernel⟩, ⟨rfl, by decide +kernel, by decide +kernel⟩, rfl, by decide +kernel,
      by decide +kernel, by decide +kernel, by decide +kernel⟩ (by decide +kernel) (by decide +kernel)
  have : T' = trn 3 "to savings" [post "assets:current" (-500) ["fp-a1", "fp-b2"], post "assets:savings" 500 ["fp-a2", "fp-b1"]] := by
    rcases T' with ⟨x, y⟩
    simp only at e hab
    subst e hab ha hb
    decide +kernel
  rw [← this]
  exact hT'

end Verif
