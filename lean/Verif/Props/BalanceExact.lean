import Verif.Props.Balance

/-!
# C69: what a merge call adds to the transactions of a journal, and exactly when they stay balanced
-/

namespace Verif.Spec

/-- The posting `s` of a transaction of the date `d` is taken for the record `r` of the book: because of a fingerprint, or, if it
has no fingerprint in common with anything in the book, because of its date and what it says. -/
def Book.TakenFor (J : Book) (d : Date) (s : PostingInternal) (r : Rec) : Prop :=
  SharesFp r.post s ∨ (∀ r' ∈ J.recs, ¬ SharesFp r'.post s) ∧ r.date = d ∧ SoftMatch r.post s
instance (J d s r) : Decidable (Book.TakenFor J d s r) := by unfold Book.TakenFor; infer_instance

/-- The input transaction `u` becomes part of the transaction at the position `k`: it is not left to the human, and one of its postings is
taken for one of `k`. -/
def Book.Joins (J : Book) (k : Nat) (u : TransactionPostings) : Prop :=
  ¬ Book.Undecided J u ∧ ∃ s ∈ u.posts, ∃ r ∈ J.recs, r.trn = k ∧ J.TakenFor (Book.dateOf u) s r
instance (J k u) : Decidable (Book.Joins J k u) := by unfold Book.Joins; infer_instance

/-- The postings that are not recognised, of the input transactions that become part of `k`. -/
def Book.addedTo (J : Book) (ts : List TransactionPostings) (k : Nat) : List PostingInternal :=
  (ts.filter fun u => J.Joins k u).flatMap fun u => u.posts.filter fun s => ¬ J.Recognised (Book.dateOf u) s

/-- An input transaction becomes a transaction of its own. -/
def Book.StandsAlone (J : Book) (u : TransactionPostings) : Prop :=
  u.posts ≠ [] ∧ ∀ s ∈ u.posts, ¬ J.Recognised (Book.dateOf u) s
instance (J u) : Decidable (Book.StandsAlone J u) := by unfold Book.StandsAlone; infer_instance

/-- What postings say about money. -/
def moneyOfPosts (ps : List PostingInternal) : List (Option PostingAmount × Reality) := ps.map fun p => (p.raw.amount, p.raw.reality)

end Verif.Spec

namespace Verif
open Spec Spec.Book Ex

theorem dest_iff {J : Book} {d : Date} {s : PostingInternal} (hn : (J.verdict d s).isAmbiguous = false) (hc : J.verdict d s ≠ .conflict) :
    (J.verdict d s).dest? = none ↔ ¬ J.Recognised d s :=
  ⟨fun h hr => dest_some_of_recognised hn hc hr h, dest_none_of_not_recognised⟩

theorem into_iff {J : Book} {d : Date} {s : PostingInternal} (hn : (J.verdict d s).isAmbiguous = false) (hc : J.verdict d s ≠ .conflict)
    {i : Nat} {r : Rec} (hr : J.recs[i]? = some r) : J.verdict d s = .into i ↔ J.TakenFor d s r := by
  constructor
  · intro h
    unfold verdict at h
    split at h
    · rename_i j hj
      cases h
      obtain ⟨r', hr', hs⟩ := mem_fpHits.1 (by rw [hj]; simp : i ∈ J.fpHits s)
      rw [hr] at hr'; cases hr'
      exact .inl hs
    · cases h
    · rename_i hnil
      split at h
      · cases h
      · rename_i j hj
        cases h
        obtain ⟨r', hr', hs⟩ := mem_softHits.1 (by rw [hj]; simp : i ∈ J.softHits d s)
        rw [hr] at hr'; cases hr'
        exact .inr ⟨fpHits_nil_iff.1 hnil, hs⟩
      · cases h
  · rintro (h | ⟨h1, h2⟩)
    · exact verdict_of_fp hr h hc
    · have hm : i ∈ J.softHits d s := mem_softHits.2 ⟨r, hr, h2⟩
      unfold verdict at hn ⊢
      rw [fpHits_nil_iff.2 h1] at hn ⊢
      match hl : J.softHits d s with
      | [] => rw [hl] at hm; cases hm
      | [j] => rw [hl] at hm; simp at hm; subst hm; rfl
      | _ :: _ :: _ => rw [hl] at hn; cases hn

theorem decided_clear {J : Book} {u : TransactionPostings} (hu : ¬ Undecided J u) {s : PostingInternal} (hs : s ∈ u.posts) :
    (J.verdict (dateOf u) s).isAmbiguous = false := by
  cases hb : (J.verdict (dateOf u) s).isAmbiguous
  · rfl
  · exact absurd (Or.inr ⟨_, List.mem_map.2 ⟨s, hs, rfl⟩, hb⟩) hu

/-- A transaction joins its home. -/
theorem joins_iff {J : Book} {ts : List TransactionPostings} (hg : Good J ts) {u : TransactionPostings} (hm : u ∈ ts)
    (hu : ¬ Undecided J u) {c k : Nat} (hc : J.hdrs.length ≤ c) (hk : k < J.hdrs.length) : J.Joins k u ↔ J.home c u = k := by
  constructor
  · rintro ⟨_, s, hs, r, hr, rfl, ht⟩
    obtain ⟨i, hi⟩ := List.mem_iff_getElem?.1 hr
    have hv := (into_iff (decided_clear hu hs) (not_conflict hg hm hs) hi).2 ht
    have := hg.home_eq hm hu (mem_dests.2 ⟨s, hs, hv⟩) c
    rw [trnOf, hi] at this
    exact (Option.some.inj this).symm
  · intro h
    have hd : J.dests u ≠ [] := by
      intro hd
      rw [home_fresh hd] at h
      omega
    obtain ⟨i, hi⟩ := List.exists_mem_of_ne_nil _ hd
    obtain ⟨s, hs, hv⟩ := mem_dests.1 hi
    have hlt := dests_lt hi
    have := hg.home_eq hm hu hi c
    rw [trnOf, List.getElem?_eq_getElem hlt, h] at this
    exact ⟨hu, s, hs, _, List.getElem_mem hlt, Option.some.inj this,
      (into_iff (decided_clear hu hs) (not_conflict hg hm hs) (List.getElem?_eq_getElem hlt)).1 hv⟩

theorem news_joined {J : Book} {all : List TransactionPostings} (hg : Good J all) {k : Nat} (hk : k < J.hdrs.length)
    (ts : List TransactionPostings) (hts : ∀ u ∈ ts, u ∈ all) (c : Nat) (hc : J.hdrs.length ≤ c) :
    ((J.news c ts).filter (·.trn = k)).map (·.post) = J.addedTo ts k := by
  induction ts generalizing c with
  | nil => rfl
  | cons u ts ih =>
    have ih := fun c hc => ih (fun x hx => hts x (List.mem_cons_of_mem _ hx)) c hc
    have hm := hts u List.mem_cons_self
    rw [news, List.filter_append, List.map_append, ih _ (by split <;> omega)]
    unfold Book.addedTo
    rw [List.filter_cons]
    by_cases hu : Undecided J u
    · have : ¬ J.Joins k u := fun h => h.1 hu
      simp [hu, this]
    · rw [if_neg hu]
      have hj := joins_iff hg hm hu hc hk
      have hf : u.posts.filter (fun p => (J.verdict (dateOf u) p).dest? = none) = u.posts.filter fun s => ¬ J.Recognised (dateOf u) s := by
        apply List.filter_congr
        intro s hs
        rw [decide_eq_decide]
        exact dest_iff (decided_clear hu hs) (not_conflict hg hm hs)
      rw [hf]
      by_cases hh : J.home c u = k
      · rw [if_pos (by simpa using hj.2 hh), List.flatMap_cons]
        congr 1
        rw [hh]
        simp [List.filter_map, Function.comp_def]
      · have : ¬ J.Joins k u := fun h => hh (hj.1 h)
        rw [if_neg (by simpa using this)]
        rw [List.filter_eq_nil_iff.2]
        · rfl
        · intro r hr
          obtain ⟨p, _, rfl⟩ := List.mem_map.1 hr
          simpa using hh

theorem standsAlone_iff {J : Book} {ts : List TransactionPostings} (hg : Good J ts) {u : TransactionPostings} (hm : u ∈ ts) :
    J.Fresh u ↔ J.StandsAlone u := by
  constructor
  · rintro ⟨hu, hd⟩
    refine ⟨fun he => hu (.inl he), fun s hs => ?_⟩
    exact (dest_iff (decided_clear hu hs) (not_conflict hg hm hs)).1 (dests_nil_iff.1 hd s hs)
  · rintro ⟨hne, h⟩
    have hn : ∀ s ∈ u.posts, J.verdict (dateOf u) s = .new := by
      intro s hs
      have h1 : J.fpHits s = [] := fpHits_nil_iff.2 fun r hr hx => h s hs ⟨r, hr, Or.inl hx⟩
      have h2 : J.softHits (dateOf u) s = [] := by
        rw [List.eq_nil_iff_forall_not_mem]
        intro i hi
        obtain ⟨r, hr, hx⟩ := mem_softHits.1 hi
        exact h s hs ⟨r, List.mem_of_getElem? hr, Or.inr hx⟩
      unfold verdict
      rw [h1, h2]
    refine ⟨?_, dests_nil_iff.2 fun s hs => by rw [hn s hs]; rfl⟩
    rintro (he | ⟨v, hv, ha⟩)
    · exact hne he
    · obtain ⟨s, hs, rfl⟩ := List.mem_map.1 hv
      rw [hn s hs] at ha
      cases ha

/-- C69, one call, on the book: the transactions that were there keep what they say about money, and what is not recognised of the input
transactions that become part of them is added at the end; the input transactions of which nothing is recognised follow as they are. -/
theorem money_step {J : Book} (hw : J.WF) {ts : List TransactionPostings} (hg : Good J ts) :
    (J.after ts).entries.map moneyOf =
      (J.entries.mapIdx fun k t => moneyOf t ++ moneyOfPosts (J.addedTo ts k)) ++ (ts.filter (J.StandsAlone ·)).map moneyOf := by
  obtain ⟨old, ho, hf⟩ := entries_after hw ts
  have hlen : old.length = J.hdrs.length := by rw [← hf.length_eq]; simp [Spec.Book.entries]
  have hfr : ts.filter (J.Fresh ·) = ts.filter (J.StandsAlone ·) := by
    apply List.filter_congr
    intro u hu
    rw [decide_eq_decide]
    exact standsAlone_iff hg hu
  rw [ho, hfr, List.map_append]
  congr 1
  apply List.ext_getElem?
  intro k
  rw [List.getElem?_map, List.getElem?_mapIdx]
  by_cases hk : k < J.hdrs.length
  · have h1 : (J.after ts).entries[k]? = old[k]? := by rw [ho, List.getElem?_append_left (by omega)]
    rw [← h1]
    unfold Spec.Book.entries
    rw [List.getElem?_mapIdx, List.getElem?_mapIdx, List.getElem?_eq_getElem hk]
    obtain ⟨hdr, hhdr⟩ : ∃ x, (J.after ts).hdrs[k]? = some x := by
      rw [after_hdrs, List.getElem?_append_left hk, List.getElem?_eq_getElem hk]; exact ⟨_, rfl⟩
    rw [hhdr]
    simp only [Option.map_some, Option.some.injEq]
    unfold moneyOf moneyOfPosts
    simp only
    rw [after_recs, List.filter_append, List.map_append, List.map_append, news_joined hg hk ts (fun _ h => h) _ (Nat.le_refl _)]
    congr 1
    exact money_grown _ _ _
  · rw [List.getElem?_eq_none (by omega), List.getElem?_eq_none (by simp [Spec.Book.entries]; omega)]
    rfl

/-- C69, the account of one merge call: the transactions of the journal before, in some order, keep what they say about money in the journal
after; each is followed by what is not recognised of the input transactions that become part of it. The other transactions of the journal
after are the input transactions of which nothing is recognised. -/
theorem C69_added (calls : History) (h : HashOrder) (ts back : List TransactionPostings) (m' : Merger)
    (hm : (run calls).merge h ts = (.ok back, m')) (h₁ h₂ : HashOrder) (js js' : List TransactionPostings)
    (hj : (run calls).build h₁ = .ok js) (hj' : m'.build h₂ = .ok js') :
    ∃ es, js.Perm es ∧ (js'.map moneyOf).Perm
      ((es.mapIdx fun k t => moneyOf t ++ moneyOfPosts ((ofHistory (inputs calls)).addedTo ts k)) ++
        (ts.filter ((ofHistory (inputs calls)).StandsAlone ·)).map moneyOf) := by
  obtain ⟨hbad, _, hR⟩ := merge_ok (run_refines calls) hm
  rw [build_iff] at hj
  subst hj
  have hj' : js' = ((ofHistory (inputs calls)).after ts).journal := by
    rw [hR.build h₂] at hj'
    exact (Except.ok.inj hj').symm
  subst hj'
  refine ⟨(ofHistory (inputs calls)).entries, journal_perm _, ?_⟩
  rw [← money_step (wf_steps _) (good_iff.2 hbad)]
  exact List.Perm.map _ (journal_perm _)

theorem total_append (c : Str) (l l' : List Posting) : total c (l ++ l') = total c l + total c l' := by
  unfold total
  rw [List.map_append, List.sum_append]

theorem total_money (c : Str) (ps : List PostingInternal) : total c (ps.map (·.raw)) = ((moneyOfPosts ps).map fun x => amountIn c x.1).sum := by
  unfold total moneyOfPosts
  rw [List.map_map, List.map_map]
  rfl

/-- Money that balances. -/
def BalancedMoney (l : List (Option PostingAmount × Reality)) : Prop :=
  (∀ x ∈ l, ∃ a, x.1 = some ⟨a, none, none⟩) ∧ ∀ c, (l.map fun x => amountIn c x.1).sum = 0

theorem balanced_money (t : TransactionPostings) : Balanced (t.posts.map (·.raw)) ↔ BalancedMoney (moneyOf t) := by
  have e : moneyOf t = moneyOfPosts t.posts := rfl
  unfold Balanced BalancedMoney
  simp only [total_money, e]
  refine and_congr_left fun _ => ?_
  unfold moneyOfPosts
  simp only [List.mem_map, forall_exists_index, and_imp, forall_apply_eq_imp_iff₂]

/-- C69, exactly: if the journal was balanced and so is what is merged, then the journal stays balanced if, and only if, for every transaction
the amounts that are added to it balance. They are the amounts of the postings that are not recognised, of the input transactions of which
some posting is recognised in it. -/
theorem C69_exact (calls : History) (h : HashOrder) (ts back : List TransactionPostings) (m' : Merger)
    (hm : (run calls).merge h ts = (.ok back, m')) (h₁ h₂ : HashOrder) (js js' : List TransactionPostings)
    (hj : (run calls).build h₁ = .ok js) (hj' : m'.build h₂ = .ok js')
    (hold : ∀ T ∈ js, Balanced (T.posts.map (·.raw))) (hin : ∀ u ∈ ts, Balanced (u.posts.map (·.raw))) :
    (∀ T ∈ js', Balanced (T.posts.map (·.raw))) ↔
      ∀ k < js.length, ∀ c, total c (((ofHistory (inputs calls)).addedTo ts k).map (·.raw)) = 0 := by
  obtain ⟨es, hp, hp'⟩ := C69_added calls h ts back m' hm h₁ h₂ js js' hj hj'
  have h1 : (∀ T ∈ js', Balanced (T.posts.map (·.raw))) ↔ ∀ l ∈ js'.map moneyOf, BalancedMoney l := by
    simp only [List.forall_mem_map, balanced_money]
  rw [h1]
  have hes : ∀ T ∈ es, BalancedMoney (moneyOf T) := fun T hT => (balanced_money T).1 (hold T (hp.mem_iff.2 hT))
  have key : ∀ (k : Nat) (T : TransactionPostings), es[k]? = some T →
      (BalancedMoney (moneyOf T ++ moneyOfPosts ((ofHistory (inputs calls)).addedTo ts k)) ↔
        ∀ c, total c (((ofHistory (inputs calls)).addedTo ts k).map (·.raw)) = 0) := by
    intro k T hT
    have hb := hes T (List.mem_of_getElem? hT)
    unfold BalancedMoney
    simp only [List.map_append, List.sum_append, hb.2, zero_add, ← total_money]
    refine ⟨And.right, fun h => ⟨fun x hx => ?_, h⟩⟩
    rcases List.mem_append.1 hx with hx | hx
    · exact hb.1 x hx
    · obtain ⟨p, hp, rfl⟩ := List.mem_map.1 hx
      obtain ⟨u, hu, hpu⟩ := List.mem_flatMap.1 hp
      obtain ⟨a, ha⟩ := (hin u (List.mem_filter.1 hu).1).1 p.raw (List.mem_map.2 ⟨p, (List.mem_filter.1 hpu).1, rfl⟩)
      exact ⟨a, ha⟩
  constructor
  · intro hall k hk
    have hk' : k < es.length := by rw [← hp.length_eq]; exact hk
    refine (key k es[k] (List.getElem?_eq_getElem hk')).1 (hall _ (hp'.mem_iff.2 (List.mem_append_left _ ?_)))
    exact List.mem_mapIdx.2 ⟨k, hk', rfl⟩
  · intro hall l hl
    rcases List.mem_append.1 (hp'.mem_iff.1 hl) with hl | hl
    · obtain ⟨k, hk, rfl⟩ := List.mem_mapIdx.1 hl
      exact (key k es[k] (List.getElem?_eq_getElem hk)).2 (hall k (by rw [hp.length_eq]; exact hk))
    · obtain ⟨u, hu, rfl⟩ := List.mem_map.1 hl
      exact (balanced_money u).1 (hin u (List.mem_filter.1 hu).1)

/-- A payment in the journal, and a statement with the same payment, another account and two postings that cancel out. -/
def Ex.halfKnownBalanced : History :=
  [(HashOrder.sorted, [trn 3 "shop" [post "assets:a" (-500) ["fp-a1"], post "expenses:shop" 500 ["fp-a2"]]])]

/-- What is merged next: the first two postings are recognised; the others are added and balance. -/
def Ex.cancelling : List TransactionPostings :=
  [trn 3 "shop" [post "assets:a" (-500) ["fp-b1"], post "expenses:shop" 500 ["fp-b2"], post "assets:points" 10 ["fp-b3"],
    post "income:points" (-10) ["fp-b4"]], trn 4 "other" [post "assets:a" (-1) ["fp-b5"], post "expenses:x" 1 ["fp-b6"]]]

/-- The condition can be met although a transaction is recognised in part, and it fails in the example above. -/
example : (∀ k < 1, ((bookEval (inputs halfKnownBalanced)).addedTo cancelling k).map (fun p => (p.raw.account, p.raw.amount.map (·.amount.quantity))) =
      [("assets:points".toList, some ⟨false, 10, 2⟩), ("income:points".toList, some ⟨true, 10, 2⟩)]) ∧
    ((bookEval (inputs (halfKnown.take 1))).addedTo ((inputs halfKnown)[1]?.getD []) 0).map (·.raw.account) =
      ["expenses:food".toList, "expenses:drink".toList] := by
  set_option maxRecDepth 100000 in decide +kernel

set_option maxRecDepth 100000 in
/-- The hypotheses are met, with what was merged above. -/
example : ((run halfKnownBalanced).merge HashOrder.rev cancelling).1 = .ok [] ∧
    (∀ ts ∈ inputs halfKnownBalanced, ∀ t ∈ ts, Balanced (t.posts.map (·.raw))) ∧ ∀ u ∈ cancelling, Balanced (u.posts.map (·.raw)) := by
  refine ⟨by decide +kernel, ?_, ?_⟩
  · intro ts hts t ht
    simp only [inputs, halfKnownBalanced, List.map_cons, List.map_nil, List.mem_cons, List.not_mem_nil, or_false] at hts
    subst hts
    simp only [List.mem_cons, List.not_mem_nil, or_false] at ht
    subst ht
    exact balanced_posts _ _ _ _ _ _ (by decide)
  · intro u hu
    simp only [cancelling, List.mem_cons, List.not_mem_nil, or_false] at hu
    rcases hu with rfl | rfl
    · have h1 := balanced_posts "assets:a" "expenses:shop" (-500) 500 ["fp-b1"] ["fp-b2"] (by decide)
      have h2 := balanced_posts "assets:points" "income:points" 10 (-10) ["fp-b3"] ["fp-b4"] (by decide)
      refine ⟨fun p hp => ?_, fun c => ?_⟩
      · change p ∈ ([post "assets:a" (-500) ["fp-b1"], post "expenses:shop" 500 ["fp-b2"]].map (·.raw)) ++
          ([post "assets:points" 10 ["fp-b3"], post "income:points" (-10) ["fp-b4"]].map (·.raw)) at hp
        exact (List.mem_append.1 hp).elim (h1.1 p) (h2.1 p)
      · change total c (([post "assets:a" (-500) ["fp-b1"], post "expenses:shop" 500 ["fp-b2"]].map (·.raw)) ++
          ([post "assets:points" 10 ["fp-b3"], post "income:points" (-10) ["fp-b4"]].map (·.raw))) = 0
        rw [total_append, h1.2, h2.2, add_zero]
    · exact balanced_posts _ _ _ _ _ _ (by decide)

end Verif
