import Verif.Spec.Import
import Verif.Props.Matching3
import Verif.Examples.Books
import Mathlib.Tactic.NormNum
import Mathlib.Algebra.Order.Field.Rat

/-!
# C69: when merging keeps transactions balanced

README.md says that merging "may create unbalanced transactions". It does so only when some postings of an input transaction
are recognised in the journal and others are not.
-/

namespace Verif.Spec

/-- The book has a posting that is, or could be, the posting `s` of a transaction of the date `d`. -/
def Book.Recognised (J : Book) (d : Date) (s : PostingInternal) : Prop :=
  ∃ r ∈ J.recs, SharesFp r.post s ∨ (r.date = d ∧ SoftMatch r.post s)
instance (J d s) : Decidable (Book.Recognised J d s) := by unfold Book.Recognised; infer_instance

/-- All postings of the transaction are recognised, or none. -/
def Book.WholeOrNothing (J : Book) (u : TransactionPostings) : Prop :=
  (∀ s ∈ u.posts, J.Recognised (Book.dateOf u) s) ∨ (∀ s ∈ u.posts, ¬ J.Recognised (Book.dateOf u) s)
instance (J u) : Decidable (Book.WholeOrNothing J u) := by unfold Book.WholeOrNothing; infer_instance

/-- Whenever an input is merged in the course of the history, all or none of the postings of each transaction are recognised. -/
def AllWhole (ins : List (List TransactionPostings)) : Prop :=
  ∀ before ts after, ins = before ++ ts :: after → ¬ (Book.ofHistory before).Bad ts →
    ∀ u ∈ ts, (Book.ofHistory before).WholeOrNothing u

/-- What a transaction says about money: the amounts (with prices) and the kinds of its postings in order. -/
def moneyOf (t : TransactionPostings) : List (Option PostingAmount × Reality) := t.posts.map fun p => (p.raw.amount, p.raw.reality)

end Verif.Spec

namespace Verif
open Spec Spec.Book Ex

theorem dest_some_of_recognised {J : Book} {d : Date} {s : PostingInternal} (hn : (J.verdict d s).isAmbiguous = false)
    (hc : J.verdict d s ≠ .conflict) (h : J.Recognised d s) : (J.verdict d s).dest? ≠ none := by
  obtain ⟨r, hr, hrs⟩ := h
  obtain ⟨i, hi⟩ := List.mem_iff_getElem?.1 hr
  by_cases hfp : ∃ r ∈ J.recs, SharesFp r.post s
  · obtain ⟨r', hr', hs⟩ := hfp
    obtain ⟨j, hj⟩ := List.mem_iff_getElem?.1 hr'
    rw [verdict_of_fp hj hs hc]
    simp [Verdict.dest?]
  · have hnone : ∀ r ∈ J.recs, ¬ SharesFp r.post s := fun r hr hs => hfp ⟨r, hr, hs⟩
    have hsoft : i ∈ J.softHits d s := by
      rcases hrs with h | h
      · exact absurd h (hnone r hr)
      · exact mem_softHits.2 ⟨r, hi, h⟩
    unfold verdict at hn ⊢
    rw [fpHits_nil_iff.2 hnone] at hn ⊢
    match hl : J.softHits d s with
    | [] => rw [hl] at hsoft; cases hsoft
    | [j] => simp [Verdict.dest?]
    | _ :: _ :: _ => rw [hl] at hn; cases hn

theorem dest_none_of_not_recognised {J : Book} {d : Date} {s : PostingInternal} (h : ¬ J.Recognised d s) :
    (J.verdict d s).dest? = none := by
  have h1 : J.fpHits s = [] := fpHits_nil_iff.2 fun r hr hs => h ⟨r, hr, Or.inl hs⟩
  have h2 : J.softHits d s = [] := by
    rw [List.eq_nil_iff_forall_not_mem]
    intro i hi
    obtain ⟨r, hr, hx⟩ := mem_softHits.1 hi
    exact h ⟨r, List.mem_of_getElem? hr, Or.inr hx⟩
  unfold verdict
  rw [h1, h2]; rfl

/-- A merge call in which all or none of the postings of each transaction are recognised adds nothing to a transaction
that was there before. -/
theorem news_old {J : Book} {ts : List TransactionPostings} (hg : Good J ts) (hw : ∀ u ∈ ts, J.WholeOrNothing u)
    {k : Nat} (hk : k < J.hdrs.length) : (J.news J.hdrs.length ts).filter (·.trn = k) = [] := by
  rw [List.filter_eq_nil_iff]
  intro r hr
  obtain ⟨u, hu, hnu, hp, hdest, _, c, hc, hh⟩ := mem_news hr
  rw [decide_eq_true_iff]
  intro hrk
  by_cases hd : J.dests u = []
  · rw [home_fresh hd] at hh; omega
  · obtain ⟨x, hx⟩ := List.exists_mem_of_ne_nil _ hd
    obtain ⟨s, hs, hvs⟩ := mem_dests.1 hx
    have key : ∀ p ∈ u.posts, (J.verdict (dateOf u) p).isAmbiguous = false := by
      intro p hp
      cases hb : (J.verdict (dateOf u) p).isAmbiguous
      · rfl
      · exact absurd (Or.inr ⟨_, List.mem_map.2 ⟨p, hp, rfl⟩, hb⟩) hnu
    rcases hw u hu with h | h
    · exact dest_some_of_recognised (key _ hp) (not_conflict hg hu hp) (h _ hp) hdest
    · have := dest_none_of_not_recognised (h s hs)
      rw [hvs] at this; cases this

theorem foldl_absorb_money (l : List PostingInternal) (p : PostingInternal) :
    (l.foldl absorb p).raw.amount = p.raw.amount ∧ (l.foldl absorb p).raw.reality = p.raw.reality := by
  induction l generalizing p with
  | nil => exact ⟨rfl, rfl⟩
  | cons a l ih => rw [List.foldl_cons]; exact ih (absorb p a)

theorem money_grown (l : List Rec) (g : Nat → List PostingInternal) (k : Nat) :
    ((((l.mapIdx fun n r => { r with post := (g n).foldl absorb r.post }).filter (·.trn = k)).map (·.post)).map fun p =>
      (p.raw.amount, p.raw.reality)) = (((l.filter (·.trn = k)).map (·.post)).map fun p => (p.raw.amount, p.raw.reality)) := by
  induction l generalizing g with
  | nil => rfl
  | cons r l ih =>
    rw [List.mapIdx_cons]
    have h := ih (fun n => g (n + 1))
    by_cases hk : r.trn = k
    · rw [List.filter_cons_of_pos (by simpa using hk), List.filter_cons_of_pos (by simpa using hk)]
      simp only [List.map_cons]
      rw [h, (foldl_absorb_money (g 0) r.post).1, (foldl_absorb_money (g 0) r.post).2]
    · rw [List.filter_cons_of_neg (by simpa using hk), List.filter_cons_of_neg (by simpa using hk), h]

/-- After such a call every transaction says about money what one of the book or one of the input says. -/
theorem money_after {J : Book} (hJ : J.WF) {ts : List TransactionPostings} (hg : Good J ts)
    (hw : ∀ u ∈ ts, J.WholeOrNothing u) {T : TransactionPostings} (hT : T ∈ (J.after ts).entries) :
    (∃ t ∈ J.entries, moneyOf T = moneyOf t) ∨ T ∈ ts := by
  obtain ⟨old, ho, hf⟩ := entries_after hJ ts
  have hlen : old.length = J.hdrs.length := by rw [← hf.length_eq]; simp [Spec.Book.entries]
  obtain ⟨k, hk⟩ := List.mem_iff_getElem?.1 hT
  by_cases hlt : k < J.hdrs.length
  · left
    refine ⟨⟨J.hdrs[k], (J.recs.filter (·.trn = k)).map (·.post)⟩, ?_, ?_⟩
    · unfold Spec.Book.entries
      rw [List.mem_mapIdx]
      exact ⟨k, hlt, rfl⟩
    · unfold Spec.Book.entries at hk
      rw [List.getElem?_mapIdx] at hk
      cases hh : (J.after ts).hdrs[k]? with
      | none => rw [hh] at hk; cases hk
      | some hdr =>
        rw [hh] at hk
        have := Option.some.inj hk
        subst this
        unfold moneyOf
        simp only
        rw [after_recs, List.filter_append, news_old hg hw hlt, List.append_nil]
        exact money_grown _ _ _
  · right
    rw [ho, List.getElem?_append_right (by omega)] at hk
    exact (List.mem_filter.1 (List.mem_of_getElem? hk)).1

/-- C69: if in the course of a history all or none of the postings of each transaction are recognised, every
transaction of the journal says about money exactly what one of the input transactions says: the same amounts and prices in the
same order. -/
theorem C69_amounts_of_an_input (calls : History) (h : HashOrder) (js : List TransactionPostings)
    (hb : (run calls).build h = .ok js) (hw : AllWhole (inputs calls)) :
    ∀ T ∈ js, ∃ ts ∈ inputs calls, ∃ t ∈ ts, moneyOf T = moneyOf t := by
  rw [build_iff] at hb; subst hb
  intro T hT
  rw [(journal_perm _).mem_iff] at hT
  generalize inputs calls = ins at hw hT
  induction ins using List.reverseRecOn generalizing T with
  | nil => simp [ofHistory, Spec.Book.entries, Spec.Book.empty] at hT
  | append_singleton ins ts ih =>
    have hw' : AllWhole ins := by
      intro before us after e
      exact hw before us (after ++ [ts]) (by rw [e]; simp)
    have old : ∀ T ∈ (ofHistory ins).entries, ∃ us ∈ ins ++ [ts], ∃ t ∈ us, moneyOf T = moneyOf t := by
      intro T hT
      obtain ⟨us, hus, r⟩ := ih T hw' hT
      exact ⟨us, List.mem_append_left _ hus, r⟩
    have e : ofHistory (ins ++ [ts]) = (ofHistory ins).step ts := by
      unfold ofHistory; rw [List.foldl_append]; rfl
    rw [e] at hT
    unfold Book.step at hT
    split at hT
    · exact old T hT
    · rename_i hnb
      rcases money_after (wf_steps ins) (good_iff.2 hnb) (hw ins ts [] rfl hnb) hT with ⟨t, ht, hm⟩ | hT
      · obtain ⟨us, hus, t', ht', hm'⟩ := old t ht
        exact ⟨us, hus, t', ht', hm.trans hm'⟩
      · exact ⟨ts, by simp, T, hT, rfl⟩

/-- How much of a commodity an optional amount is. -/
def amountIn (c : Str) : Option PostingAmount → Rat
  | some a => if a.amount.commodity.name = c then value a.amount.quantity else 0
  | none => 0

theorem balanced_of_money {t T : TransactionPostings} (h : moneyOf T = moneyOf t) (hb : Balanced (t.posts.map (·.raw))) :
    Balanced (T.posts.map (·.raw)) := by
  have ha : (T.posts.map (·.raw)).map (·.amount) = (t.posts.map (·.raw)).map (·.amount) := by
    have := congrArg (List.map Prod.fst) h
    unfold moneyOf at this
    simpa [List.map_map, Function.comp_def] using this
  constructor
  · intro p hp
    have : p.amount ∈ (t.posts.map (·.raw)).map (·.amount) := by rw [← ha]; exact List.mem_map.2 ⟨p, hp, rfl⟩
    obtain ⟨q, hq, e⟩ := List.mem_map.1 this
    obtain ⟨a, hqa⟩ := hb.1 q hq
    exact ⟨a, by rw [← e, hqa]⟩
  · intro c
    have e : ∀ l : List Posting, total c l = ((l.map (·.amount)).map (amountIn c)).sum := by
      intro l; rw [List.map_map]; rfl
    have := hb.2 c
    rw [e] at this ⊢
    rw [ha, this]

/-- C69: balanced inputs make a balanced journal, if all or none of the postings of each transaction are recognised. -/
theorem C69_balanced (calls : History) (h : HashOrder) (js : List TransactionPostings)
    (hb : (run calls).build h = .ok js) (hw : AllWhole (inputs calls))
    (hin : ∀ ts ∈ inputs calls, ∀ t ∈ ts, Balanced (t.posts.map (·.raw))) : ∀ T ∈ js, Balanced (T.posts.map (·.raw)) := by
  intro T hT
  obtain ⟨ts, hts, t, ht, hm⟩ := C69_amounts_of_an_input calls h js hb hw T hT
  exact balanced_of_money hm (hin ts hts t ht)

/-- A history of two calls: two sides of a transfer, and an unrelated payment. -/
def Ex.balancedCalls : History :=
  [(HashOrder.sorted,
    [trn 3 "to savings" [post "assets:current" (-500) ["fp-a1"], post "expenses:unknown" 500 ["fp-a2", "unknown-account"]]]),
   (HashOrder.rev,
    [trn 3 "from current" [post "assets:savings" 500 ["fp-b1"], post "income:unknown" (-500) ["fp-b2", "unknown-account"]],
     trn 3 "fee" [post "assets:savings" (-2) ["fp-b3"], post "expenses:fee" 2 ["fp-b4"]]])]

theorem ofHistory_nil : ofHistory [] = Book.empty := rfl

/-- A history of two calls is whole if both calls are. -/
theorem allWhole_pair {x y : List TransactionPostings} (hx : ∀ u ∈ x, Book.empty.WholeOrNothing u)
    (hy : ∀ u ∈ y, (bookEval [x]).WholeOrNothing u) : AllWhole [x, y] := by
  intro before ts after e _ u hu
  cases before with
  | nil =>
    simp only [List.nil_append, List.cons.injEq] at e
    rw [← e.1] at hu
    exact hx u hu
  | cons a before =>
    simp only [List.cons_append, List.cons.injEq] at e
    cases before with
    | nil =>
      simp only [List.nil_append, List.cons.injEq] at e
      rw [← e.2.1] at hu
      rw [← e.1, ofHistory_eval]
      exact hy u hu
    | cons b before => simp at e

theorem amountIn_post (c : Str) (acct : String) (q : Int) (tags : List String) :
    amountIn c (post acct q tags).raw.amount = if "GBP".toList = c then (q : Rat) / 100 else 0 := by
  unfold amountIn post value
  simp only
  split
  · have h : (10 : Rat) ^ 2 = 100 := by norm_num
    rw [h]
    by_cases hq : q < 0
    · have : (q.natAbs : Rat) = -(q : Rat) := by
        rw [Nat.cast_natAbs, abs_of_neg hq, Int.cast_neg]
      simp [hq, this]
    · have : (q.natAbs : Rat) = (q : Rat) := by
        rw [Nat.cast_natAbs, abs_of_nonneg (by omega)]
      simp [hq, this]
  · rfl

theorem balanced_posts (a b : String) (q q' : Int) (l l' : List String) (h : q + q' = 0) :
    Balanced ([post a q l, post b q' l'].map (·.raw)) := by
  constructor
  · intro p hp
    simp only [List.map_cons, List.map_nil, List.mem_cons, List.not_mem_nil, or_false] at hp
    rcases hp with rfl | rfl <;> exact ⟨_, rfl⟩
  · intro c
    show (([post a q l, post b q' l'].map (·.raw)).map fun p => amountIn c p.amount).sum = 0
    simp only [List.map_cons, List.map_nil, List.sum_cons, List.sum_nil, amountIn_post, add_zero]
    split
    · rw [← add_div, ← Int.cast_add, h]; simp
    · simp

/-- The hypotheses are met: the second call has a transaction whose postings are all recognised and one without such
postings. -/
example : AllWhole (inputs balancedCalls) ∧ ∀ ts ∈ inputs balancedCalls, ∀ t ∈ ts, Balanced (t.posts.map (·.raw)) := by
  constructor
  · apply allWhole_pair
    · decide +kernel
    · decide +kernel
  · intro ts hts t ht
    simp only [inputs, balancedCalls, List.map_cons, List.map_nil, List.mem_cons, List.not_mem_nil, or_false] at hts
    rcases hts with rfl | rfl
    · simp only [List.mem_cons, List.not_mem_nil, or_false] at ht
      subst ht
      exact balanced_posts _ _ _ _ _ _ (by decide)
    · simp only [List.mem_cons, List.not_mem_nil, or_false] at ht
      rcases ht with rfl | rfl <;> exact balanced_posts _ _ _ _ _ _ (by decide)

/-- A payment in the journal, and a statement that says in detail what was paid for. -/
def Ex.halfKnown : History :=
  [(HashOrder.sorted, [trn 3 "shop" [post "assets:a" (-500) ["fp-a1"], post "expenses:shop" 500 ["fp-a2"]]]),
   (HashOrder.sorted, [trn 3 "shop" [post "assets:a" (-500) ["fp-b1"], post "expenses:food" 300 ["fp-b2"],
      post "expenses:drink" 200 ["fp-b3"]]])]

/-- C69: without the hypothesis balanced inputs can make an unbalanced journal. Only the first posting of the second
transaction is recognised; the others are added to the first transaction. -/
theorem C69_half_recognised_unbalances : ∃ js, (run halfKnown).build HashOrder.sorted = .ok js ∧
    (∀ ts ∈ inputs halfKnown, ∀ t ∈ ts, Balanced (t.posts.map (·.raw))) ∧ ∃ T ∈ js, ¬ Balanced (T.posts.map (·.raw)) := by
  have hb : (run halfKnown).build HashOrder.sorted = .ok [trn 3 "shop" [post "assets:a" (-500) ["fp-a1", "fp-b1"],
      post "expenses:shop" 500 ["fp-a2"], post "expenses:food" 300 ["fp-b2"], post "expenses:drink" 200 ["fp-b3"]]] := by
    rw [build_eval]; set_option maxRecDepth 100000 in decide +kernel
  refine ⟨_, hb, ?_, _, List.mem_singleton.2 rfl, ?_⟩
  · intro ts hts t ht
    simp only [inputs, halfKnown, List.map_cons, List.map_nil, List.mem_cons, List.not_mem_nil, or_false] at hts
    rcases hts with rfl | rfl
    · simp only [List.mem_cons, List.not_mem_nil, or_false] at ht
      subst ht
      exact balanced_posts _ _ _ _ _ _ (by decide)
    · simp only [List.mem_cons, List.not_mem_nil, or_false] at ht
      subst ht
      constructor
      · intro p hp
        simp only [trn, List.map_cons, List.map_nil, List.mem_cons, List.not_mem_nil, or_false] at hp
        rcases hp with rfl | rfl | rfl <;> exact ⟨_, rfl⟩
      · intro c
        show ((List.map (·.raw) (trn 3 "shop" _).posts).map fun p => amountIn c p.amount).sum = 0
        simp only [trn, List.map_cons, List.map_nil, List.sum_cons, List.sum_nil, amountIn_post, add_zero]
        split <;> norm_num
  · intro h
    have := h.2 "GBP".toList
    change ((List.map (·.raw) (trn 3 "shop" _).posts).map fun p => amountIn "GBP".toList p.amount).sum = 0 at this
    simp only [trn, List.map_cons, List.map_nil, List.sum_cons, List.sum_nil, amountIn_post, add_zero, if_true] at this
    norm_num at this

end Verif
