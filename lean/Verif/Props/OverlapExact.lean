import Verif.Props.Overlap
import Mathlib.Tactic.Push

/-!
# C65: exactly when downloads that overlap can be merged one after the other
-/

namespace Verif
open Spec Spec.Book

/-- C65, for any transactions, exactly: if `a`, `b` and `c` can be merged in one call and nothing in the journal is like any of their
postings, then merging `a` and `b` hands nothing back, and merging `b` and `c` next leads to the same state without handing back anything
exactly if no posting of `c` matches a posting of `a` or `b` with the same date softly. -/
theorem C65_exact (calls : History) (h₀ h h' : HashOrder) (a b c : List TransactionPostings) (m' : Merger)
    (hm : (run calls).merge h₀ (a ++ b ++ c) = (.ok [], m'))
    (hnew : ∀ t ∈ a ++ b ++ c, ∀ p ∈ t.posts, ∀ r ∈ (ofHistory (inputs calls)).recs,
      ¬ SharesFp r.post p ∧ ¬ (r.date = dateOf t ∧ SoftMatch r.post p)) :
    ((run calls).merge h (a ++ b)).1 = .ok [] ∧ (((run calls).merge h (a ++ b)).2.merge h' (b ++ c) = (.ok [], m') ↔
      ∀ t ∈ a ++ b, ∀ u ∈ c, dateOf t = dateOf u → ∀ p ∈ t.posts, ∀ q ∈ u.posts, ¬ SoftMatch p q) :=
  overlap_iff (run_refines calls) h₀ h h' hm hnew

/-- If a merge ends in the state that an input of new postings leads to, then the fingerprints of what was merged are known from there. -/
theorem known_after {m m' m₁ : Merger} {J K : Book} (hR : R m J) (hR₁ : R m₁ K) {h₀ h : HashOrder} {ts us : List TransactionPostings}
    (hm : m.merge h₀ ts = (.ok [], m'))
    (hnew : ∀ t ∈ ts, ∀ p ∈ t.posts, ∀ r ∈ J.recs, ¬ SharesFp r.post p ∧ ¬ (r.date = dateOf t ∧ SoftMatch r.post p))
    (hm₁ : m₁.merge h us = (.ok [], m')) {u : TransactionPostings} (hu : u ∈ us) {q : PostingInternal} (hq : q ∈ u.posts) :
    (∃ r ∈ J.recs, SharesFp r.post q) ∨ ∃ t ∈ ts, ∃ p ∈ t.posts, SharesFp p q := by
  obtain ⟨_, hb, hR'⟩ := merge_ok hR hm
  have hdec := handedBack_nil_iff.1 hb.symm
  have hall : AllNew J ts := fun t ht => ⟨fun he => hdec t ht (Or.inl he), fun p hp => verdict_new_iff.2 (hnew t ht p hp)⟩
  obtain ⟨hnb₁, hb₁, hR₁'⟩ := merge_ok hR₁ hm₁
  have hg₁ := good_iff.2 hnb₁
  obtain ⟨k, hk⟩ := hg₁.lands hu (handedBack_nil_iff.1 hb₁.symm u hu)
  obtain ⟨i, r, hr, _, hf⟩ := hk q hq
  obtain ⟨f, hfq⟩ := List.exists_mem_of_ne_nil _ (hg₁.ok q (mem_allPosts.2 ⟨u, hu, hq⟩)).2
  have harena := congrArg (·[i]?) (hR₁'.arena.symm.trans hR'.arena)
  simp only [List.getElem?_map] at harena
  rw [hr] at harena
  cases hs : (J.after ts).recs[i]? with
  | none => rw [hs] at harena; cases harena
  | some s =>
    rw [hs] at harena
    simp only [Option.map_some, Option.some.injEq] at harena
    have hpost : r.post = s.post := by injection harena
    have hsh : SharesFp s.post q := ⟨f, hpost ▸ hf f hfq, hfq⟩
    have hmem := List.mem_of_getElem? hs
    rw [hall.after] at hmem
    rcases List.mem_append.1 hmem with hmem | hmem
    · exact Or.inl ⟨s, hmem, hsh⟩
    · obtain ⟨t, ht, _, hp⟩ := mem_newRecs hmem
      exact Or.inr ⟨t, ht, s.post, hp, hsh⟩

namespace NationwideCsv
open Nationwide

/-- The sum of a row, without regard to its direction. -/
def SumOf (paidIn paidOut : Option Amount) (x : Rat) : Prop :=
  0 ≤ x ∧ ∃ a, (paidIn = some a ∨ paidOut = some a) ∧ (value a.quantity = x ∨ value a.quantity = -x)

/-- Two rows are about the same sum, in or out. -/
def SameSum (i o i' o' : Option Amount) : Prop := ∃ x, SumOf i o x ∧ SumOf i' o' x

theorem sum_own {i o : Option Amount} {a : Amount} (h : OwnAmount i o a) {x : Rat} :
    SumOf i o x ↔ 0 ≤ x ∧ (value a.quantity = x ∨ value a.quantity = -x) := by
  unfold SumOf
  refine and_congr_right fun _ => ?_
  rcases h with ⟨rfl, rfl⟩ | ⟨rfl, b, rfl, hv, _⟩
  · constructor
    · rintro ⟨b, hb | hb, hx⟩
      · cases hb; exact hx
      · cases hb
    · exact fun hx => ⟨a, Or.inl rfl, hx⟩
  · constructor
    · rintro ⟨c, hc | hc, hx⟩
      · cases hc
      · cases hc
        rw [hv]
        rcases hx with hx | hx
        · right; rw [hx]
        · left; rw [hx, neg_neg]
    · intro hx
      refine ⟨b, Or.inr rfl, ?_⟩
      rw [hv] at hx
      rcases hx with hx | hx
      · right; rw [← hx, neg_neg]
      · left; exact neg_inj.1 hx

theorem sameSum_own {i o i' o' : Option Amount} {a b : Amount} (h : OwnAmount i o a) (h' : OwnAmount i' o' b) :
    SameSum i o i' o' ↔ value a.quantity = value b.quantity ∨ value a.quantity = -value b.quantity := by
  unfold SameSum
  simp only [sum_own h, sum_own h']
  constructor
  · rintro ⟨x, ⟨_, h1 | h1⟩, ⟨_, h2 | h2⟩⟩ <;> rw [h1, h2] <;> simp
  · intro hv
    rcases le_total 0 (value b.quantity) with hb | hb
    · exact ⟨value b.quantity, ⟨hb, hv⟩, hb, Or.inl rfl⟩
    · refine ⟨-value b.quantity, ⟨by linarith, ?_⟩, by linarith, Or.inr (neg_neg _).symm⟩
      rw [neg_neg]
      exact hv.symm

/-- What matters about the transaction of a row for matching it softly. -/
structure RowTransaction (t : Transaction) (d : Date) (amt : Amount) : Prop where
  date : t.date = d
  postings : ∃ p q, t.postings = [p, q] ∧ p.amount = some ⟨amt, none, none⟩ ∧ q.amount = some ⟨negateAmount amt, none, none⟩ ∧
    q.balance = none ∧ UnknownAccount (.ofPosting p) ∧ UnknownAccount (.ofPosting q)
  commodity : amt.commodity = gbp

theorem value_negateAmount (a : Amount) : value (negateAmount a).quantity = -value a.quantity := value_negate _

/-- Two rows have postings that match softly exactly if they are about the same sum. -/
theorem rows_soft {t u : Transaction} {d d' : Date} {a b : Amount} (ht : RowTransaction t d a) (hu : RowTransaction u d' b) :
    (∃ p ∈ (TransactionPostings.ofTransaction t).posts, ∃ q ∈ (TransactionPostings.ofTransaction u).posts, SoftMatch p q) ↔
      value a.quantity = value b.quantity ∨ value a.quantity = -value b.quantity := by
  obtain ⟨_, ⟨p, p', hp, ap, ap', bp', up, up'⟩, ca⟩ := ht
  obtain ⟨_, ⟨q, q', hq, aq, aq', bq', uq, uq'⟩, cb⟩ := hu
  have hpost : (TransactionPostings.ofTransaction t).posts = [.ofPosting p, .ofPosting p'] := by
    show t.postings.map _ = _
    rw [hp]; rfl
  have hpost' : (TransactionPostings.ofTransaction u).posts = [.ofPosting q, .ofPosting q'] := by
    show u.postings.map _ = _
    rw [hq]; rfl
  have hsoft : ∀ {x y : Posting} {c e : Amount}, x.amount = some ⟨c, none, none⟩ → y.amount = some ⟨e, none, none⟩ →
      SoftMatch (.ofPosting x) (.ofPosting y) → value c.quantity = value e.quantity := by
    intro x y c e hx hy hm
    have : OptRel SamePostingAmount x.amount y.amount := hm.2.1
    rw [hx, hy] at this
    exact this.1.1
  have hna := value_negateAmount a
  have hnb := value_negateAmount b
  rw [hpost, hpost']
  constructor
  · rintro ⟨x, hx, y, hy, hm⟩
    simp only [List.mem_cons, List.not_mem_nil, or_false] at hx hy
    rcases hx with rfl | rfl <;> rcases hy with rfl | rfl
    · exact Or.inl (hsoft ap aq hm)
    · right; rw [hsoft ap aq' hm, hnb]
    · right; rw [← hsoft ap' aq hm, hna, neg_neg]
    · left
      have := hsoft ap' aq' hm
      rw [hna, hnb] at this
      exact neg_inj.1 this
  · rintro (hv | hv)
    · refine ⟨.ofPosting p', by simp, .ofPosting q', by simp, Or.inl up', ?_, ?_⟩
      · show OptRel SamePostingAmount p'.amount q'.amount
        rw [ap', aq']
        exact ⟨⟨by rw [hna, hnb, hv], ca.trans cb.symm⟩, trivial, trivial⟩
      · show BalancesAgree p'.balance q'.balance
        rw [bp']
        trivial
    · refine ⟨.ofPosting p, by simp, .ofPosting q', by simp, Or.inl up, ?_, ?_⟩
      · show OptRel SamePostingAmount p.amount q'.amount
        rw [ap, aq']
        exact ⟨⟨by rw [hnb]; exact hv, ca.trans cb.symm⟩, trivial, trivial⟩
      · show BalancesAgree p.balance q'.balance
        rw [bq']
        cases p.balance <;> trivial

theorem forall₂_left {α β : Type} {P : α → β → Prop} {l : List α} {l' : List β} (h : List.Forall₂ P l l') {x : α} (hx : x ∈ l) :
    ∃ y ∈ l', P x y := by
  induction h with
  | nil => cases hx
  | cons h _ ih =>
    rcases List.mem_cons.1 hx with rfl | hx
    · exact ⟨_, List.mem_cons_self, h⟩
    · obtain ⟨y, hy, h⟩ := ih hx
      exact ⟨y, List.mem_cons_of_mem _ hy, h⟩

theorem forall₂_right {α β : Type} {P : α → β → Prop} {l : List α} {l' : List β} (h : List.Forall₂ P l l') {y : β} (hy : y ∈ l') :
    ∃ x ∈ l, P x y := by
  induction h with
  | nil => cases hy
  | cons h _ ih =>
    rcases List.mem_cons.1 hy with rfl | hy
    · exact ⟨_, List.mem_cons_self, h⟩
    · obtain ⟨x, hx, h⟩ := ih hy
      exact ⟨x, List.mem_cons_of_mem _ hx, h⟩

/-- A row that is not the first of its day has another number in a file that begins with it. -/
theorem split_day {T κ : Type} {date : T → Date} {key : T → κ} {a d : List T} (hk : ((a ++ d).map key).Nodup)
    (ht : Together ((a ++ d).map date)) {r s : T} (hr : r ∈ a) (hs : s ∈ d) (he : date r = date s) {i : Nat} {x y : T}
    (hx : (a ++ d)[i]? = some x) (hy : d[0]? = some y) (hxy : key x = key y)
    (hc : sinceChange ((a ++ d).map date) i = sinceChange (d.map date) 0) : False := by
  have hy' : (a ++ d)[a.length]? = some y := by rw [List.getElem?_append_right (le_refl _), Nat.sub_self, hy]
  have hi : i = a.length := by
    have h1 : ((a ++ d).map key)[i]? = some (key x) := by rw [List.getElem?_map, hx]; rfl
    have h2 : ((a ++ d).map key)[a.length]? = some (key x) := by rw [List.getElem?_map, hy', hxy]; rfl
    obtain ⟨hi, h1⟩ := List.getElem?_eq_some_iff.1 h1
    obtain ⟨hj, h2⟩ := List.getElem?_eq_some_iff.1 h2
    exact (hk.getElem_inj_iff).1 (h1.trans h2.symm)
  subst hi
  obtain ⟨i, hi⟩ := List.mem_iff_getElem?.1 hr
  obtain ⟨j, hj⟩ := List.mem_iff_getElem?.1 hs
  have hlt : i < a.length := (List.getElem?_eq_some_iff.1 hi).1
  have hi' : ((a ++ d).map date)[i]? = some (date r) := by rw [List.getElem?_map, List.getElem?_append_left hlt, hi]; rfl
  have hj' : ((a ++ d).map date)[a.length + j]? = some (date r) := by
    rw [List.getElem?_map, List.getElem?_append_right (by omega), Nat.add_sub_cancel_left, hj, he]; rfl
  obtain ⟨n, hn⟩ : ∃ n, a.length = n + 1 := ⟨a.length - 1, by omega⟩
  have h1 := ht i n (a.length + j) _ (by omega) (by omega) hi' hj'
  have h2 := ht i (n + 1) (a.length + j) _ (by omega) (by omega) hi' hj'
  rw [hn, sinceChange_succ h1 h2] at hc
  have h0 : sinceChange (d.map date) 0 = 0 := by
    unfold sinceChange
    split
    · rw [List.take_zero]; rfl
    · rfl
  omega

/-- Two downloads that overlap, from what the importers make of them. -/
theorem exact_rows {T κ : Type} {date : T → Date} {paidIn paidOut : T → Option Amount} {key : T → κ} {imp imp₁ imp₂ : Import}
    {rsA rsB rsC : List T}
    (hF : List.Forall₂ (fun t r => ∃ a, RowTransaction t (date r) a ∧ OwnAmount (paidIn r) (paidOut r) a) imp.transactions
      (rsA ++ rsB ++ rsC))
    (h₁ : imp₁.transactions = imp.transactions.take (rsA ++ rsB).length)
    (h₂ : (∀ r ∈ rsA, ∀ s ∈ rsB ++ rsC, date r ≠ date s) → imp₂.transactions = imp.transactions.drop rsA.length)
    (hl₂ : List.Forall₂ (fun t r => ∃ a, RowTransaction t (date r) a ∧ OwnAmount (paidIn r) (paidOut r) a) imp₂.transactions (rsB ++ rsC))
    (hk : ((rsA ++ rsB ++ rsC).map key).Nodup) (ht : Together ((rsA ++ rsB ++ rsC).map date))
    (hcross : ∀ (i : Nat) (t u : Transaction), ∀ p ∈ t.postings, ∀ q ∈ u.postings, imp.transactions[i]? = some t → imp₂.transactions[0]? = some u →
      SharesFp (.ofPosting p) (.ofPosting q) → ∃ r s, (rsA ++ rsB ++ rsC)[i]? = some r ∧ (rsB ++ rsC)[0]? = some s ∧ key r = key s ∧
        sinceChange ((rsA ++ rsB ++ rsC).map date) i = sinceChange ((rsB ++ rsC).map date) 0)
    (calls : History) (h₀ h h' : HashOrder) (m' : Merger) (hm : (run calls).merge h₀ imp.postings = (.ok [], m'))
    (hnew : ∀ t ∈ imp.postings, ∀ p ∈ t.posts, ∀ r ∈ (ofHistory (inputs calls)).recs,
      ¬ SharesFp r.post p ∧ ¬ (r.date = dateOf t ∧ SoftMatch r.post p))
    (hnew₂ : ∀ t ∈ imp₂.postings, ∀ p ∈ t.posts, ∀ r ∈ (ofHistory (inputs calls)).recs, ¬ SharesFp r.post p) :
    ((run calls).merge h imp₁.postings).1 = .ok [] ∧
    (((run calls).merge h imp₁.postings).2.merge h' imp₂.postings = (.ok [], m') ↔
      (∀ r ∈ rsA, ∀ s ∈ rsB ++ rsC, date r ≠ date s) ∧
      ∀ r ∈ rsA ++ rsB, ∀ s ∈ rsC, date r = date s → ¬ SameSum (paidIn r) (paidOut r) (paidIn s) (paidOut s)) := by
  let xs := imp.transactions
  have hsplit : ∀ n, imp.postings = (xs.take n).map .ofTransaction ++ (xs.drop n).map .ofTransaction := by
    intro n
    rw [← List.map_append, List.take_append_drop]
    rfl
  have hp₁ : imp₁.postings = (xs.take (rsA ++ rsB).length).map .ofTransaction := by
    show imp₁.transactions.map _ = _
    rw [h₁]
  obtain ⟨hok, hmid⟩ := C65_exact calls h₀ h h' ((xs.take (rsA ++ rsB).length).map .ofTransaction) [] ((xs.drop (rsA ++ rsB).length).map .ofTransaction) m'
    (by rw [List.append_nil, ← hsplit]; exact hm) (by rw [List.append_nil, ← hsplit]; exact hnew)
  rw [List.append_nil, ← hp₁] at hok
  refine ⟨hok, ?_⟩
  -- soft matches, for rows
  have hsoft : (∀ t ∈ (xs.take (rsA ++ rsB).length).map TransactionPostings.ofTransaction,
      ∀ u ∈ (xs.drop (rsA ++ rsB).length).map TransactionPostings.ofTransaction, dateOf t = dateOf u → ∀ p ∈ t.posts, ∀ q ∈ u.posts, ¬ SoftMatch p q) ↔
      ∀ r ∈ rsA ++ rsB, ∀ s ∈ rsC, date r = date s → ¬ SameSum (paidIn r) (paidOut r) (paidIn s) (paidOut s) := by
    have hFa := List.forall₂_take (rsA ++ rsB).length hF
    have hFc := List.forall₂_drop (rsA ++ rsB).length hF
    rw [List.take_left] at hFa
    rw [List.drop_left] at hFc
    constructor
    · intro hs r hr s hs' he hsum
      obtain ⟨t, ht, a, ha, oa⟩ := forall₂_right hFa hr
      obtain ⟨u, hu, b, hb, ob⟩ := forall₂_right hFc hs'
      obtain ⟨p, hp, q, hq, hm⟩ := (rows_soft ha hb).2 ((sameSum_own oa ob).1 hsum)
      exact hs _ (List.mem_map.2 ⟨t, ht, rfl⟩) _ (List.mem_map.2 ⟨u, hu, rfl⟩) (ha.date.trans (he.trans hb.date.symm)) p hp q hq hm
    · intro hs t ht u hu he p hp q hq hm
      obtain ⟨t, ht₁, rfl⟩ := List.mem_map.1 ht
      obtain ⟨u, hu₁, rfl⟩ := List.mem_map.1 hu
      obtain ⟨r, hr, a, ha, oa⟩ := forall₂_left hFa ht₁
      obtain ⟨s, hs', b, hb, ob⟩ := forall₂_left hFc hu₁
      have he : t.date = u.date := he
      exact hs r hr s hs' (ha.date.symm.trans (he.trans hb.date)) ((sameSum_own oa ob).2 ((rows_soft ha hb).1 ⟨p, hp, q, hq, hm⟩))
  by_cases hdays : ∀ r ∈ rsA, ∀ s ∈ rsB ++ rsC, date r ≠ date s
  · -- the transactions for the common part are the same
    have e₂ := h₂ hdays
    have hAB : (rsA ++ rsB).length = rsA.length + rsB.length := List.length_append
    have ea : xs.take (rsA ++ rsB).length = xs.take rsA.length ++ (xs.drop rsA.length).take rsB.length := by
      rw [hAB, List.take_add]
    have ed : xs.drop rsA.length = (xs.drop rsA.length).take rsB.length ++ xs.drop (rsA ++ rsB).length := by
      rw [hAB, ← List.drop_drop, List.take_append_drop]
    have hp₂ : imp₂.postings = ((xs.drop rsA.length).take rsB.length).map .ofTransaction ++ (xs.drop (rsA ++ rsB).length).map .ofTransaction := by
      rw [← List.map_append, ← ed]
      show imp₂.transactions.map _ = _
      rw [e₂]
    have hp₁' : imp₁.postings = (xs.take rsA.length).map .ofTransaction ++ ((xs.drop rsA.length).take rsB.length).map .ofTransaction := by
      rw [hp₁, ea, List.map_append]
    have hall := hsplit (rsA ++ rsB).length
    rw [← hp₁, hp₁'] at hall
    obtain ⟨_, key'⟩ := C65_exact calls h₀ h h' _ _ _ m' (by rw [← hall]; exact hm) (by rw [← hall]; exact hnew)
    rw [← hp₂, ← hp₁', hp₁, hsoft] at key'
    rw [hp₁, key']
    exact ⟨fun h => ⟨hdays, h⟩, fun h => h.2⟩
  · -- the second download begins within a day
    refine iff_of_false (fun hm₂ => ?_) fun h => hdays h.1
    push Not at hdays
    obtain ⟨r, hr, s, hs, he⟩ := hdays
    obtain ⟨y, hy⟩ : ∃ y, (rsB ++ rsC)[0]? = some y := by
      cases hD : rsB ++ rsC with
      | nil => rw [hD] at hs; cases hs
      | cons y l => exact ⟨y, rfl⟩
    obtain ⟨u, hu⟩ : ∃ u, imp₂.transactions[0]? = some u := by
      have := hl₂.length_eq
      have h0 := (List.getElem?_eq_some_iff.1 hy).1
      exact ⟨_, List.getElem?_eq_getElem (by omega)⟩
    have huu := List.mem_of_getElem? hu
    obtain ⟨_, _, a, ha, _⟩ := forall₂_left hl₂ huu
    obtain ⟨q, q', hqq, _⟩ := ha.postings
    have hqu : q ∈ u.postings := by rw [hqq]; simp
    have hup : TransactionPostings.ofTransaction u ∈ imp₂.postings := List.mem_map.2 ⟨u, huu, rfl⟩
    have hqp : PostingInternal.ofPosting q ∈ (TransactionPostings.ofTransaction u).posts := List.mem_map.2 ⟨q, hqu, rfl⟩
    have hR₁ : R ((run calls).merge h imp₁.postings).2 ((ofHistory (inputs calls)).after imp₁.postings) :=
      (merge_ok (run_refines calls) (Prod.ext hok rfl : (run calls).merge h imp₁.postings = (Except.ok [], _))).2.2
    rcases known_after (run_refines calls) hR₁ hm hnew hm₂ hup hqp with ⟨x, hx, hxs⟩ | ⟨t, ht', p, hp, hps⟩
    · exact hnew₂ _ hup _ hqp x hx hxs
    · obtain ⟨t, htt, rfl⟩ := List.mem_map.1 ht'
      obtain ⟨p, hpt, rfl⟩ := List.mem_map.1 hp
      obtain ⟨i, hi⟩ := List.mem_iff_getElem?.1 htt
      obtain ⟨x, z, hx, hz, hkey, hcnt⟩ := hcross i t u p hpt q hqu hi hu hps
      rw [List.append_assoc] at hx hcnt hk ht
      exact split_day hk ht hr hs he hx hz hkey hcnt

/-! ## Files -/

theorem money_gbp {L : ImportLib} {s : Str} {m : Option Amount} (h : Money L s m) {a : Amount} (ha : m = some a) : a.commodity = gbp := by
  rcases h with ⟨_, rfl⟩ | ⟨_, b, h, rfl⟩
  · cases ha
  · cases ha
    unfold gbpValue at h
    split at h
    · cases h
    · simp only at h
      split at h
      · split at h
        · cases h; rfl
        · cases h
      · cases h

theorem own_gbp {L : ImportLib} {s s' : Str} {i o : Option Amount} (hi : Money L s i) (ho : Money L s' o) {a : Amount} (h : OwnAmount i o a) :
    a.commodity = gbp := by
  rcases h with ⟨h, _⟩ | ⟨_, b, h, _, hc, _⟩
  · exact money_gbp hi h
  · exact hc.trans (money_gbp ho h)

theorem five_transaction {L : ImportLib} {ns account : Str} {row : Row} {r : RecordFive} {k : Nat} {t : Transaction}
    (hr : FiveRow L row r) (h : FiveSays L ns account r k t) (hg : GoodNamespace ns) (ha : '\n' ∉ account) (h1 : '\n' ∉ r.transactions)
    (h2 : '\n' ∉ r.location) : ∃ a, RowTransaction t r.date a ∧ OwnAmount r.paidIn r.paidOut a := by
  obtain ⟨amt, p, q, ho, hts, hp, hq⟩ := h
  obtain ⟨_, _, _, _, _, _, mo, mi⟩ := hr
  have hw := five_words L r hg k
  have hv := five_values_plain ha h1 h2
  refine ⟨amt, ⟨hts.date, ⟨p, q, hts.postings, hp.amount, hq.amount, hq.balance, ?_, ?_⟩, own_gbp mi mo ho⟩, ho⟩
  · exact (hp.read_iff hw.1 (seq_plain hg _ hv) unknownTag).2 (by unfold unknownTag; simp)
  · exact (hq.read_iff hw.2 hv unknownTag).2 (by unfold unknownTag; simp)

theorem six_transaction {L : ImportLib} {ns account : Str} {legacy : Bool} {row : Row} {r : RecordSix} {k : Nat} {t : Transaction}
    (hr : SixRow L row r) (h : SixSays L ns account legacy r k t) (hg : GoodNamespace ns) (ha : '\n' ∉ account) (h1 : '\n' ∉ r.type_) :
    ∃ a, RowTransaction t r.date a ∧ OwnAmount r.paidIn r.paidOut a := by
  obtain ⟨amt, p, q, ho, hts, hp, hq⟩ := h
  obtain ⟨_, _, _, _, _, _, _, mo, mi, _⟩ := hr
  have hw := six_words L r hg k legacy (selfAndPeerAccountAmount amt ownAccount)
  have hv := six_values_plain ha h1
  refine ⟨amt, ⟨hts.date, ⟨p, q, hts.postings, hp.amount, hq.amount, hq.balance, ?_, ?_⟩, own_gbp mi mo ho⟩, ho⟩
  · exact (hp.read_iff hw.1 (seq_plain hg _ hv) unknownTag).2 (by unfold unknownTag; simp)
  · exact (hq.read_iff hw.2 hv unknownTag).2 (by unfold unknownTag; simp)

/-- The file without its last rows. -/
theorem process_front {T : Type} {F : Format T} {ns account : Str} {legacy : Bool} {A C : List (Option Row)} {ts : List Transaction} {n : Nat}
    (h : processRows F ns account legacy (A ++ C) = .ok ts) (hn : ∀ ts, processRows F ns account legacy A = .ok ts → ts.length = n) :
    processRows F ns account legacy A = .ok (ts.take n) := by
  unfold processRows at *
  obtain ⟨ta, tc, h1, _, rfl⟩ := (rowsLoop_append ..).1 h
  rw [h1, ← hn ta h1, List.take_left]

/-- The records of a part of the rows. -/
theorem records_append {T : Type} {read : Row → T → Prop} {x y : List (Option Row)} {rx ry : List T} (hx : Records read x rx)
    (hy : Records read y ry) : Records read (x ++ y) (rx ++ ry) := List.rel_append hx hy

theorem five_facts {L : ImportLib} {fpNs : FpNamespace} {legacy : Bool} {records : List (Option Row)} {imp : Import} {account : Str}
    {rows : List (Option Row)} {rs : List RecordFive} (h : getTransactions L fpNs legacy records = .ok imp)
    (hs : FileShape L records account fiveColumns rows) (hrs : Records (FiveRow L) rows rs) (hd : PlainDates L) (hacc : '\n' ∉ account)
    (hrows : ∀ row, some row ∈ rows → ∀ f ∈ row, FitsStr f ∧ '\n' ∉ f) :
    List.Forall₂ (fun t r => ∃ a, RowTransaction t r.date a ∧ OwnAmount r.paidIn r.paidOut a) imp.transactions rs := by
  obtain ⟨_, hl, rs', hl', hc⟩ := C45_five h hs
  obtain rfl : rs' = rs := records_get hrs (fun row r r' h1 h2 => by
    rw [← fiveRow_iff] at h1 h2; rw [h1] at h2; exact Option.some.inj h2) hl' fun i hi => (hc i hi).1
  rw [List.forall₂_iff_get]
  refine ⟨hl.trans hl'.symm, fun i h1 h2 => ?_⟩
  have hg : GoodNamespace imp.userFpNamespace := by
    refine (good_of_row h hs).resolve_left ?_
    rintro rfl
    rw [hl'] at h2
    cases h2
  obtain ⟨⟨row, e, hr⟩, t, et, ht⟩ := hc i h2
  have hf := fiveRow_fits hd (hrows row (List.mem_of_getElem? e)) hr
  rw [List.get_eq_getElem, List.get_eq_getElem, (List.getElem?_eq_some_iff.1 et).2]
  exact five_transaction hr ht hg hacc hf.2.1 hf.2.2

/-- What postings of two files of five columns share. -/
theorem five_shared_between {L : ImportLib} {fpNs : FpNamespace} {legacy : Bool} {f f₂ : List (Option Row)} {imp imp₂ : Import} {account : Str}
    {rows rows₂ : List (Option Row)} {rs rs₂ : List RecordFive} (h : getTransactions L fpNs legacy f = .ok imp)
    (h₂ : getTransactions L fpNs legacy f₂ = .ok imp₂) (hs : FileShape L f account fiveColumns rows)
    (hs₂ : FileShape L f₂ account fiveColumns rows₂) (hrs : Records (FiveRow L) rows rs) (hrs₂ : Records (FiveRow L) rows₂ rs₂)
    (hd : PlainDates L) (hacc : '\n' ∉ account) (hrows : ∀ row, some row ∈ rows → ∀ f ∈ row, FitsStr f ∧ '\n' ∉ f)
    (hrows₂ : ∀ row, some row ∈ rows₂ → ∀ f ∈ row, FitsStr f ∧ '\n' ∉ f) (hlen : rows.length < 2 ^ 31) (hlen₂ : rows₂.length < 2 ^ 31)
    (hsha : NoCollision L.sha1 fun x => fiveTexts rs x ∨ fiveTexts rs₂ x) {i j : Nat} {t u : Transaction} {p q : Posting}
    (et : imp.transactions[i]? = some t) (eu : imp₂.transactions[j]? = some u) (hpa : p ∈ t.postings) (hqb : q ∈ u.postings)
    (hsh : SharesFp (.ofPosting p) (.ofPosting q)) :
    ∃ r, rs[i]? = some r ∧ rs₂[j]? = some r ∧
      sinceChange (rs.map RecordFive.date) i = sinceChange (rs₂.map RecordFive.date) j := by
  obtain ⟨hn, hl, rs', hl', hc⟩ := C45_five h hs
  obtain rfl : rs' = rs := records_get hrs (fun row r r' h1 h2 => by
    rw [← fiveRow_iff] at h1 h2; rw [h1] at h2; exact Option.some.inj h2) hl' fun i hi => (hc i hi).1
  obtain ⟨hn₂, hl₂, rs₂', hl₂', hc₂⟩ := C45_five h₂ hs₂
  obtain rfl : rs₂' = rs₂ := records_get hrs₂ (fun row r r' h1 h2 => by
    rw [← fiveRow_iff] at h1 h2; rw [h1] at h2; exact Option.some.inj h2) hl₂' fun i hi => (hc₂ i hi).1
  have hns : imp₂.userFpNamespace = imp.userFpNamespace := by rw [hn] at hn₂; exact (Except.ok.inj hn₂).symm
  have hi' : i < rs'.length := by
    rw [hl', ← hl]; exact (List.getElem?_eq_some_iff.1 et).1
  have hj' : j < rs₂'.length := by
    rw [hl₂', ← hl₂]; exact (List.getElem?_eq_some_iff.1 eu).1
  have hg : GoodNamespace imp.userFpNamespace := by
    refine (good_of_row h hs).resolve_left ?_
    rintro rfl
    rw [hl'] at hi'
    cases hi'
  obtain ⟨⟨row, er, hr⟩, t', et', ht⟩ := hc i hi'
  obtain ⟨⟨row₂, er₂, hr₂⟩, u', eu', hu⟩ := hc₂ j hj'
  rw [et] at et'; cases et'
  rw [eu] at eu'; cases eu'
  rw [hns] at hu
  have hfit := fiveRow_fits hd (hrows row (List.mem_of_getElem? er)) hr
  have hfit₂ := fiveRow_fits hd (hrows₂ row₂ (List.mem_of_getElem? er₂)) hr₂
  have hci : FitsI32 (sinceChange (rs'.map RecordFive.date) i : Nat) := fits_count (sinceChange_le _ i) (by rw [List.length_map, hl']; exact hlen)
  have hcj : FitsI32 (sinceChange (rs₂'.map RecordFive.date) j : Nat) := fits_count (sinceChange_le _ j) (by rw [List.length_map, hl₂']; exact hlen₂)
  obtain ⟨a, ha⟩ := List.mem_iff_getElem?.1 hpa
  obtain ⟨b, hb⟩ := List.mem_iff_getElem?.1 hqb
  obtain ⟨g, hgp, hgq⟩ := hsh
  obtain ⟨hgp, hfp⟩ := mem_fps.1 hgp
  obtain ⟨hgq, _⟩ := mem_fps.1 hgq
  obtain ⟨s, rfl, hread⟩ := five_read ht hg hacc hfit.2.1 hfit.2.2 ha
  obtain ⟨s', rfl, hread'⟩ := five_read hu hg hacc hfit₂.2.1 hfit₂.2.2 hb
  have e := ((hread g hfp).1 hgp).symm.trans ((hread' g hfp).1 hgq)
  have e := congrArg Fingerprint.value (C41_tag (pick_built (fiveFp_built L _ hg _) _) (pick_built (fiveFp_built L _ hg _) _) e)
  rw [fiveFp_value L _ hg, fiveFp_value L _ hg] at e
  have e := hsha _ _ (Or.inl ⟨i, hi', s, rfl⟩) (Or.inr ⟨j, hj', s', rfl⟩) (base64_inj e)
  obtain ⟨e1, e2, _⟩ := C40_nationwide_five.2 _ _ _ _ _ _ hfit.1 hfit₂.1 hci hcj e
  exact ⟨rs'[i], List.getElem?_eq_getElem hi', by rw [List.getElem?_eq_getElem hj', e1], by exact_mod_cast e2⟩

/-- C65, files of five columns, exactly. Two downloads of one account have the rows `A` and `B`, and `B` and `C`; a download of the whole time
can be merged, nothing in the journal is like it, and no fingerprint of the second download is in the journal. The rows of a day are next to each
other, no two rows are equal, and there are no collisions. Then both downloads can be imported and merging the first one hands nothing back;
and merging the second one next hands nothing back and leads to the state that the download of the whole time leads to exactly if the second
download does not begin within a day of which rows are in `A`, and no row of `C` has the date and the sum, in or out, of one in `A` or `B`. -/
theorem C65_five {L : ImportLib} {fpNs : FpNamespace} {legacy : Bool} {f f₁ f₂ : List (Option Row)} {imp : Import} {account : Str}
    {A B C : List (Option Row)} {rsA rsB rsC : List RecordFive} (h : getTransactions L fpNs legacy f = .ok imp)
    (hs : FileShape L f account fiveColumns (A ++ B ++ C)) (hs₁ : FileShape L f₁ account fiveColumns (A ++ B))
    (hs₂ : FileShape L f₂ account fiveColumns (B ++ C))
    (hA : Records (FiveRow L) A rsA) (hB : Records (FiveRow L) B rsB) (hC : Records (FiveRow L) C rsC)
    (hp : PlainFields f) (hd : PlainDates L) (hlen : (A ++ B ++ C).length < 2 ^ 31)
    (hsha : NoCollision L.sha1 fun x => fiveTexts (rsA ++ rsB ++ rsC) x ∨ fiveTexts (rsB ++ rsC) x)
    (ht : Together ((rsA ++ rsB ++ rsC).map RecordFive.date)) (hk : (rsA ++ rsB ++ rsC).Nodup)
    (calls : History) (h₀ h₁ h₂ : HashOrder) (m' : Merger) (hm : (run calls).merge h₀ imp.postings = (.ok [], m'))
    (hnew : ∀ t ∈ imp.postings, ∀ p ∈ t.posts, ∀ r ∈ (ofHistory (inputs calls)).recs,
      ¬ SharesFp r.post p ∧ ¬ (r.date = dateOf t ∧ SoftMatch r.post p))
    (hnew₂ : ∀ imp₂, getTransactions L fpNs legacy f₂ = .ok imp₂ → ∀ t ∈ imp₂.postings, ∀ p ∈ t.posts,
      ∀ r ∈ (ofHistory (inputs calls)).recs, ¬ SharesFp r.post p) :
    ∃ imp₁ imp₂, getTransactions L fpNs legacy f₁ = .ok imp₁ ∧ getTransactions L fpNs legacy f₂ = .ok imp₂ ∧
      ((run calls).merge h₁ imp₁.postings).1 = .ok [] ∧
      (((run calls).merge h₁ imp₁.postings).2.merge h₂ imp₂.postings = (.ok [], m') ↔
        (∀ r ∈ rsA, ∀ s ∈ rsB ++ rsC, r.date ≠ s.date) ∧
        ∀ r ∈ rsA ++ rsB, ∀ s ∈ rsC, r.date = s.date → ¬ SameSum r.paidIn r.paidOut s.paidIn s.paidOut) := by
  obtain ⟨hacc, hrows⟩ := shape_plain hs hp
  have hrs := records_append (records_append hA hB) hC
  have hrs₂ := records_append hB hC
  have hrows₂ : ∀ row, some row ∈ B ++ C → ∀ f ∈ row, FitsStr f ∧ '\n' ∉ f := by
    intro row hr
    refine hrows row ?_
    rw [List.append_assoc]
    exact List.mem_append_right _ hr
  obtain ⟨account', columns', rows', hs', hn, hproc⟩ := (getTransactions_iff ..).1 h
  obtain ⟨rfl, rfl, rfl⟩ := hs.unique hs'
  have hproc := (hproc.resolve_right fun h => columns_ne h.1).2
  have hlens : ∀ {A : List (Option Row)} {ts}, processRows (five L) imp.userFpNamespace account legacy A = .ok ts → ts.length = A.length := by
    intro A ts h
    obtain ⟨rs, h1, h2, _⟩ := (processRows_iff ..).1 h
    rw [h2, (map_bind_some.1 h1).1]
  -- the first download
  have g₁ : getTransactions L fpNs legacy f₁ = .ok ⟨imp.userFpNamespace, imp.transactions.take (A ++ B).length⟩ :=
    (getTransactions_iff ..).2 ⟨account, fiveColumns, A ++ B, hs₁, hn, .inl ⟨rfl, process_front hproc fun ts h => hlens h⟩⟩
  -- the second download
  obtain ⟨imp₂, g₂⟩ : ∃ imp₂, getTransactions L fpNs legacy f₂ = .ok imp₂ := by
    obtain ⟨account', columns', rows', ns, hs', hn', hgood, hcols⟩ := (C45_accepted L fpNs legacy f).1 ⟨imp, h⟩
    obtain ⟨rfl, rfl, rfl⟩ := hs.unique hs'
    refine (C45_accepted L fpNs legacy f₂).2 ⟨account, fiveColumns, B ++ C, ns, hs₂, hn', hgood.imp (fun h => ?_) id, ?_⟩
    · rw [List.append_assoc] at h
      exact (List.append_eq_nil_iff.1 h).2
    · have hcols := (hcols.resolve_right fun h => columns_ne h.1).2
      refine .inl ⟨rfl, fun o ho => hcols o ?_⟩
      rw [List.append_assoc]
      exact List.mem_append_right _ ho
  refine ⟨_, imp₂, g₁, g₂, ?_⟩
  have hdays : (∀ r ∈ rsA, ∀ s ∈ rsB ++ rsC, r.date ≠ s.date) → imp₂.transactions = imp.transactions.drop rsA.length := by
    intro hne
    have ho : OtherDays L A (B ++ C) := by
      intro row row' d hr hr' hd hd'
      obtain ⟨r, hr, _, e, hrow⟩ := forall₂_left hA hr
      obtain ⟨s, hs, _, e', hrow'⟩ := forall₂_left hrs₂ hr'
      cases e; cases e'
      refine hne r hr s hs ?_
      have d1 := rowDate_unique hd (five_date L row r ((fiveRow_iff L row r).2 hrow))
      have d2 := rowDate_unique hd' (five_date L row' s ((fiveRow_iff L row' s).2 hrow'))
      exact d1.symm.trans d2
    obtain ⟨a, b, c, e, e₁, e₂, _⟩ := C65_parts h hs hs₁ hs₂ ho
    rw [g₂] at e₂
    cases e₂
    have l := hlens hproc
    have l₁ := (C45_five e₁ hs₁).2.1
    have l₂ := (C45_five g₂ hs₂).2.1
    have lA := hA.length_eq
    rw [e] at l ⊢
    simp only [List.length_append] at l l₁ l₂
    rw [List.append_assoc, List.drop_left' (by omega)]
  have hlAB : (rsA ++ rsB).length = (A ++ B).length := (records_append hA hB).length_eq.symm
  refine exact_rows (date := RecordFive.date) (paidIn := RecordFive.paidIn) (paidOut := RecordFive.paidOut)
    (key := id) (five_facts h hs hrs hd hacc hrows) (by rw [hlAB]) hdays (five_facts g₂ hs₂ hrs₂ hd hacc hrows₂)
    (by rw [List.map_id]; exact hk) ht ?_ calls h₀ h₁ h₂ m' hm hnew (hnew₂ imp₂ g₂)
  intro i t u p hpt q hqu et eu hsh
  obtain ⟨r, e1, e2, e3⟩ := five_shared_between h g₂ hs hs₂ hrs hrs₂ hd hacc hrows hrows₂ hlen (by simp only [List.length_append] at hlen ⊢; omega)
    hsha et eu hpt hqu hsh
  exact ⟨r, r, e1, e2, rfl, e3⟩

theorem six_facts {L : ImportLib} {fpNs : FpNamespace} {legacy : Bool} {records : List (Option Row)} {imp : Import} {account : Str}
    {rows : List (Option Row)} {rs : List RecordSix} (h : getTransactions L fpNs legacy records = .ok imp)
    (hs : FileShape L records account sixColumns rows) (hrs : Records (SixRow L) rows rs) (hd : PlainDates L) (hacc : '\n' ∉ account)
    (hrows : ∀ row, some row ∈ rows → ∀ f ∈ row, FitsStr f ∧ '\n' ∉ f) :
    List.Forall₂ (fun t r => ∃ a, RowTransaction t r.date a ∧ OwnAmount r.paidIn r.paidOut a) imp.transactions rs := by
  obtain ⟨_, hl, rs', hl', hc⟩ := C45_six h hs
  obtain rfl : rs' = rs := records_get hrs (fun row r r' h1 h2 => by
    rw [← sixRow_iff] at h1 h2; rw [h1] at h2; exact Option.some.inj h2) hl' fun i hi => (hc i hi).1
  rw [List.forall₂_iff_get]
  refine ⟨hl.trans hl'.symm, fun i h1 h2 => ?_⟩
  have hg : GoodNamespace imp.userFpNamespace := by
    refine (good_of_row h hs).resolve_left ?_
    rintro rfl
    rw [hl'] at h2
    cases h2
  obtain ⟨⟨row, e, hr⟩, t, et, ht⟩ := hc i h2
  have hf := sixRow_fits hd (hrows row (List.mem_of_getElem? e)) hr
  rw [List.get_eq_getElem, List.get_eq_getElem, (List.getElem?_eq_some_iff.1 et).2]
  exact six_transaction hr ht hg hacc hf.2

/-- What postings of two files of six columns share. -/
theorem six_shared_between {L : ImportLib} {fpNs : FpNamespace} {legacy : Bool} {f f₂ : List (Option Row)} {imp imp₂ : Import} {account : Str}
    {rows rows₂ : List (Option Row)} {rs rs₂ : List RecordSix} (h : getTransactions L fpNs legacy f = .ok imp)
    (h₂ : getTransactions L fpNs legacy f₂ = .ok imp₂) (hs : FileShape L f account sixColumns rows)
    (hs₂ : FileShape L f₂ account sixColumns rows₂) (hrs : Records (SixRow L) rows rs) (hrs₂ : Records (SixRow L) rows₂ rs₂)
    (hd : PlainDates L) (hacc : '\n' ∉ account) (hrows : ∀ row, some row ∈ rows → ∀ f ∈ row, FitsStr f ∧ '\n' ∉ f)
    (hrows₂ : ∀ row, some row ∈ rows₂ → ∀ f ∈ row, FitsStr f ∧ '\n' ∉ f) (hlen : rows.length < 2 ^ 31) (hlen₂ : rows₂.length < 2 ^ 31)
    (hsha : NoCollision L.sha1 fun x => sixTexts legacy rs x ∨ sixTexts legacy rs₂ x) {i j : Nat} {t u : Transaction} {p q : Posting}
    (et : imp.transactions[i]? = some t) (eu : imp₂.transactions[j]? = some u) (hpa : p ∈ t.postings) (hqb : q ∈ u.postings)
    (hsh : SharesFp (.ofPosting p) (.ofPosting q)) :
    ∃ r s, rs[i]? = some r ∧ rs₂[j]? = some s ∧ (r.type_, r.date, r.balance) = (s.type_, s.date, s.balance) ∧
      sinceChange (rs.map RecordSix.date) i = sinceChange (rs₂.map RecordSix.date) j := by
  obtain ⟨hn, hl, rs', hl', hc⟩ := C45_six h hs
  obtain rfl : rs' = rs := records_get hrs (fun row r r' h1 h2 => by
    rw [← sixRow_iff] at h1 h2; rw [h1] at h2; exact Option.some.inj h2) hl' fun i hi => (hc i hi).1
  obtain ⟨hn₂, hl₂, rs₂', hl₂', hc₂⟩ := C45_six h₂ hs₂
  obtain rfl : rs₂' = rs₂ := records_get hrs₂ (fun row r r' h1 h2 => by
    rw [← sixRow_iff] at h1 h2; rw [h1] at h2; exact Option.some.inj h2) hl₂' fun i hi => (hc₂ i hi).1
  have hns : imp₂.userFpNamespace = imp.userFpNamespace := by rw [hn] at hn₂; exact (Except.ok.inj hn₂).symm
  have hi' : i < rs'.length := by
    rw [hl', ← hl]; exact (List.getElem?_eq_some_iff.1 et).1
  have hj' : j < rs₂'.length := by
    rw [hl₂', ← hl₂]; exact (List.getElem?_eq_some_iff.1 eu).1
  have hg : GoodNamespace imp.userFpNamespace := by
    refine (good_of_row h hs).resolve_left ?_
    rintro rfl
    rw [hl'] at hi'
    cases hi'
  obtain ⟨⟨row, er, hr⟩, t', et', ht⟩ := hc i hi'
  obtain ⟨⟨row₂, er₂, hr₂⟩, u', eu', hu⟩ := hc₂ j hj'
  rw [et] at et'; cases et'
  rw [eu] at eu'; cases eu'
  rw [hns] at hu
  have hfit := sixRow_fits hd (hrows row (List.mem_of_getElem? er)) hr
  have hfit₂ := sixRow_fits hd (hrows₂ row₂ (List.mem_of_getElem? er₂)) hr₂
  have hci : FitsI32 (sinceChange (rs'.map RecordSix.date) i : Nat) := fits_count (sinceChange_le _ i) (by rw [List.length_map, hl']; exact hlen)
  have hcj : FitsI32 (sinceChange (rs₂'.map RecordSix.date) j : Nat) := fits_count (sinceChange_le _ j) (by rw [List.length_map, hl₂']; exact hlen₂)
  obtain ⟨a, ha⟩ := List.mem_iff_getElem?.1 hpa
  obtain ⟨b, hb⟩ := List.mem_iff_getElem?.1 hqb
  obtain ⟨g, hgp, hgq⟩ := hsh
  obtain ⟨hgp, hfp⟩ := mem_fps.1 hgp
  obtain ⟨hgq, _⟩ := mem_fps.1 hgq
  obtain ⟨s, amt, rfl, ho, hread⟩ := six_read ht hg hacc hfit.2 ha
  obtain ⟨s', amt', rfl, ho', hread'⟩ := six_read hu hg hacc hfit₂.2 hb
  refine ⟨rs'[i], rs₂'[j], List.getElem?_eq_getElem hi', List.getElem?_eq_getElem hj', ?_⟩
  rcases (hread g hfp).1 hgp with e1 | ⟨l1, e1⟩ <;> rcases (hread' g hfp).1 hgq with e2 | ⟨l2, e2⟩
  · have e := e1.symm.trans e2
    have e := congrArg Fingerprint.value (C41_tag (pick_built (sixFp_built L _ hg _) _) (pick_built (sixFp_built L _ hg _) _) e)
    rw [sixFp_value L _ hg, sixFp_value L _ hg] at e
    have e := hsha _ _ (Or.inl ⟨i, hi', s, Or.inl rfl⟩) (Or.inr ⟨j, hj', s', Or.inl rfl⟩) (base64_inj e)
    obtain ⟨e1, e2, _⟩ := C40_nationwide_six.2 _ _ _ _ _ _ hfit.1 hfit₂.1 hci hcj e
    exact ⟨by rw [e1], by exact_mod_cast e2⟩
  · exact absurd (e1.symm.trans e2) (C41_tag_ne_legacy (pick_built (sixLegacyFp_built L _ hg _ _) _))
  · exact absurd (e2.symm.trans e1) (C41_tag_ne_legacy (pick_built (sixLegacyFp_built L _ hg _ _) _))
  · have e := e1.symm.trans e2
    have e := (C41_legacy_tag (pick_built (sixLegacyFp_built L _ hg _ _) _) (pick_built (sixLegacyFp_built L _ hg _ _) _) e).2
    rw [sixLegacyFp_value L _ hg, sixLegacyFp_value L _ hg] at e
    have e := hsha _ _ (Or.inl ⟨i, hi', s, Or.inr ⟨l1, amt, ho, rfl⟩⟩) (Or.inr ⟨j, hj', s', Or.inr ⟨l1, amt', ho', rfl⟩⟩) (base64_inj e)
    have hA := own_fits hfit.1.2.2.2.2.1 hfit.1.2.2.2.1 ho
    have hB := own_fits hfit₂.1.2.2.2.2.1 hfit₂.1.2.2.2.1 ho'
    obtain ⟨e1, e2, e3, e4, _, _⟩ := C40_nationwide_six_legacy.2 _ _ _ _ _ _ _ _ hfit.1 hfit₂.1 hci hcj hA hB e
    exact ⟨by rw [e1, e2, e3], by exact_mod_cast e4⟩

/-- C65, files of six columns, exactly, with and without legacy fingerprints: the same for rows of which no two have the same type, date and
balance. -/
theorem C65_six {L : ImportLib} {fpNs : FpNamespace} {legacy : Bool} {f f₁ f₂ : List (Option Row)} {imp : Import} {account : Str}
    {A B C : List (Option Row)} {rsA rsB rsC : List RecordSix} (h : getTransactions L fpNs legacy f = .ok imp)
    (hs : FileShape L f account sixColumns (A ++ B ++ C)) (hs₁ : FileShape L f₁ account sixColumns (A ++ B))
    (hs₂ : FileShape L f₂ account sixColumns (B ++ C))
    (hA : Records (SixRow L) A rsA) (hB : Records (SixRow L) B rsB) (hC : Records (SixRow L) C rsC)
    (hp : PlainFields f) (hd : PlainDates L) (hlen : (A ++ B ++ C).length < 2 ^ 31)
    (hsha : NoCollision L.sha1 fun x => sixTexts legacy (rsA ++ rsB ++ rsC) x ∨ sixTexts legacy (rsB ++ rsC) x)
    (ht : Together ((rsA ++ rsB ++ rsC).map RecordSix.date)) (hk : ((rsA ++ rsB ++ rsC).map fun r => (r.type_, r.date, r.balance)).Nodup)
    (calls : History) (h₀ h₁ h₂ : HashOrder) (m' : Merger) (hm : (run calls).merge h₀ imp.postings = (.ok [], m'))
    (hnew : ∀ t ∈ imp.postings, ∀ p ∈ t.posts, ∀ r ∈ (ofHistory (inputs calls)).recs,
      ¬ SharesFp r.post p ∧ ¬ (r.date = dateOf t ∧ SoftMatch r.post p))
    (hnew₂ : ∀ imp₂, getTransactions L fpNs legacy f₂ = .ok imp₂ → ∀ t ∈ imp₂.postings, ∀ p ∈ t.posts,
      ∀ r ∈ (ofHistory (inputs calls)).recs, ¬ SharesFp r.post p) :
    ∃ imp₁ imp₂, getTransactions L fpNs legacy f₁ = .ok imp₁ ∧ getTransactions L fpNs legacy f₂ = .ok imp₂ ∧
      ((run calls).merge h₁ imp₁.postings).1 = .ok [] ∧
      (((run calls).merge h₁ imp₁.postings).2.merge h₂ imp₂.postings = (.ok [], m') ↔
        (∀ r ∈ rsA, ∀ s ∈ rsB ++ rsC, r.date ≠ s.date) ∧
        ∀ r ∈ rsA ++ rsB, ∀ s ∈ rsC, r.date = s.date → ¬ SameSum r.paidIn r.paidOut s.paidIn s.paidOut) := by
  obtain ⟨hacc, hrows⟩ := shape_plain hs hp
  have hrs := records_append (records_append hA hB) hC
  have hrs₂ := records_append hB hC
  have hrows₂ : ∀ row, some row ∈ B ++ C → ∀ f ∈ row, FitsStr f ∧ '\n' ∉ f := by
    intro row hr
    refine hrows row ?_
    rw [List.append_assoc]
    exact List.mem_append_right _ hr
  obtain ⟨account', columns', rows', hs', hn, hproc⟩ := (getTransactions_iff ..).1 h
  obtain ⟨rfl, rfl, rfl⟩ := hs.unique hs'
  have hproc := (hproc.resolve_left fun h => columns_ne h.1.symm).2
  have hlens : ∀ {A : List (Option Row)} {ts}, processRows (six L) imp.userFpNamespace account legacy A = .ok ts → ts.length = A.length := by
    intro A ts h
    obtain ⟨rs, h1, h2, _⟩ := (processRows_iff ..).1 h
    rw [h2, (map_bind_some.1 h1).1]
  -- the first download
  have g₁ : getTransactions L fpNs legacy f₁ = .ok ⟨imp.userFpNamespace, imp.transactions.take (A ++ B).length⟩ :=
    (getTransactions_iff ..).2 ⟨account, sixColumns, A ++ B, hs₁, hn, .inr ⟨rfl, process_front hproc fun ts h => hlens h⟩⟩
  -- the second download
  obtain ⟨imp₂, g₂⟩ : ∃ imp₂, getTransactions L fpNs legacy f₂ = .ok imp₂ := by
    obtain ⟨account', columns', rows', ns, hs', hn', hgood, hcols⟩ := (C45_accepted L fpNs legacy f).1 ⟨imp, h⟩
    obtain ⟨rfl, rfl, rfl⟩ := hs.unique hs'
    refine (C45_accepted L fpNs legacy f₂).2 ⟨account, sixColumns, B ++ C, ns, hs₂, hn', hgood.imp (fun h => ?_) id, ?_⟩
    · rw [List.append_assoc] at h
      exact (List.append_eq_nil_iff.1 h).2
    · have hcols := (hcols.resolve_left fun h => columns_ne h.1.symm).2
      refine .inr ⟨rfl, fun o ho => hcols o ?_⟩
      rw [List.append_assoc]
      exact List.mem_append_right _ ho
  refine ⟨_, imp₂, g₁, g₂, ?_⟩
  have hdays : (∀ r ∈ rsA, ∀ s ∈ rsB ++ rsC, r.date ≠ s.date) → imp₂.transactions = imp.transactions.drop rsA.length := by
    intro hne
    have ho : OtherDays L A (B ++ C) := by
      intro row row' d hr hr' hd hd'
      obtain ⟨r, hr, _, e, hrow⟩ := forall₂_left hA hr
      obtain ⟨s, hs, _, e', hrow'⟩ := forall₂_left hrs₂ hr'
      cases e; cases e'
      refine hne r hr s hs ?_
      have d1 := rowDate_unique hd (six_date L row r ((sixRow_iff L row r).2 hrow))
      have d2 := rowDate_unique hd' (six_date L row' s ((sixRow_iff L row' s).2 hrow'))
      exact d1.symm.trans d2
    obtain ⟨a, b, c, e, e₁, e₂, _⟩ := C65_parts h hs hs₁ hs₂ ho
    rw [g₂] at e₂
    cases e₂
    have l := hlens hproc
    have l₁ := (C45_six e₁ hs₁).2.1
    have l₂ := (C45_six g₂ hs₂).2.1
    have lA := hA.length_eq
    rw [e] at l ⊢
    simp only [List.length_append] at l l₁ l₂
    rw [List.append_assoc, List.drop_left' (by omega)]
  have hlAB : (rsA ++ rsB).length = (A ++ B).length := (records_append hA hB).length_eq.symm
  refine exact_rows (date := RecordSix.date) (paidIn := RecordSix.paidIn) (paidOut := RecordSix.paidOut)
    (key := fun r => (r.type_, r.date, r.balance)) (six_facts h hs hrs hd hacc hrows) (by rw [hlAB]) hdays (six_facts g₂ hs₂ hrs₂ hd hacc hrows₂)
    hk ht ?_ calls h₀ h₁ h₂ m' hm hnew (hnew₂ imp₂ g₂)
  intro i t u p hpt q hqu et eu hsh
  exact six_shared_between h g₂ hs hs₂ hrs hrs₂ hd hacc hrows hrows₂ hlen (by simp only [List.length_append] at hlen ⊢; omega) hsha et eu hpt hqu hsh

/-! ## Instances -/

/-- Tea on the second of the month. -/
def teaRow : List String := ["02 Sep 2021", "TEA", "SHOP", "£1.50", ""]
/-- Cake on the second of the month. -/
def cakeRow : List String := ["02 Sep 2021", "CAKE", "SHOP", "£2.00", ""]
/-- Money back on the second of the month, as much as for the tea. -/
def backRow : List String := ["02 Sep 2021", "REFUND", "SHOP", "", "£1.50"]

/-- The record for the tea. -/
def tea : RecordFive := ⟨⟨2021, 9, 2⟩, "TEA".toList, "SHOP".toList, some ⟨⟨false, 150, 2⟩, gbp⟩, none⟩
/-- The record for the cake. -/
def cake : RecordFive := ⟨⟨2021, 9, 2⟩, "CAKE".toList, "SHOP".toList, some ⟨⟨false, 200, 2⟩, gbp⟩, none⟩
/-- The record for the money that came back. -/
def back : RecordFive := ⟨⟨2021, 9, 2⟩, "REFUND".toList, "SHOP".toList, none, some ⟨⟨false, 150, 2⟩, gbp⟩⟩

/-- Equal elements are next to each other, in a form that can be evaluated. -/
def TogetherEval (l : List Date) : Prop :=
  ∀ i ∈ List.range l.length, ∀ j ∈ List.range l.length, ∀ k ∈ List.range l.length, i ≤ j ∧ j ≤ k ∧ l[i]? = l[k]? → l[j]? = l[k]?
instance (l : List Date) : Decidable (TogetherEval l) := by unfold TogetherEval; infer_instance

theorem together_of {l : List Date} (h : TogetherEval l) : Together l := by
  intro i j k x hij hjk hi hk
  have hk' := (List.getElem?_eq_some_iff.1 hk).1
  have hr : ∀ {n}, n ≤ k → n ∈ List.range l.length := fun h => List.mem_range.2 (by omega)
  exact (h i (hr (by omega)) j (hr hjk) k (hr (le_refl _)) ⟨hij, hjk, hi.trans hk.symm⟩).trans hk

theorem tea_cake : ¬ SameSum tea.paidIn tea.paidOut cake.paidIn cake.paidOut := by
  rintro ⟨x, ⟨_, a, ha, h1⟩, ⟨_, b, hb, h2⟩⟩
  have ha : a = ⟨⟨false, 150, 2⟩, gbp⟩ := by
    rcases ha with ha | ha
    · cases ha
    · exact (Option.some.inj ha).symm
  have hb : b = ⟨⟨false, 200, 2⟩, gbp⟩ := by
    rcases hb with hb | hb
    · cases hb
    · exact (Option.some.inj hb).symm
  subst ha hb
  norm_num [value] at h1 h2
  rcases h1 with h1 | h1 <;> rcases h2 with h2 | h2 <;> linarith

/-- Rows in three parts, with their records. In the first and second example the first download ends within a day, in the third one the second
download begins within a day. -/
def downloads : List (List (List String) × List (List String) × List (List String) × List RecordFive × List RecordFive × List RecordFive) :=
  [([coffeeRow], [teaRow], [cakeRow], [coffee], [tea], [cake]), ([coffeeRow], [teaRow], [backRow], [coffee], [tea], [back]),
    ([coffeeRow, teaRow], [cakeRow], [], [coffee, tea], [cake], [])]

set_option maxRecDepth 100000 in
theorem fileOf_shape (rows : List (List String)) :
    FileShape Ex.plainLib (fileOf "£-123.45" rows) "My Account ****4321".toList fiveColumns (Ex.rows rows) :=
  ⟨[], "£-123.45".toList, [], "£500.00".toList, [], rfl, by decide +kernel, by decide +kernel⟩

theorem rows_append (x y : List (List String)) : Ex.rows (x ++ y) = Ex.rows x ++ Ex.rows y := List.map_append

set_option maxRecDepth 100000 in
/-- The conditions of C65 hold for these downloads, to be merged into a journal that has other things. -/
theorem downloads_ok : ∀ e ∈ downloads,
    ∃ imp, getTransactions Ex.plainLib .generated false (fileOf "£-123.45" (e.1 ++ e.2.1 ++ e.2.2.1)) = .ok imp ∧
    (∃ m', (run Ex.hist).merge HashOrder.rev imp.postings = (.ok [], m')) ∧
    (∀ t ∈ imp.postings, ∀ p ∈ t.posts, ∀ r ∈ (ofHistory (inputs Ex.hist)).recs,
      ¬ SharesFp r.post p ∧ ¬ (r.date = dateOf t ∧ SoftMatch r.post p)) ∧
    (∀ imp₂, getTransactions Ex.plainLib .generated false (fileOf "£-123.45" (e.2.1 ++ e.2.2.1)) = .ok imp₂ → ∀ t ∈ imp₂.postings,
      ∀ p ∈ t.posts, ∀ r ∈ (ofHistory (inputs Ex.hist)).recs, ¬ SharesFp r.post p) ∧
    FileShape Ex.plainLib (fileOf "£-123.45" (e.1 ++ e.2.1 ++ e.2.2.1)) "My Account ****4321".toList fiveColumns
      (Ex.rows e.1 ++ Ex.rows e.2.1 ++ Ex.rows e.2.2.1) ∧
    FileShape Ex.plainLib (fileOf "£-123.45" (e.1 ++ e.2.1)) "My Account ****4321".toList fiveColumns (Ex.rows e.1 ++ Ex.rows e.2.1) ∧
    FileShape Ex.plainLib (fileOf "£-123.45" (e.2.1 ++ e.2.2.1)) "My Account ****4321".toList fiveColumns (Ex.rows e.2.1 ++ Ex.rows e.2.2.1) ∧
    Records (FiveRow Ex.plainLib) (Ex.rows e.1) e.2.2.2.1 ∧ Records (FiveRow Ex.plainLib) (Ex.rows e.2.1) e.2.2.2.2.1 ∧
    Records (FiveRow Ex.plainLib) (Ex.rows e.2.2.1) e.2.2.2.2.2 ∧
    PlainFields (fileOf "£-123.45" (e.1 ++ e.2.1 ++ e.2.2.1)) ∧
    (e.2.2.2.1 ++ e.2.2.2.2.1 ++ e.2.2.2.2.2).Nodup ∧ Together ((e.2.2.2.1 ++ e.2.2.2.2.1 ++ e.2.2.2.2.2).map RecordFive.date) := by
  have h1 : ∀ e ∈ downloads,
      (match getTransactions Ex.plainLib .generated false (fileOf "£-123.45" (e.1 ++ e.2.1 ++ e.2.2.1)) with
      | .ok imp => decide (((run Ex.hist).merge HashOrder.rev imp.postings).1 = .ok [] ∧
          ∀ t ∈ imp.postings, ∀ p ∈ t.posts, ∀ r ∈ (Ex.bookEval (inputs Ex.hist)).recs,
            ¬ SharesFp r.post p ∧ ¬ (r.date = dateOf t ∧ SoftMatch r.post p))
      | .error _ => false) = true := by decide +kernel
  have h2 : ∀ e ∈ downloads,
      (match getTransactions Ex.plainLib .generated false (fileOf "£-123.45" (e.2.1 ++ e.2.2.1)) with
      | .ok imp => decide (∀ t ∈ imp.postings, ∀ p ∈ t.posts, ∀ r ∈ (Ex.bookEval (inputs Ex.hist)).recs, ¬ SharesFp r.post p)
      | .error _ => false) = true := by decide +kernel
  have h3 : ∀ e ∈ downloads,
      (Ex.rows e.1).map (fun o => o.bind (five Ex.plainLib).ofRow) = e.2.2.2.1.map some ∧
      (Ex.rows e.2.1).map (fun o => o.bind (five Ex.plainLib).ofRow) = e.2.2.2.2.1.map some ∧
      (Ex.rows e.2.2.1).map (fun o => o.bind (five Ex.plainLib).ofRow) = e.2.2.2.2.2.map some := by decide +kernel
  have h4 : ∀ e ∈ downloads,
      (∀ row, some row ∈ fileOf "£-123.45" (e.1 ++ e.2.1 ++ e.2.2.1) → ∀ f ∈ row, FitsStr f ∧ '\n' ∉ f) ∧
      (e.2.2.2.1 ++ e.2.2.2.2.1 ++ e.2.2.2.2.2).Nodup := by decide +kernel
  have h5 : ∀ e ∈ downloads,
      TogetherEval ((e.2.2.2.1 ++ e.2.2.2.2.1 ++ e.2.2.2.2.2).map RecordFive.date) := by decide +kernel
  intro e he
  have g1 := h1 e he
  have g2 := h2 e he
  rw [Ex.ofHistory_eval]
  split at g1
  · rename_i imp ei
    split at g2
    · rename_i imp₂ ei₂
      obtain ⟨k1, k2⟩ := of_decide_eq_true g1
      have k3 := of_decide_eq_true g2
      refine ⟨imp, ei, ⟨_, Prod.ext k1 rfl⟩, k2, ?_, ?_, ?_, ?_, records_of (fun row r => fiveRow_iff Ex.plainLib row r) (h3 e he).1,
        records_of (fun row r => fiveRow_iff Ex.plainLib row r) (h3 e he).2.1, records_of (fun row r => fiveRow_iff Ex.plainLib row r) (h3 e he).2.2,
        (h4 e he).1, (h4 e he).2, together_of (h5 e he)⟩
      · intro imp' h
        rw [ei₂] at h
        cases h
        exact k3
      · rw [← rows_append, ← rows_append]; exact fileOf_shape _
      · rw [← rows_append]; exact fileOf_shape _
      · rw [← rows_append]; exact fileOf_shape _
    · cases g2
  · cases g1

/-- Merging these downloads one after the other has the effect of merging everything at once for the first example only. In the second one the
last row is about the same sum as another one of its day, in the third one the second download begins within a day. -/
example (h₁ h₂ : HashOrder) : ∀ e ∈ downloads, ∃ imp imp₁ imp₂ m',
    getTransactions Ex.plainLib .generated false (fileOf "£-123.45" (e.1 ++ e.2.1 ++ e.2.2.1)) = .ok imp ∧
    getTransactions Ex.plainLib .generated false (fileOf "£-123.45" (e.1 ++ e.2.1)) = .ok imp₁ ∧
    getTransactions Ex.plainLib .generated false (fileOf "£-123.45" (e.2.1 ++ e.2.2.1)) = .ok imp₂ ∧
    (run Ex.hist).merge HashOrder.rev imp.postings = (.ok [], m') ∧ ((run Ex.hist).merge h₁ imp₁.postings).1 = .ok [] ∧
    (((run Ex.hist).merge h₁ imp₁.postings).2.merge h₂ imp₂.postings = (.ok [], m') ↔ e.2.2.1 = [cakeRow]) := by
  intro e he
  obtain ⟨imp, e0, ⟨m', hm⟩, hnew, hnew₂, hs, hs₁, hs₂, hA, hB, hC, hp, hk, ht⟩ := downloads_ok e he
  have hlen : (Ex.rows e.1 ++ Ex.rows e.2.1 ++ Ex.rows e.2.2.1).length < 2 ^ 31 := by
    have : ∀ e ∈ downloads, (Ex.rows e.1 ++ Ex.rows e.2.1 ++ Ex.rows e.2.2.1).length < 2 ^ 31 := by decide +kernel
    exact this e he
  obtain ⟨imp₁, imp₂, e1, e2, hok, hiff⟩ := C65_five e0 hs hs₁ hs₂ hA hB hC hp plain_dates hlen (no_collision _) ht hk Ex.hist HashOrder.rev h₁ h₂ m'
    hm hnew hnew₂
  refine ⟨imp, imp₁, imp₂, m', e0, e1, e2, hm, hok, hiff.trans ?_⟩
  unfold downloads at he
  simp only [List.mem_cons, List.not_mem_nil, or_false] at he
  rcases he with rfl | rfl | rfl
  · refine iff_of_true ⟨by decide +kernel, ?_⟩ rfl
    intro r hr s hs hdate
    obtain rfl := List.mem_singleton.1 hs
    simp only [List.mem_append, List.mem_cons, List.not_mem_nil, or_false] at hr
    rcases hr with rfl | rfl
    · exact absurd hdate (by decide +kernel)
    · exact tea_cake
  · refine iff_of_false (fun h => ?_) (by decide +kernel)
    refine h.2 tea (by simp) back (by simp) rfl ⟨3 / 2, ⟨by norm_num, _, Or.inr rfl, ?_⟩, by norm_num, _, Or.inl rfl, ?_⟩
    · norm_num [value]
    · norm_num [value]
  · refine iff_of_false (fun h => ?_) (by decide +kernel)
    exact h.1 tea (by simp) cake (by simp) rfl

/-- A file with the given rows of six columns. -/
def fileOf6 (rows : List (List String)) : List (Option Row) :=
  Ex.rows ([["Account Name:", "Current"], ["Account Balance:", "£150.00"], ["Available Balance:", "£150.00"],
    ["Date", "Transaction type", "Description", "Paid out", "Paid in", "Balance"]] ++ rows)

set_option maxRecDepth 100000 in
theorem fileOf6_shape (rows : List (List String)) : FileShape Ex.plainLib (fileOf6 rows) "Current".toList sixColumns (Ex.rows rows) :=
  ⟨[], "£150.00".toList, [], "£150.00".toList, [], rfl, by decide +kernel, by decide +kernel⟩

set_option maxRecDepth 100000 in
/-- The same for six columns and legacy fingerprints: a first download that ends within a day, with another sum and with the same one. -/
example (h₁ h₂ : HashOrder) : ∀ same : Bool,
    let A := [["01 Jan 2019", "ATM", "ATM Withdrawal", "£30.00", "", "£200.00"]]
    let B := [["02 Jan 2019", "Transfer", "Payroll", "", "£300.00", "£500.00"]]
    let C := [["02 Jan 2019", "Transfer", "Savings", if same then "£300.00" else "£100.00", "", if same then "£200.00" else "£400.00"]]
    ∃ imp imp₁ imp₂ m', getTransactions Ex.plainLib .generated true (fileOf6 (A ++ B ++ C)) = .ok imp ∧
    getTransactions Ex.plainLib .generated true (fileOf6 (A ++ B)) = .ok imp₁ ∧
    getTransactions Ex.plainLib .generated true (fileOf6 (B ++ C)) = .ok imp₂ ∧
    (run Ex.hist).merge HashOrder.rev imp.postings = (.ok [], m') ∧ ((run Ex.hist).merge h₁ imp₁.postings).1 = .ok [] ∧
    (((run Ex.hist).merge h₁ imp₁.postings).2.merge h₂ imp₂.postings = (.ok [], m') ↔ same = false) := by
  intro same A B C
  let rA : List RecordSix := [⟨⟨2019, 1, 1⟩, "ATM".toList, "ATM Withdrawal".toList, some ⟨⟨false, 3000, 2⟩, gbp⟩, none, ⟨⟨false, 20000, 2⟩, gbp⟩⟩]
  let rB : List RecordSix := [⟨⟨2019, 1, 2⟩, "Transfer".toList, "Payroll".toList, none, some ⟨⟨false, 30000, 2⟩, gbp⟩, ⟨⟨false, 50000, 2⟩, gbp⟩⟩]
  let rC : List RecordSix := [⟨⟨2019, 1, 2⟩, "Transfer".toList, "Savings".toList, some ⟨⟨false, if same then 30000 else 10000, 2⟩, gbp⟩, none,
    ⟨⟨false, if same then 20000 else 40000, 2⟩, gbp⟩⟩]
  have k1 : (match getTransactions Ex.plainLib .generated true (fileOf6 (A ++ B ++ C)) with
      | .ok imp => decide (((run Ex.hist).merge HashOrder.rev imp.postings).1 = .ok [] ∧
          ∀ t ∈ imp.postings, ∀ p ∈ t.posts, ∀ r ∈ (Ex.bookEval (inputs Ex.hist)).recs,
            ¬ SharesFp r.post p ∧ ¬ (r.date = dateOf t ∧ SoftMatch r.post p))
      | .error _ => false) = true := by cases same <;> decide +kernel
  have k2 : (match getTransactions Ex.plainLib .generated true (fileOf6 (B ++ C)) with
      | .ok imp => decide (∀ t ∈ imp.postings, ∀ p ∈ t.posts, ∀ r ∈ (Ex.bookEval (inputs Ex.hist)).recs, ¬ SharesFp r.post p)
      | .error _ => false) = true := by cases same <;> decide +kernel
  have hA : Records (SixRow Ex.plainLib) (Ex.rows A) rA := records_of (fun row r => sixRow_iff Ex.plainLib row r) (by decide +kernel)
  have hB : Records (SixRow Ex.plainLib) (Ex.rows B) rB := records_of (fun row r => sixRow_iff Ex.plainLib row r) (by decide +kernel)
  have hC : Records (SixRow Ex.plainLib) (Ex.rows C) rC := records_of (fun row r => sixRow_iff Ex.plainLib row r) (by cases same <;> decide +kernel)
  have hp : PlainFields (fileOf6 (A ++ B ++ C)) := by unfold PlainFields; cases same <;> decide +kernel
  have ht : TogetherEval ((rA ++ rB ++ rC).map RecordSix.date) := by cases same <;> decide +kernel
  have hk : ((rA ++ rB ++ rC).map fun r => (r.type_, r.date, r.balance)).Nodup := by cases same <;> decide +kernel
  have hne : ∀ r ∈ rA, ∀ s ∈ rB ++ rC, r.date ≠ s.date := by cases same <;> decide +kernel
  have hday : ∀ r ∈ rA ++ rB, ∀ s ∈ rC, r.date = s.date → r ∈ rB ∧ s ∈ rC := by cases same <;> decide +kernel
  split at k1
  · rename_i imp e0
    split at k2
    · rename_i imp' e2'
      obtain ⟨g1, g2⟩ := of_decide_eq_true k1
      have g3 := of_decide_eq_true k2
      obtain ⟨imp₁, imp₂, e1, e2, hok, hiff⟩ := C65_six (f := fileOf6 (A ++ B ++ C)) (f₁ := fileOf6 (A ++ B)) (f₂ := fileOf6 (B ++ C)) e0
        (by rw [← rows_append, ← rows_append]; exact fileOf6_shape _)
        (by rw [← rows_append]; exact fileOf6_shape _) (by rw [← rows_append]; exact fileOf6_shape _) hA hB hC hp plain_dates
        (show 3 < 2 ^ 31 by decide) (no_collision _) (together_of ht) hk Ex.hist HashOrder.rev h₁ h₂ _ (Prod.ext g1 rfl)
        (by rw [Ex.ofHistory_eval]; exact g2) (by rw [Ex.ofHistory_eval]; intro i hi; rw [e2'] at hi; cases hi; exact g3)
      refine ⟨imp, imp₁, imp₂, _, e0, e1, e2, Prod.ext g1 rfl, hok, hiff.trans ?_⟩
      cases same with
      | true =>
        refine iff_of_false (fun h => ?_) (by decide)
        refine h.2 _ (List.mem_append_right _ (List.mem_singleton.2 rfl)) _ (List.mem_singleton.2 rfl) rfl
          ⟨300, ⟨by norm_num, _, Or.inl rfl, Or.inl ?_⟩, by norm_num, _, Or.inr rfl, Or.inl ?_⟩
        · norm_num [value]
        · norm_num [value]
      | false =>
        refine iff_of_true ⟨hne, fun r hr s hs hd => ?_⟩ rfl
        obtain ⟨h1, h2⟩ := hday r hr s hs hd
        obtain rfl := List.mem_singleton.1 h1
        obtain rfl := List.mem_singleton.1 h2
        rintro ⟨x, ⟨_, a, ha, hx⟩, ⟨_, b, hb, hy⟩⟩
        have ha : a = ⟨⟨false, 30000, 2⟩, gbp⟩ := by
          rcases ha with ha | ha
          · exact (Option.some.inj ha).symm
          · cases ha
        have hb : b = ⟨⟨false, 10000, 2⟩, gbp⟩ := by
          rcases hb with hb | hb
          · cases hb
          · exact (Option.some.inj hb).symm
        subst ha hb
        norm_num [value] at hx hy
        rcases hx with hx | hx <;> rcases hy with hy | hy <;> linarith
    · cases k2
  · cases k1

end NationwideCsv
end Verif
