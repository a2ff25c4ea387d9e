import Verif.Props.OverlapExact
import Verif.Props.PaypalDistinct

/-!
# C65: PayPal downloads that overlap
-/

namespace Verif
open Spec Spec.Book
namespace PaypalCsv
open NationwideCsv

/-- Cutting a file between two rows does not cut through a group of records of the same moment. -/
def CleanCut (tz : TzAbbr.DB) (xs ys : List RawRecord) : Prop :=
  ∀ v w, xs.getLast? = some v → ys.head? = some w → when tz v ≠ when tz w

/-- The day of a record, in local time, as it is in the journal. -/
def OnDay (L : ImportLib) (tz : TzAbbr.DB) (v : RawRecord) (d : Date) : Prop := ∃ dt, when tz v = some dt ∧ L.localDate dt = d

/-- Two records are about the same sum of the same currency, in or out. -/
def SameMoney (v w : RawRecord) : Prop :=
  v.currency = w.currency ∧ (value v.amount = value w.amount ∨ value v.amount = -value w.amount)

/-! ## Parts of a file -/

theorem runs_append {α κ : Type} {key : α → κ} {xs ys : List α} {gs hs : List (List α)} (hx : Runs key xs gs) (hy : Runs key ys hs)
    (hc : ∀ v w, xs.getLast? = some v → ys.head? = some w → key v ≠ key w) : Runs key (xs ++ ys) (gs ++ hs) := by
  refine ⟨by rw [List.flatten_append, hx.flatten, hy.flatten], ?_, ?_, ?_⟩
  · intro g hg
    rcases List.mem_append.1 hg with hg | hg
    · exact hx.nonempty g hg
    · exact hy.nonempty g hg
  · intro g hg
    rcases List.mem_append.1 hg with hg | hg
    · exact hx.same g hg
    · exact hy.same g hg
  · intro i g g' e e' x hx' y hy'
    rcases Nat.lt_trichotomy (i + 1) gs.length with hlt | heq | hgt
    · rw [List.getElem?_append_left (by omega)] at e
      rw [List.getElem?_append_left hlt] at e'
      exact hx.differ i g g' e e' x hx' y hy'
    · rw [List.getElem?_append_left (by omega)] at e
      rw [List.getElem?_append_right (by omega), heq, Nat.sub_self] at e'
      -- the last group of the first part and the first of the second
      obtain ⟨hs', rfl⟩ : ∃ hs', hs = g' :: hs' := by
        cases hs with
        | nil => cases e'
        | cons z hs' => cases e'; exact ⟨hs', rfl⟩
      obtain ⟨gs', rfl⟩ : ∃ gs', gs = gs' ++ [g] := by
        refine ⟨gs.take i, ?_⟩
        have hi : i < gs.length := by omega
        have : gs = gs.take i ++ gs.drop i := (List.take_append_drop i gs).symm
        rw [List.drop_eq_getElem_cons hi, (List.getElem?_eq_some_iff.1 e).2, List.drop_eq_nil_of_le (by omega)] at this
        exact this
      obtain ⟨w, g'', rfl, hw⟩ := hy.head
      have hgne := hx.nonempty g (by simp)
      have hlast : xs.getLast? = some (g.getLast hgne) := by
        rw [← hx.flatten, List.flatten_append, List.flatten_singleton, List.getLast?_append, List.getLast?_eq_some_getLast hgne]
        rfl
      have hfirst : ys.head? = some w := by rw [← hy.flatten]; rfl
      rw [hx.same g (by simp) x hx' _ (List.getLast_mem hgne), hw y hy']
      exact hc _ _ hlast hfirst
    · rw [List.getElem?_append_right (by omega)] at e
      rw [List.getElem?_append_right (by omega), show i + 1 - gs.length = (i - gs.length) + 1 by omega] at e'
      exact hy.differ _ g g' e e' x hx' y hy'

theorem cut_of_clean {tz : TzAbbr.DB} {ns : Str} {xs ys : List RawRecord} (hx : ∀ v ∈ xs, when tz v ≠ none) (hy : ∀ v ∈ ys, when tz v ≠ none)
    (h : CleanCut tz xs ys) (v w : RawRecord) (hv : xs.getLast? = some v) (hw : ys.head? = some w) :
    (recordOf tz ns v).datetime ≠ (recordOf tz ns w).datetime := by
  intro e
  refine h v w hv hw ?_
  rw [when_some ns (hx v (List.mem_of_getLast? hv)), when_some ns (hy w (List.mem_of_mem_head? hw)), e]

/-- Reading the rows of two parts that do not cut through a group. -/
theorem read_append {L : ImportLib} {headers : Row} {tz : TzAbbr.DB} {ns : Str} {legacy : Bool} {X Y : List (Option Row)} {xs ys : List RawRecord}
    {ts : List Transaction} (hx : Rows L headers X xs) (hy : Rows L headers Y ys) (hc : CleanCut tz xs ys) :
    readTransactions L headers tz ns legacy (X ++ Y) = .ok ts ↔ ∃ t₁ t₂, ts = t₁ ++ t₂ ∧
      readTransactions L headers tz ns legacy X = .ok t₁ ∧ readTransactions L headers tz ns legacy Y = .ok t₂ := by
  simp only [readTransactions_iff]
  constructor
  · rintro ⟨vs, gs, h1, h2, h3, h4, h5⟩
    obtain rfl : vs = xs ++ ys := rows_unique h1 (List.rel_append hx hy)
    have hX : ∀ v ∈ xs, when tz v ≠ none := fun v hv => h3 v (List.mem_append_left _ hv)
    have hY : ∀ v ∈ ys, when tz v ≠ none := fun v hv => h3 v (List.mem_append_right _ hv)
    have rX := runsOf_runs (fun v => (recordOf tz ns v).datetime) xs
    have rY := runsOf_runs (fun v => (recordOf tz ns v).datetime) ys
    obtain rfl := h4.unique (runs_append rX rY (cut_of_clean hX hY hc))
    have f₁ := List.forall₂_take (runsOf (fun v => (recordOf tz ns v).datetime) xs).length h5
    have f₂ := List.forall₂_drop (runsOf (fun v => (recordOf tz ns v).datetime) xs).length h5
    rw [List.take_left] at f₁
    rw [List.drop_left] at f₂
    refine ⟨_, _, (List.take_append_drop _ ts).symm, ⟨xs, _, hx, ?_, hX, rX, f₁⟩, ys, _, hy, ?_, hY, rY, f₂⟩
    · rcases h2 with h2 | h2
      · exact Or.inl (List.append_eq_nil_iff.1 h2).1
      · exact Or.inr h2
    · rcases h2 with h2 | h2
      · exact Or.inl (List.append_eq_nil_iff.1 h2).2
      · exact Or.inr h2
  · rintro ⟨t₁, t₂, rfl, ⟨xs', g₁, a1, a2, a3, a4, a5⟩, ys', g₂, b1, b2, b3, b4, b5⟩
    obtain rfl := rows_unique hx a1
    obtain rfl := rows_unique hy b1
    refine ⟨xs ++ ys, g₁ ++ g₂, List.rel_append a1 b1, ?_, ?_, runs_append a4 b4 (cut_of_clean a3 b3 hc), List.rel_append a5 b5⟩
    · rcases a2 with rfl | a2
      · exact b2
      · exact Or.inr a2
    · intro v hv
      rcases List.mem_append.1 hv with hv | hv
      · exact a3 v hv
      · exact b3 v hv

/-- C65, parts of a PayPal file: if the file with the rows `A`, `B` and `C` can be imported, and neither cut goes through a group of records
of the same moment, then the file with `A` and `B` and that with `B` and `C` can be imported, and the transactions for `B` are the same in
all of them. -/
theorem C65_paypal_parts {L : ImportLib} {ns : Str} {legacy : Bool} {headers : Row} {A B C : List (Option Row)}
    {tzRecords : List (Option TzAbbr.Record)} {tz : TzAbbr.DB} {imp : Import} {as bs cs : List RawRecord}
    (h : getTransactions L ns legacy (some headers) (A ++ B ++ C) tzRecords = .ok imp) (htz : TzAbbr.fromRecords tzRecords = .ok tz)
    (hA : Rows L headers A as) (hB : Rows L headers B bs) (hC : Rows L headers C cs)
    (hAB : CleanCut tz as (bs ++ cs)) (hBC : CleanCut tz (as ++ bs) cs) :
    ∃ a b c, imp.transactions = a ++ b ++ c ∧
      getTransactions L ns legacy (some headers) (A ++ B) tzRecords = .ok ⟨ns, a ++ b⟩ ∧
      getTransactions L ns legacy (some headers) (B ++ C) tzRecords = .ok ⟨ns, b ++ c⟩ := by
  obtain ⟨hs, tz', e1, e2, e3, h⟩ := (getTransactions_iff ..).1 h
  cases e1
  rw [htz] at e2
  cases e2
  obtain ⟨ab, c, e, h1, h2⟩ := (read_append (List.rel_append hA hB) hC hBC).1 h
  -- within the first two parts
  have hAB' : CleanCut tz as bs := by
    intro v w hv hw
    refine hAB v w hv ?_
    rw [List.head?_append, hw]; rfl
  have hBC' : CleanCut tz bs cs := by
    intro v w hv hw
    refine hBC v w ?_ hw
    rw [List.getLast?_append, hv]; rfl
  obtain ⟨a, b, rfl, h3, h4⟩ := (read_append hA hB hAB').1 h1
  exact ⟨a, b, c, e, (getTransactions_iff ..).2 ⟨_, _, rfl, htz, rfl, h1⟩,
    (getTransactions_iff ..).2 ⟨_, _, rfl, htz, rfl, (read_append hB hC hBC').2 ⟨b, c, rfl, h4, h2⟩⟩⟩

/-! ## Soft matches -/

/-- What the postings of a transaction are for: one record each, with its amount or the opposite; the postings with the opposite amount
have no balance. -/
theorem group_postings {L : ImportLib} {tz : TzAbbr.DB} {ns : Str} {legacy : Bool} {g : List RawRecord} {t : Transaction}
    (h : GroupSays L tz ns legacy g t) (hg : GoodNamespace ns)
    (hv : ∀ v ∈ g, (∀ n, v.name = some n → '\n' ∉ n) ∧ '\n' ∉ v.type_ ∧ ∀ n, v.receiptId = some n → '\n' ∉ n) :
    (∀ v ∈ g, OnDay L tz v t.date) ∧
    (∀ p ∈ t.postings, ∃ v ∈ g, ∃ a, p.amount = some ⟨a, none, none⟩ ∧ a.commodity = ⟨v.currency, .left⟩ ∧
      (value a.quantity = value v.amount ∨ value a.quantity = -value v.amount)) ∧
    ∀ v ∈ g, (∃ p ∈ t.postings, ∃ a, p.amount = some ⟨a, none, none⟩ ∧ a.commodity = ⟨v.currency, .left⟩ ∧ value a.quantity = value v.amount ∧
        UnknownAccount (.ofPosting p)) ∧
      ∃ p ∈ t.postings, ∃ a, p.amount = some ⟨a, none, none⟩ ∧ a.commodity = ⟨v.currency, .left⟩ ∧ value a.quantity = -value v.amount ∧
        p.balance = none ∧ UnknownAccount (.ofPosting p) := by
  obtain ⟨dt, d, before, after, w, pairs, hdt, _, _, _, hts, hlen, hps⟩ := h
  refine ⟨fun v hv' => ⟨dt, hdt v hv', hts.date.symm⟩, ?_, ?_⟩
  · intro p hp
    rw [hts.postings] at hp
    obtain ⟨y, hy, hp⟩ := List.mem_flatMap.1 hp
    obtain ⟨k, hk, rfl⟩ := List.getElem_of_mem hy
    have hkg : k < g.length := by omega
    have hpair := hps k hkg hk
    refine ⟨g[k], List.getElem_mem hkg, ?_⟩
    simp only [List.mem_cons, List.not_mem_nil, or_false] at hp
    rcases hp with rfl | rfl
    · exact ⟨_, hpair.self.amount, rfl, Or.inl rfl⟩
    · exact ⟨_, hpair.peer.amount, rfl, Or.inr (value_negateAmount _)⟩
  · intro v hv'
    obtain ⟨k, hk, rfl⟩ := List.getElem_of_mem hv'
    have hkp : k < pairs.length := by omega
    have hpair := hps k hk hkp
    have htags := pair_tags hpair hg (hv _ hv') unknownTag
    have hm : ∀ x, x = pairs[k].1 ∨ x = pairs[k].2 → x ∈ t.postings := by
      intro x hx
      rw [hts.postings]
      exact List.mem_flatMap.2 ⟨pairs[k], List.getElem_mem hkp, by simpa using hx⟩
    refine ⟨⟨_, hm _ (.inl rfl), _, hpair.self.amount, rfl, rfl, htags.1.2 ?_⟩, _, hm _ (.inr rfl), _, hpair.peer.amount, rfl,
      value_negateAmount _, hpair.peer.balance, htags.2.2 ?_⟩
    · exact Or.inr (Or.inr (by unfold unknownTag; simp))
    · exact Or.inr (by unfold unknownTag; simp)

theorem amounts_soft {p q : Posting} {a b : Amount} (hp : p.amount = some ⟨a, none, none⟩) (hq : q.amount = some ⟨b, none, none⟩)
    (hu : UnknownAccount (.ofPosting p)) (hb : q.balance = none) (hc : a.commodity = b.commodity) (hv : value a.quantity = value b.quantity) :
    SoftMatch (.ofPosting p) (.ofPosting q) := by
  refine ⟨Or.inl hu, ?_, ?_⟩
  · show OptRel SamePostingAmount p.amount q.amount
    rw [hp, hq]
    exact ⟨⟨hv, hc⟩, trivial, trivial⟩
  · show BalancesAgree p.balance q.balance
    rw [hb]
    cases p.balance <;> trivial

/-- Two transactions have postings that match softly exactly if they have records about the same sum. -/
theorem groups_soft {L : ImportLib} {tz tz' : TzAbbr.DB} {ns : Str} {legacy : Bool} {g g' : List RawRecord} {t u : Transaction}
    (h : GroupSays L tz ns legacy g t) (h' : GroupSays L tz' ns legacy g' u) (hg : GoodNamespace ns)
    (hv : ∀ v ∈ g, (∀ n, v.name = some n → '\n' ∉ n) ∧ '\n' ∉ v.type_ ∧ ∀ n, v.receiptId = some n → '\n' ∉ n)
    (hv' : ∀ v ∈ g', (∀ n, v.name = some n → '\n' ∉ n) ∧ '\n' ∉ v.type_ ∧ ∀ n, v.receiptId = some n → '\n' ∉ n) :
    (∃ p ∈ (TransactionPostings.ofTransaction t).posts, ∃ q ∈ (TransactionPostings.ofTransaction u).posts, SoftMatch p q) ↔
      ∃ v ∈ g, ∃ w ∈ g', SameMoney v w := by
  obtain ⟨_, h1, h2⟩ := group_postings h hg hv
  obtain ⟨_, h1', h2'⟩ := group_postings h' hg hv'
  constructor
  · rintro ⟨x, hx, y, hy, hm⟩
    obtain ⟨p, hp, rfl⟩ := List.mem_map.1 hx
    obtain ⟨q, hq, rfl⟩ := List.mem_map.1 hy
    obtain ⟨v, hvg, a, ha, ca, va⟩ := h1 p hp
    obtain ⟨w, hwg, b, hb, cb, vb⟩ := h1' q hq
    have : OptRel SamePostingAmount p.amount q.amount := hm.2.1
    rw [ha, hb] at this
    obtain ⟨e1, e2⟩ := this.1
    simp only at e1 e2
    rw [ca, cb] at e2
    refine ⟨v, hvg, w, hwg, (Commodity.mk.inj e2).1, ?_⟩
    rcases va with va | va <;> rcases vb with vb | vb <;> rw [va, vb] at e1
    · exact Or.inl e1
    · exact Or.inr e1
    · right; rw [← e1, neg_neg]
    · exact Or.inl (neg_inj.1 e1)
  · rintro ⟨v, hvg, w, hwg, hcur, he⟩
    obtain ⟨⟨p, hp, a, ha, ca, va, ua⟩, p', hp', a', ha', ca', va', ba', ua'⟩ := h2 v hvg
    obtain ⟨⟨q, hq, b, hb, cb, vb, ub⟩, q', hq', b', hb', cb', vb', bb', ub'⟩ := h2' w hwg
    rcases he with he | he
    · exact ⟨_, List.mem_map.2 ⟨p', hp', rfl⟩, _, List.mem_map.2 ⟨q', hq', rfl⟩,
        amounts_soft ha' hb' ua' bb' (by rw [ca', cb', hcur]) (by rw [va', vb', he])⟩
    · exact ⟨_, List.mem_map.2 ⟨p, hp, rfl⟩, _, List.mem_map.2 ⟨q', hq', rfl⟩,
        amounts_soft ha hb' ua bb' (by rw [ca, cb', hcur]) (by rw [va, vb', he])⟩

theorem onDay_unique {L : ImportLib} {tz : TzAbbr.DB} {v : RawRecord} {d d' : Date} (h : OnDay L tz v d) (h' : OnDay L tz v d') : d = d' := by
  obtain ⟨dt, e, rfl⟩ := h
  obtain ⟨dt', e', rfl⟩ := h'
  rw [Option.some.inj (e.symm.trans e')]

/-- The transactions of a file and its records. -/
theorem transactions_records {L : ImportLib} {ns : Str} {legacy : Bool} {headers : Row} {rows : List (Option Row)}
    {tzRecords : List (Option TzAbbr.Record)} {tz : TzAbbr.DB} {imp : Import} {vs : List RawRecord}
    (h : getTransactions L ns legacy (some headers) rows tzRecords = .ok imp) (htz : TzAbbr.fromRecords tzRecords = .ok tz)
    (hvs : Rows L headers rows vs) :
    (∀ t ∈ imp.transactions, GoodNamespace ns ∧ ∃ g, (∀ v ∈ g, v ∈ vs) ∧ GroupSays L tz ns legacy g t) ∧
    ∀ v ∈ vs, ∃ t ∈ imp.transactions, GoodNamespace ns ∧ ∃ g, v ∈ g ∧ (∀ v ∈ g, v ∈ vs) ∧ GroupSays L tz ns legacy g t := by
  obtain ⟨_, vs', gs, h1, h2, h3⟩ := C50_groups h htz
  obtain rfl := rows_unique hvs h1
  have hmem : ∀ {g : List RawRecord}, g ∈ gs → ∀ v ∈ g, v ∈ vs := fun hg v hv => by
    rw [← h2.flatten]; exact List.mem_flatten.2 ⟨_, hg, hv⟩
  constructor
  · intro t ht
    obtain ⟨g, hg, hs⟩ := forall₂_right h3 ht
    exact ⟨(from_group h ht).1, g, hmem hg, hs⟩
  · intro v hv
    rw [← h2.flatten] at hv
    obtain ⟨g, hg, hvg⟩ := List.mem_flatten.1 hv
    obtain ⟨t, ht, hs⟩ := forall₂_left h3 hg
    exact ⟨t, ht, (from_group h ht).1, g, hvg, hmem hg, hs⟩

/-- C65, PayPal: merging two downloads that overlap, cut between groups of records of the same moment, has the effect of merging one
download of the whole time exactly if no record that only the second one has shares day, currency and sum, in or out, with a record of the
first; whatever else is in the journal, as long as nothing in it is like what is downloaded. -/
theorem C65_paypal {L : ImportLib} {ns : Str} {legacy : Bool} {headers : Row} {A B C : List (Option Row)}
    {tzRecords : List (Option TzAbbr.Record)} {tz : TzAbbr.DB} {imp : Import} {as bs cs : List RawRecord}
    (h : getTransactions L ns legacy (some headers) (A ++ B ++ C) tzRecords = .ok imp) (htz : TzAbbr.fromRecords tzRecords = .ok tz)
    (hA : Rows L headers A as) (hB : Rows L headers B bs) (hC : Rows L headers C cs)
    (hAB : CleanCut tz as (bs ++ cs)) (hBC : CleanCut tz (as ++ bs) cs) (hp : NoNewlines (A ++ B ++ C))
    (calls : History) (h₀ h₁ h₂ : HashOrder) (m' : Merger) (hm : (run calls).merge h₀ imp.postings = (.ok [], m'))
    (hnew : ∀ t ∈ imp.postings, ∀ p ∈ t.posts, ∀ r ∈ (ofHistory (inputs calls)).recs,
      ¬ SharesFp r.post p ∧ ¬ (r.date = dateOf t ∧ SoftMatch r.post p)) :
    ∃ imp₁ imp₂, getTransactions L ns legacy (some headers) (A ++ B) tzRecords = .ok imp₁ ∧
      getTransactions L ns legacy (some headers) (B ++ C) tzRecords = .ok imp₂ ∧
      ((run calls).merge h₁ imp₁.postings).1 = .ok [] ∧
      (((run calls).merge h₁ imp₁.postings).2.merge h₂ imp₂.postings = (.ok [], m') ↔
        ∀ v ∈ as ++ bs, ∀ w ∈ cs, ∀ d, OnDay L tz v d → OnDay L tz w d → ¬ SameMoney v w) := by
  obtain ⟨a, b, c, e, h1, h2⟩ := C65_paypal_parts h htz hA hB hC hAB hBC
  -- the rest alone
  have h3 : getTransactions L ns legacy (some headers) C tzRecords = .ok ⟨ns, c⟩ := by
    obtain ⟨_, _, e1, e2, _, h'⟩ := (getTransactions_iff ..).1 h
    cases e1
    rw [htz] at e2
    cases e2
    obtain ⟨ab, c', e', g1, g2⟩ := (read_append (List.rel_append hA hB) hC hBC).1 h'
    obtain ⟨_, _, e1, e2, _, g3⟩ := (getTransactions_iff ..).1 h1
    cases e1
    rw [htz] at e2
    cases e2
    rw [g1] at g3
    cases g3
    rw [e] at e'
    obtain rfl := List.append_cancel_left e'
    exact (getTransactions_iff ..).2 ⟨_, _, rfl, htz, rfl, g2⟩
  refine ⟨_, _, h1, h2, ?_⟩
  have key := C65_exact calls h₀ h₁ h₂ (a.map .ofTransaction) (b.map .ofTransaction) (c.map .ofTransaction) m'
  unfold Import.postings at hm hnew ⊢
  rw [e] at hm hnew
  simp only [List.map_append] at hm hnew ⊢
  obtain ⟨k1, k2⟩ := key hm hnew
  refine ⟨k1, k2.trans ?_⟩
  have hrAB := transactions_records h1 htz (List.rel_append hA hB)
  have hrC := transactions_records h3 htz hC
  have plainAB : ∀ v ∈ as ++ bs, (∀ n, v.name = some n → '\n' ∉ n) ∧ '\n' ∉ v.type_ ∧ ∀ n, v.receiptId = some n → '\n' ∉ n :=
    fun v hv => rows_plain (List.rel_append hA hB) (fun row hr => hp row (List.mem_append_left _ hr)) hv
  have plainC : ∀ v ∈ cs, (∀ n, v.name = some n → '\n' ∉ n) ∧ '\n' ∉ v.type_ ∧ ∀ n, v.receiptId = some n → '\n' ∉ n :=
    fun v hv => rows_plain hC (fun row hr => hp row (List.mem_append_right _ hr)) hv
  rw [← List.map_append]
  constructor
  · intro hs v hv w hw d hd hd' hsame
    obtain ⟨t, ht, hg, g, hvg, hgm, hgs⟩ := hrAB.2 v hv
    obtain ⟨u, hu, _, g', hwg, hgm', hgs'⟩ := hrC.2 w hw
    have e1 := onDay_unique hd ((group_postings hgs hg fun v hv => plainAB v (hgm v hv)).1 v hvg)
    have e2 := onDay_unique hd' ((group_postings hgs' hg fun v hv => plainC v (hgm' v hv)).1 w hwg)
    obtain ⟨p, hp', q, hq', hm'⟩ := (groups_soft hgs hgs' hg (fun v hv => plainAB v (hgm v hv)) fun v hv => plainC v (hgm' v hv)).2
      ⟨v, hvg, w, hwg, hsame⟩
    exact hs _ (List.mem_map.2 ⟨t, ht, rfl⟩) _ (List.mem_map.2 ⟨u, hu, rfl⟩) (e1.symm.trans e2) p hp' q hq' hm'
  · intro hs t ht u hu he p hp' q hq' hm'
    obtain ⟨t, ht₁, rfl⟩ := List.mem_map.1 ht
    obtain ⟨u, hu₁, rfl⟩ := List.mem_map.1 hu
    obtain ⟨hg, g, hgm, hgs⟩ := hrAB.1 t ht₁
    obtain ⟨_, g', hgm', hgs'⟩ := hrC.1 u hu₁
    obtain ⟨v, hvg, w, hwg, hsame⟩ := (groups_soft hgs hgs' hg (fun v hv => plainAB v (hgm v hv)) fun v hv => plainC v (hgm' v hv)).1
      ⟨p, hp', q, hq', hm'⟩
    have he : t.date = u.date := he
    exact hs v (hgm v hvg) w (hgm' w hwg) t.date ((group_postings hgs hg fun v hv => plainAB v (hgm v hv)).1 v hvg)
      (he ▸ (group_postings hgs' hg fun v hv => plainC v (hgm' v hv)).1 w hwg) hsame

/-! ## Examples -/

/-- The row of one more payment, at noon of the second day or a little later. -/
def Ex.later (amount : String) : List (Option Row) :=
  Ex.rows [["02/01/2019", "13:00:00", "GMT", "Shop", "Payment", "Completed", "USD", amount, "", "0.00"]]

set_option maxRecDepth 100000 in
/-- The file of the test and one more payment, downloaded in two parts that have the second group in common: all conditions are met, for a
journal that has other things. If the payment is of the sum of a record of its day, the two downloads do not merge like one; if it is of
another sum they do. -/
example : ∀ amount ∈ ["7.00", "-13.37"], let A := Ex.paypalRows.take 4
    let B := Ex.paypalRows.drop 4
    let C := Ex.later amount
    ∃ imp, getTransactions Ex.plainLib "test".toList true (some Ex.paypalHeaders) (A ++ B ++ C) Ex.paypalTz = .ok imp ∧
      Rows Ex.plainLib Ex.paypalHeaders A (Ex.recordsOf A) ∧ Rows Ex.plainLib Ex.paypalHeaders B (Ex.recordsOf B) ∧
      Rows Ex.plainLib Ex.paypalHeaders C (Ex.recordsOf C) ∧
      CleanCut Ex.zones (Ex.recordsOf A) (Ex.recordsOf B ++ Ex.recordsOf C) ∧ CleanCut Ex.zones (Ex.recordsOf A ++ Ex.recordsOf B) (Ex.recordsOf C) ∧
      NoNewlines (A ++ B ++ C) ∧ (∃ m', (run Ex.hist).merge HashOrder.rev imp.postings = (.ok [], m')) ∧
      (∀ t ∈ imp.postings, ∀ p ∈ t.posts, ∀ r ∈ (ofHistory (inputs Ex.hist)).recs,
        ¬ SharesFp r.post p ∧ ¬ (r.date = dateOf t ∧ SoftMatch r.post p)) ∧
      ((∀ v ∈ Ex.recordsOf A ++ Ex.recordsOf B, ∀ w ∈ Ex.recordsOf C, ∀ d, OnDay Ex.plainLib Ex.zones v d → OnDay Ex.plainLib Ex.zones w d →
        ¬ SameMoney v w) ↔ amount = "7.00") := by
  intro amount ham A B C
  rw [Ex.ofHistory_eval]
  have hcut : ∀ {xs ys : List RawRecord}, (∀ v ∈ xs.getLast?, ∀ w ∈ ys.head?, when Ex.zones v ≠ when Ex.zones w) → CleanCut Ex.zones xs ys :=
    fun h v w hv hw => h v hv w hw
  have hday : ∀ {xs ys : List RawRecord}, (∀ v ∈ xs, ∀ w ∈ ys, ∀ d, OnDay Ex.plainLib Ex.zones v d → OnDay Ex.plainLib Ex.zones w d →
      ¬ SameMoney v w) ↔ ∀ v ∈ xs, ∀ w ∈ ys, ∀ dt ∈ when Ex.zones v, ∀ dt' ∈ when Ex.zones w, Ex.plainLib.localDate dt = Ex.plainLib.localDate dt' →
        ¬ (v.currency = w.currency ∧ (value v.amount = value w.amount ∨ value v.amount = -value w.amount)) := by
    intro xs ys
    constructor
    · intro h v hv w hw dt hdt dt' hdt' he
      exact h v hv w hw _ ⟨dt, hdt, rfl⟩ ⟨dt', hdt', he.symm⟩
    · rintro h v hv w hw d ⟨dt, hdt, rfl⟩ ⟨dt', hdt', he⟩
      exact h v hv w hw dt hdt dt' hdt' he.symm
  have key : ∀ amount ∈ ["7.00", "-13.37"], (match getTransactions Ex.plainLib "test".toList true (some Ex.paypalHeaders)
      (Ex.paypalRows.take 4 ++ Ex.paypalRows.drop 4 ++ Ex.later amount) Ex.paypalTz with
    | .ok imp => decide (((run Ex.hist).merge HashOrder.rev imp.postings).1 = .ok [] ∧
        ∀ t ∈ imp.postings, ∀ p ∈ t.posts, ∀ r ∈ (Ex.bookEval (inputs Ex.hist)).recs,
          ¬ SharesFp r.post p ∧ ¬ (r.date = dateOf t ∧ SoftMatch r.post p))
    | .error _ => false) = true := by decide +kernel
  have hrows : ∀ amount ∈ ["7.00", "-13.37"], ∀ X ∈ [Ex.paypalRows.take 4, Ex.paypalRows.drop 4, Ex.later amount],
      X.map (fun o => o.bind (RawRecord.ofRow Ex.plainLib Ex.paypalHeaders)) = (Ex.recordsOf X).map some := by decide +kernel
  have hc : ∀ amount ∈ ["7.00", "-13.37"], (∀ v ∈ (Ex.recordsOf (Ex.paypalRows.take 4)).getLast?,
        ∀ w ∈ (Ex.recordsOf (Ex.paypalRows.drop 4) ++ Ex.recordsOf (Ex.later amount)).head?, when Ex.zones v ≠ when Ex.zones w) ∧
      ∀ v ∈ (Ex.recordsOf (Ex.paypalRows.take 4) ++ Ex.recordsOf (Ex.paypalRows.drop 4)).getLast?,
        ∀ w ∈ (Ex.recordsOf (Ex.later amount)).head?, when Ex.zones v ≠ when Ex.zones w := by decide +kernel
  have hn : ∀ amount ∈ ["7.00", "-13.37"], ∀ o ∈ Ex.paypalRows.take 4 ++ Ex.paypalRows.drop 4 ++ Ex.later amount, ∀ row ∈ o, ∀ f ∈ row, '\n' ∉ f := by
    decide +kernel
  have hd : ∀ amount ∈ ["7.00", "-13.37"], (∀ v ∈ Ex.recordsOf (Ex.paypalRows.take 4) ++ Ex.recordsOf (Ex.paypalRows.drop 4),
      ∀ w ∈ Ex.recordsOf (Ex.later amount), ∀ dt ∈ when Ex.zones v, ∀ dt' ∈ when Ex.zones w, Ex.plainLib.localDate dt = Ex.plainLib.localDate dt' →
        ¬ (v.currency = w.currency ∧ (value v.amount = value w.amount ∨ value v.amount = -value w.amount))) ↔ amount = "7.00" := by decide +kernel
  have key := key amount ham
  split at key
  · rename_i imp e
    obtain ⟨k1, k2⟩ := of_decide_eq_true key
    refine ⟨imp, e, rows_of (hrows amount ham _ (.head _)), rows_of (hrows amount ham _ (.tail _ (.head _))),
      rows_of (hrows amount ham _ (.tail _ (.tail _ (.head _)))),
      hcut (hc amount ham).1, hcut (hc amount ham).2, fun row hr => hn amount ham _ hr row rfl, ⟨_, Prod.ext k1 rfl⟩, k2,
      hday.trans (hd amount ham)⟩
  · cases key

end PaypalCsv
end Verif
