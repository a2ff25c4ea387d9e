import Verif.Props.Edits
import Verif.Props.NewRules
import Verif.Props.OverlapPaypal

/-!
# C108: payments that were downloaded again with another status

The status of a PayPal payment is not hashed, "as this may change on a future import" (/repo/src/importers/paypal_csv.rs:193-203). Here is what
this achieves: a file in which the payments have other statuses or receipts is recognised, and the journal follows it.
-/

namespace Verif
open Spec Spec.Book

/-! ### Files with the same fingerprints -/

/-- The transactions are in a journal by their fingerprints; so are those of a file with the same fingerprints. -/
theorem keeps_marks {js g g' : List TransactionPostings} (hj : InOrder js) (hg : InOrder g ∧ Keeps g js)
    (h : List.Forall₂ (fun t u => List.Forall₂ SameMarks t.posts u.posts) g g') : InOrder g' ∧ Keeps g' js := by
  have hl := lists_inOrder hj
  have hw := hl.reached.wf
  have := (settled_iff hw).1 (((settled_iff hw).2 ⟨hg.1, hl.entries.symm ▸ hg.2⟩).marks h)
  rwa [hl.entries] at this

/-- **C108: the same payments, told differently.** Files were merged into a journal with nothing left over, and the user may have edited the
journal since, in any way that keeps fingerprints together and apart. A further file has the same fingerprints as one of those files, posting for
posting; all else may be different. Merging it succeeds, hands back nothing, and changes exactly the postings that have its fingerprints. -/
theorem C108_again (calls : History) (j : List TransactionPostings) (us : List (List TransactionPostings)) (h : oneRun calls = some (j, us))
    (hu : us.flatten = []) (g g' : List TransactionPostings) (hg : g ∈ inputs calls)
    (hm : List.Forall₂ (fun t u => List.Forall₂ SameMarks t.posts u.posts) g g')
    (js : List TransactionPostings) (hj : InOrder js) (hk : Keeps j js) (o o' : HashOrder) :
    ∃ us', oneRun [(o, js), (o', g')] = some ((broughtInto js g').mergeSort fun a b => (compare (dateOf a) (dateOf b)).isLE, us') ∧
      us'.flatten = [] ∧
      (∀ q ∈ allPosts js, ∀ p ∈ allPosts g', SharesFp q p → broughtIn g' q = absorb q p) ∧
      (∀ q ∈ allPosts js, (∀ p ∈ allPosts g', ¬ SharesFp q p) → broughtIn g' q = q) ∧
      ∀ p ∈ allPosts g', ∃ q ∈ allPosts js, SharesFp q p := by
  obtain ⟨h1, h2⟩ := C101_keeps calls j us h hu g hg
  have h3 := keeps_marks hj ⟨h1, h2.trans h1.marked hk⟩ hm
  obtain ⟨us', h4, h5⟩ := C101_found o js [(o', g')] hj (by
    intro x hx
    obtain rfl := List.mem_singleton.1 hx
    exact h3)
  refine ⟨us', h4, h5, fun q hq p hp hs => broughtIn_eq h3.1 h3.2 hq hp hs, fun q _ hn => broughtIn_other hn, fun p hp => ?_⟩
  obtain ⟨t, ht, hpt⟩ := mem_allPosts.1 hp
  obtain ⟨u, hu, hq⟩ := h3.2.together t ht
  obtain ⟨q, hqu, hf⟩ := hq p hpt
  obtain ⟨f, hfp⟩ := List.exists_mem_of_ne_nil _ (h3.1.marked p hp)
  exact ⟨q, mem_allPosts.2 ⟨u, hu, hqu⟩, f, hf f hfp, hfp⟩

/-- Fingerprints stay. -/
theorem broughtIn_fps {g : List TransactionPostings} {q : PostingInternal} {f : Str} (hf : f ∈ fps q) : f ∈ fps (broughtIn g q) := by
  unfold broughtIn
  generalize (allPosts g).filter _ = ps
  induction ps generalizing q with
  | nil => exact hf
  | cons p ps ih =>
    rw [List.foldl_cons]
    exact ih (mem_fps_absorb.2 (.inl hf))

namespace PaypalCsv
open NationwideCsv

/-! ### Groups of records that agree on all but status and receipt -/

theorem alike_fingerprints (L : ImportLib) (ns : Str) {v w : RawRecord} (h : Alike v w) (i : Nat) :
    fingerprints L ns v i = fingerprints L ns w i := by
  obtain ⟨h1, h2, h3, h4, h5, h6, h7, h8⟩ := h
  unfold fingerprints RawRecord.fill RawRecord.money
  rw [h1, h2, h3, h4, h5, h6, h7, h8]

theorem alike_when {tz : TzAbbr.DB} {v w : RawRecord} (h : Alike v w) : when tz v = when tz w := by
  unfold when
  rw [h.1, h.2.1, h.2.2.1]

theorem alike_money {v w : RawRecord} (h : Alike v w) : v.money v.amount = w.money w.amount ∧ v.money v.balance = w.money w.balance := by
  obtain ⟨h1, h2, h3, h4, h5, h6, h7, h8⟩ := h
  unfold RawRecord.money
  rw [h6, h7, h8]
  exact ⟨rfl, rfl⟩

/-- A list is divided as another one is. -/
theorem divide {α β : Type} {R : α → β → Prop} {gs : List (List α)} {l : List β} (h : List.Forall₂ R gs.flatten l) :
    ∃ gs', gs'.flatten = l ∧ List.Forall₂ (List.Forall₂ R) gs gs' := by
  induction gs generalizing l with
  | nil => cases h; exact ⟨[], rfl, .nil⟩
  | cons g gs ih =>
    rw [List.flatten_cons] at h
    obtain ⟨l1, l2, h1, h2, rfl⟩ : ∃ l1 l2, List.Forall₂ R g l1 ∧ List.Forall₂ R gs.flatten l2 ∧ l = l1 ++ l2 :=
      ⟨l.take g.length, l.drop g.length, (List.forall₂_take_append _ _ _ h.flip).flip, (List.forall₂_drop_append _ _ _ h.flip).flip,
        (List.take_append_drop ..).symm⟩
    obtain ⟨gs', rfl, h3⟩ := ih h2
    exact ⟨l1 :: gs', rfl, .cons h1 h3⟩

theorem forall₂_mem_right {α β : Type} {R : α → β → Prop} {l : List α} {l' : List β} (h : List.Forall₂ R l l') {b : β} (hb : b ∈ l') :
    ∃ a ∈ l, R a b := by
  obtain ⟨i, hi⟩ := List.mem_iff_getElem?.1 hb
  obtain ⟨a, ha, hr⟩ := forall₂_getElem? h hi
  exact ⟨a, List.mem_of_getElem? ha, hr⟩

/-- The runs are the same if the keys are. -/
theorem runs_alike {α κ : Type} {key : α → κ} {R : α → α → Prop} (hR : ∀ x y, R x y → key x = key y) {l l' : List α} {gs : List (List α)}
    (h : Runs key l gs) (hl : List.Forall₂ R l l') : ∃ gs', Runs key l' gs' ∧ List.Forall₂ (List.Forall₂ R) gs gs' := by
  rw [← h.flatten] at hl
  obtain ⟨gs', rfl, h2⟩ := divide hl
  have back : ∀ g g' : List α, List.Forall₂ R g g' → ∀ y ∈ g', ∃ x ∈ g, key x = key y := fun g g' hg y hy => by
    obtain ⟨x, hx, hr⟩ := forall₂_mem_right hg hy
    exact ⟨x, hx, hR x y hr⟩
  refine ⟨gs', ⟨rfl, ?_, ?_, ?_⟩, h2⟩
  · intro g' hg' e
    subst e
    obtain ⟨g, hg, hr⟩ := forall₂_mem_right h2 hg'
    cases hr
    exact h.nonempty _ hg rfl
  · intro g' hg' x hx y hy
    obtain ⟨g, hg, hr⟩ := forall₂_mem_right h2 hg'
    obtain ⟨x', hx', e⟩ := back _ _ hr x hx
    obtain ⟨y', hy', e'⟩ := back _ _ hr y hy
    rw [← e, ← e']
    exact h.same g hg x' hx' y' hy'
  · intro i a' b' ha hb x hx y hy
    obtain ⟨a, ha', hra⟩ := forall₂_getElem? h2 ha
    obtain ⟨b, hb', hrb⟩ := forall₂_getElem? h2 hb
    obtain ⟨x', hx', e⟩ := back _ _ hra x hx
    obtain ⟨y', hy', e'⟩ := back _ _ hrb y hy
    rw [← e, ← e']
    exact h.differ i a b ha' hb' x' hx' y' hy'

/-! ### What is claimed -/

/-- Postings of two imports that are the same but for the status and the values of the comment. -/
structure SamePayment (p p' : PostingInternal) : Prop where
  account : p'.raw.account = p.raw.account
  reality : p'.raw.reality = p.raw.reality
  amount : p'.raw.amount = p.raw.amount
  balance : p'.raw.balance = p.raw.balance
  tags : ∀ t, t ∈ tagsOf p' ↔ t ∈ tagsOf p

/-! ### Imports -/

theorem pair_same {L : ImportLib} {ns : Str} {legacy : Bool} {v w : RawRecord} {i : Nat} {p q p' q' : Posting} (hal : Alike v w)
    (h : PairSays L ns legacy v i p q) (h' : PairSays L ns legacy w i p' q') (hg : GoodNamespace ns)
    (hv : (∀ n, v.name = some n → '\n' ∉ n) ∧ '\n' ∉ v.type_ ∧ ∀ n, v.receiptId = some n → '\n' ∉ n)
    (hw : (∀ n, w.name = some n → '\n' ∉ n) ∧ '\n' ∉ w.type_ ∧ ∀ n, w.receiptId = some n → '\n' ∉ n) :
    SamePayment (PostingInternal.ofPosting p) (PostingInternal.ofPosting p') ∧
    SamePayment (PostingInternal.ofPosting q) (PostingInternal.ofPosting q') := by
  have e := alike_fingerprints L ns hal i
  obtain ⟨m1, m2⟩ := alike_money hal
  refine ⟨⟨?_, ?_, ?_, ?_, fun t => ?_⟩, ⟨?_, ?_, ?_, ?_, fun t => ?_⟩⟩
  · show p'.account = p.account
    rw [h'.self.account, h.self.account]
  · show p'.reality = p.reality
    rw [h'.self.reality, h.self.reality]
  · show p'.amount = p.amount
    rw [h'.self.amount, h.self.amount, m1]
  · show p'.balance = p.balance
    rw [h'.self.balance, h.self.balance, m2]
  · have a := (pair_tags h hg hv t).1
    have b := (pair_tags h' hg hw t).1
    rw [e] at a
    exact b.trans a.symm
  · show q'.account = q.account
    rw [h'.peer.account, h.peer.account, m1]
  · show q'.reality = q.reality
    rw [h'.peer.reality, h.peer.reality]
  · show q'.amount = q.amount
    rw [h'.peer.amount, h.peer.amount, m1]
  · show q'.balance = q.balance
    rw [h'.peer.balance, h.peer.balance]
  · have a := (pair_tags h hg hv t).2
    have b := (pair_tags h' hg hw t).2
    rw [e] at a
    exact b.trans a.symm

theorem first_name {g before after : List RawRecord} {v : RawRecord} {d : Str} (hg : g = before ++ v :: after)
    (hb : ∀ w ∈ before, w.name = none) (hv : v.name = some d) : (g.map (·.name)).findSome? id = some d := by
  subst hg
  induction before with
  | nil => rw [List.nil_append, List.map_cons, List.findSome?_cons, hv]; rfl
  | cons w before ih =>
    rw [List.cons_append, List.map_cons, List.findSome?_cons, hb w List.mem_cons_self]
    exact ih fun w hw => hb w (List.mem_cons_of_mem _ hw)

theorem alike_names {g g' : List RawRecord} (h : List.Forall₂ Alike g g') : g.map (·.name) = g'.map (·.name) := by
  induction h with
  | nil => rfl
  | cons h _ ih => rw [List.map_cons, List.map_cons, ih, h.2.2.2.1]

theorem forall₂_pairs {Rel : PostingInternal → PostingInternal → Prop} {ps ps' : List (Posting × Posting)} (hl : ps.length = ps'.length)
    (h : ∀ (i : Nat) (hi : i < ps.length) (hi' : i < ps'.length),
      Rel (PostingInternal.ofPosting ps[i].1) (PostingInternal.ofPosting ps'[i].1) ∧
      Rel (PostingInternal.ofPosting ps[i].2) (PostingInternal.ofPosting ps'[i].2)) :
    List.Forall₂ Rel ((ps.flatMap fun x => [x.1, x.2]).map PostingInternal.ofPosting)
      ((ps'.flatMap fun x => [x.1, x.2]).map PostingInternal.ofPosting) := by
  induction ps generalizing ps' with
  | nil =>
    cases ps' with
    | nil => exact .nil
    | cons y ys => cases hl
  | cons x xs ih =>
    cases ps' with
    | nil => cases hl
    | cons y ys =>
      have h0 := h 0 (by simp) (by simp)
      refine .cons h0.1 (.cons h0.2 (ih (by simpa using hl) fun i hi hi' => ?_))
      exact h (i + 1) (by simpa using hi) (by simpa using hi')

theorem group_same {L : ImportLib} {tz : TzAbbr.DB} {ns : Str} {legacy : Bool} {g g' : List RawRecord} {t t' : Transaction}
    (h : GroupSays L tz ns legacy g t) (h' : GroupSays L tz ns legacy g' t') (hne : g ≠ []) (hal : List.Forall₂ Alike g g') (hg : GoodNamespace ns)
    (hv : ∀ v ∈ g, (∀ n, v.name = some n → '\n' ∉ n) ∧ '\n' ∉ v.type_ ∧ ∀ n, v.receiptId = some n → '\n' ∉ n)
    (hw : ∀ v ∈ g', (∀ n, v.name = some n → '\n' ∉ n) ∧ '\n' ∉ v.type_ ∧ ∀ n, v.receiptId = some n → '\n' ∉ n) :
    (TransactionPostings.ofTransaction t').trn = (TransactionPostings.ofTransaction t).trn ∧
    List.Forall₂ SamePayment (TransactionPostings.ofTransaction t).posts (TransactionPostings.ofTransaction t').posts := by
  obtain ⟨dt, d, before, after, v, pairs, e1, e2, e3, e4, hts, hlen, hps⟩ := h
  obtain ⟨dt', d', before', after', v', pairs', e1', e2', e3', e4', hts', hlen', hps'⟩ := h'
  have hd : d = d' := by
    have a := first_name e2 e3 e4
    rw [alike_names hal, first_name e2' e3' e4'] at a
    exact (Option.some.inj a).symm
  have hdt : dt = dt' := by
    cases hal with
    | nil => exact absurd rfl hne
    | cons hx _ =>
      have a := e1 _ List.mem_cons_self
      rw [alike_when hx, e1' _ List.mem_cons_self] at a
      exact (Option.some.inj a).symm
  subst hd
  subst hdt
  constructor
  · show TransactionInternal.ofTransaction { t' with postings := [] } = TransactionInternal.ofTransaction { t with postings := [] }
    have : ({ t' with postings := [] } : Transaction) = { t with postings := [] } := by
      have a1 := hts.date.trans hts'.date.symm
      have a2 := hts.effective.trans hts'.effective.symm
      have a3 := hts.description.trans hts'.description.symm
      have a4 := hts.status.trans hts'.status.symm
      have a5 := hts.code.trans hts'.code.symm
      have a6 := hts.comment.trans hts'.comment.symm
      clear hts hts'
      cases t
      cases t'
      simp only at a1 a2 a3 a4 a5 a6
      subst a1 a2 a3 a4 a5 a6
      rfl
    rw [this]
  · show List.Forall₂ SamePayment (t.postings.map _) (t'.postings.map _)
    rw [hts.postings, hts'.postings]
    have hll := hal.length_eq
    refine forall₂_pairs (by omega) fun i hi hi' => ?_
    have hig : i < g.length := by omega
    have hig' : i < g'.length := by omega
    exact pair_same ((List.forall₂_iff_get.1 hal).2 i hig hig') (hps i hig hi) (hps' i hig' hi') hg (hv _ (List.getElem_mem hig))
      (hw _ (List.getElem_mem hig'))

/-- **C108: importing again.** Two downloads have the same payments, of which only statuses and receipts may differ. If the one is imported, so is
the other, with the same transactions in the same order: dates and descriptions, accounts, amounts, balances and tags are the same. -/
theorem C108_import {L : ImportLib} {ns : Str} {legacy : Bool} {headers : Row} {rows rows' : List (Option Row)}
    {tzRecords : List (Option TzAbbr.Record)} {imp : Import} {vs vs' : List RawRecord}
    (h : getTransactions L ns legacy (some headers) rows tzRecords = .ok imp) (hvs : Rows L headers rows vs) (hvs' : Rows L headers rows' vs')
    (hal : List.Forall₂ Alike vs vs') (hp : NoNewlines rows) (hp' : NoNewlines rows') :
    ∃ imp', getTransactions L ns legacy (some headers) rows' tzRecords = .ok imp' ∧
      List.Forall₂ (fun t t' => t'.trn = t.trn ∧ List.Forall₂ SamePayment t.posts t'.posts) imp.postings imp'.postings := by
  obtain ⟨hs, tz, us, gs, a1, a2, a3, a4, a5, a6, a7⟩ := (C50_accepted L ns legacy (some headers) rows tzRecords).1 ⟨imp, h⟩
  obtain rfl := Option.some.inj a1
  obtain rfl := rows_unique hvs a3
  obtain ⟨gs', b1, b2⟩ := runs_alike (R := Alike) (fun x y hxy => alike_when hxy) a6 hal
  have hlen : rows.length = rows'.length := by rw [hvs.length_eq, hvs'.length_eq, hal.length_eq]
  obtain ⟨imp', h'⟩ := (C50_accepted L ns legacy (some headers) rows' tzRecords).2
    ⟨headers, tz, vs', gs', rfl, a2, hvs', a4.imp (fun e => by
        subst e
        exact List.length_eq_zero_iff.1 hlen.symm) id, (by
      intro w hw
      obtain ⟨v, hv, hr⟩ := forall₂_mem_right hal hw
      rw [← alike_when hr]
      exact a5 v hv), b1, (by
      intro g' hg'
      obtain ⟨g, hg, hr⟩ := forall₂_mem_right b2 hg'
      obtain ⟨v, hv, hn⟩ := a7 g hg
      obtain ⟨i, hi, rfl⟩ := List.getElem_of_mem hv
      have hi' : i < g'.length := by rw [← hr.length_eq]; exact hi
      refine ⟨g'[i], List.getElem_mem hi', ?_⟩
      have e : g[i].name = g'[i].name := ((List.forall₂_iff_get.1 hr).2 i hi hi').2.2.2.1
      rwa [← e])⟩
  refine ⟨imp', h', ?_⟩
  obtain ⟨_, us, ks, c1, c2, c3⟩ := C50_groups h a2
  obtain rfl := rows_unique hvs c1
  obtain rfl := a6.unique c2
  obtain ⟨_, us', ks', d1, d2, d3⟩ := C50_groups h' a2
  obtain rfl := rows_unique hvs' d1
  obtain rfl := b1.unique d2
  refine List.forall₂_iff_get.2 ⟨?_, fun i hi hi' => ?_⟩
  · unfold Import.postings
    rw [List.length_map, List.length_map, ← c3.length_eq, ← d3.length_eq, b2.length_eq]
  · unfold Import.postings at hi hi' ⊢
    rw [List.length_map] at hi hi'
    have hig : i < gs.length := by rw [c3.length_eq]; exact hi
    have hig' : i < gs'.length := by rw [d3.length_eq]; exact hi'
    rw [List.get_eq_getElem, List.get_eq_getElem, List.getElem_map, List.getElem_map]
    have hgood : GoodNamespace ns := (from_group h (t := imp.transactions[i]) (List.getElem_mem hi)).1
    have s1 : GroupSays L tz ns legacy gs[i] imp.transactions[i] := (List.forall₂_iff_get.1 c3).2 i hig hi
    have s2 : GroupSays L tz ns legacy gs'[i] imp'.transactions[i] := (List.forall₂_iff_get.1 d3).2 i hig' hi'
    have s3 : List.Forall₂ Alike gs[i] gs'[i] := (List.forall₂_iff_get.1 b2).2 i hig hig'
    refine group_same s1 s2 (c2.nonempty _ (List.getElem_mem hig)) s3 hgood ?_ ?_
    · intro v hv
      exact rows_plain hvs hp (by rw [← a6.flatten]; exact List.mem_flatten.2 ⟨gs[i], List.getElem_mem hig, hv⟩)
    · intro v hv
      exact rows_plain hvs' hp' (by rw [← b1.flatten]; exact List.mem_flatten.2 ⟨gs'[i], List.getElem_mem hig', hv⟩)

/-- **C108: the statuses** of an import are those of the rows, each for both postings of the payment. -/
theorem C108_statuses {L : ImportLib} {ns : Str} {legacy : Bool} {headers : Row} {rows : List (Option Row)}
    {tzRecords : List (Option TzAbbr.Record)} {imp : Import} {vs : List RawRecord}
    (h : getTransactions L ns legacy (some headers) rows tzRecords = .ok imp) (hvs : Rows L headers rows vs) :
    (allPosts imp.postings).map (·.raw.status) = vs.flatMap fun v => [some v.status, some v.status] := by
  obtain ⟨hs, tz, e1, htz, _⟩ := (getTransactions_iff ..).1 h
  cases e1
  obtain ⟨_, us, gs, c1, c2, c3⟩ := C50_groups h htz
  obtain rfl := rows_unique hvs c1
  rw [← c2.flatten]
  unfold Import.postings
  generalize imp.transactions = ts at c3
  clear h hvs c1 c2
  induction c3 with
  | nil => rfl
  | @cons g t gs ts hgt _ ih =>
    rw [List.map_cons, List.flatten_cons, List.flatMap_append]
    show ((TransactionPostings.ofTransaction t).posts ++ allPosts (ts.map TransactionPostings.ofTransaction)).map _ = _
    rw [List.map_append, ih]
    congr 1
    obtain ⟨dt, d, before, after, v, pairs, _, _, _, _, hts, hlen, hps⟩ := hgt
    show (t.postings.map PostingInternal.ofPosting).map _ = _
    rw [hts.postings]
    clear hts ih
    have key : ∀ (pairs : List (Posting × Posting)) (g : List RawRecord), pairs.length = g.length →
        (∀ (i : Nat) (h : i < g.length) (h' : i < pairs.length), pairs[i].1.status = some g[i].status ∧ pairs[i].2.status = some g[i].status) →
        ((pairs.flatMap fun x => [x.1, x.2]).map PostingInternal.ofPosting).map (·.raw.status) = g.flatMap fun v => [some v.status, some v.status] := by
      intro pairs
      induction pairs with
      | nil =>
        intro g hl _
        cases g with
        | nil => rfl
        | cons x g => cases hl
      | cons y pairs ih =>
        intro g hl hp
        cases g with
        | nil => cases hl
        | cons x g =>
          have h0 := hp 0 (by simp) (by simp)
          have := ih g (by simpa using hl) fun i hi hi' => hp (i + 1) (by simpa using hi) (by simpa using hi')
          rw [List.flatMap_cons, List.flatMap_cons, List.map_append, List.map_append, this]
          congr 1
          show [y.1.status, y.2.status] = _
          rw [show y.1.status = some x.status from h0.1, show y.2.status = some x.status from h0.2]
    exact key pairs g hlen fun i hi hi' => ⟨(hps i hi hi').self.status, (hps i hi hi').peer.status⟩

/-- The accounts of an import are unknown. -/
theorem imported_unknown {L : ImportLib} {ns : Str} {legacy : Bool} {headers : Option Row} {rows : List (Option Row)}
    {tzRecords : List (Option TzAbbr.Record)} {imp : Import} (h : getTransactions L ns legacy headers rows tzRecords = .ok imp) (hp : NoNewlines rows)
    {p : PostingInternal} (hpm : p ∈ allPosts imp.postings) : UnknownAccount p := by
  obtain ⟨hs, tz, rfl, htz, _⟩ := (getTransactions_iff ..).1 h
  obtain ⟨_, vs, gs, h1, h2, h3⟩ := C50_groups h htz
  obtain ⟨u, hu, hpu⟩ := mem_allPosts.1 hpm
  obtain ⟨t, ht, x, hx, rfl⟩ := import_post hu hpu
  have hgood := (from_group h ht).1
  obtain ⟨g, hg, hgt⟩ : ∃ g ∈ gs, GroupSays L tz ns legacy g t := forall₂_mem_right h3 ht
  obtain ⟨dt, d, before, after, w, pairs, _, _, _, _, hts, hlen, hps⟩ := hgt
  rw [hts.postings] at hx
  obtain ⟨y, hy, hx⟩ := List.mem_flatMap.1 hx
  obtain ⟨k, hk, rfl⟩ := List.getElem_of_mem hy
  have hkg : k < g.length := by omega
  have htags := pair_tags (hps k hkg hk) hgood (rows_plain h1 hp (by
    rw [← h2.flatten]; exact List.mem_flatten.2 ⟨g, hg, List.getElem_mem hkg⟩)) unknownTag
  rcases List.mem_cons.1 hx with rfl | hx
  · exact htags.1.2 (.inr (.inr List.mem_cons_self))
  · obtain rfl := List.mem_singleton.1 hx
    exact htags.2.2 (.inr List.mem_cons_self)

/-- **C108.** A PayPal file was merged, perhaps among others, with nothing left over, and the user may have edited the journal since, in any way
that keeps fingerprints together and apart. Later the same payments are downloaded again, and some have other statuses or receipts. That file is
imported, merging it succeeds, and nothing is handed back: no payment is there twice. Each posting of the journal for one of the payments gets the
strongest of its status and the new one, and a balance if it has none; its account, amount and reality stay. All other postings stay. -/
theorem C108_paypal {L : ImportLib} {ns : Str} {legacy : Bool} {headers : Row} {rows rows' : List (Option Row)}
    {tzRecords : List (Option TzAbbr.Record)} {imp : Import} {vs vs' : List RawRecord}
    (h : getTransactions L ns legacy (some headers) rows tzRecords = .ok imp) (hvs : Rows L headers rows vs) (hvs' : Rows L headers rows' vs')
    (hal : List.Forall₂ Alike vs vs') (hp : NoNewlines rows) (hp' : NoNewlines rows')
    (calls : History) (j : List TransactionPostings) (us : List (List TransactionPostings)) (hr : oneRun calls = some (j, us))
    (hu : us.flatten = []) (hin : imp.postings ∈ inputs calls) (js : List TransactionPostings) (hj : InOrder js) (hk : Keeps j js)
    (o o' : HashOrder) :
    ∃ imp' us', getTransactions L ns legacy (some headers) rows' tzRecords = .ok imp' ∧
      oneRun [(o, js), (o', imp'.postings)] =
        some ((broughtInto js imp'.postings).mergeSort fun a b => (compare (dateOf a) (dateOf b)).isLE, us') ∧ us'.flatten = [] ∧
      (∀ p ∈ allPosts imp'.postings, ∃ q ∈ allPosts js, SharesFp q p) ∧
      (∀ q ∈ allPosts js, ∀ p ∈ allPosts imp'.postings, SharesFp q p →
        (broughtIn imp'.postings q).raw = { q.raw with status := strongest q.raw.status p.raw.status, balance := q.raw.balance.or p.raw.balance }) ∧
      ∀ q ∈ allPosts js, (∀ p ∈ allPosts imp'.postings, ¬ SharesFp q p) → broughtIn imp'.postings q = q := by
  obtain ⟨imp', h1, h2⟩ := C108_import h hvs hvs' hal hp hp'
  have hm : List.Forall₂ (fun t u => List.Forall₂ SameMarks t.posts u.posts) imp.postings imp'.postings :=
    h2.imp fun t u htu => htu.2.imp fun p q hpq t _ => hpq.tags t
  obtain ⟨us', k1, k2, k3, k4, k5⟩ := C108_again calls j us hr hu imp.postings imp'.postings hin hm js hj hk o o'
  refine ⟨imp', us', h1, k1, k2, k5, fun q hq p hpp hs => ?_, k4⟩
  rw [k3 q hq p hpp hs]
  have hun := imported_unknown h1 hp' hpp
  unfold absorb
  simp only [hun, not_true_eq_false, and_false, if_false]

/-- **C108: completed payments.** If the payments of the later file are completed, the postings of the journal for them are cleared. -/
theorem C108_completed {L : ImportLib} {ns : Str} {legacy : Bool} {headers : Row} {rows rows' : List (Option Row)}
    {tzRecords : List (Option TzAbbr.Record)} {imp : Import} {vs vs' : List RawRecord}
    (h : getTransactions L ns legacy (some headers) rows tzRecords = .ok imp) (hvs : Rows L headers rows vs) (hvs' : Rows L headers rows' vs')
    (hal : List.Forall₂ Alike vs vs') (hp : NoNewlines rows) (hp' : NoNewlines rows') (hc : ∀ v ∈ vs', v.status = .cleared)
    (calls : History) (j : List TransactionPostings) (us : List (List TransactionPostings)) (hr : oneRun calls = some (j, us))
    (hu : us.flatten = []) (hin : imp.postings ∈ inputs calls) (js : List TransactionPostings) (hj : InOrder js) (hk : Keeps j js)
    (o o' : HashOrder) :
    ∃ imp' j' us', getTransactions L ns legacy (some headers) rows' tzRecords = .ok imp' ∧
      oneRun [(o, js), (o', imp'.postings)] = some (j', us') ∧ us'.flatten = [] ∧
      (∀ p ∈ allPosts imp'.postings, ∃ q ∈ allPosts j', SharesFp q p) ∧
      ∀ q ∈ allPosts j', ∀ p ∈ allPosts imp'.postings, SharesFp q p → q.raw.status = some .cleared := by
  obtain ⟨imp', us', k1, k2, k3, k4, k5, k6⟩ := C108_paypal h hvs hvs' hal hp hp' calls j us hr hu hin js hj hk o o'
  have hst : ∀ p ∈ allPosts imp'.postings, p.raw.status = some .cleared := by
    intro p hpp
    have : p.raw.status ∈ (allPosts imp'.postings).map (·.raw.status) := List.mem_map.2 ⟨p, hpp, rfl⟩
    rw [C108_statuses k1 hvs'] at this
    obtain ⟨v, hv, hx⟩ := List.mem_flatMap.1 this
    rw [hc v hv] at hx
    simpa using hx
  have hmem : ∀ q, q ∈ allPosts ((broughtInto js imp'.postings).mergeSort fun a b => (compare (dateOf a) (dateOf b)).isLE) ↔
      ∃ q₀ ∈ allPosts js, broughtIn imp'.postings q₀ = q := by
    intro q
    simp only [mem_allPosts, List.mem_mergeSort, broughtInto, List.mem_map]
    constructor
    · rintro ⟨_, ⟨u, hu, rfl⟩, hq⟩
      obtain ⟨q₀, hq₀, rfl⟩ := List.mem_map.1 hq
      exact ⟨q₀, ⟨u, hu, hq₀⟩, rfl⟩
    · rintro ⟨q₀, ⟨u, hu, hq₀⟩, rfl⟩
      exact ⟨_, ⟨u, hu, rfl⟩, List.mem_map.2 ⟨q₀, hq₀, rfl⟩⟩
  refine ⟨imp', _, us', k1, k2, k3, fun p hpp => ?_, fun q hq p hpp hs => ?_⟩
  · obtain ⟨q, hq, hs⟩ := k4 p hpp
    refine ⟨_, (hmem _).2 ⟨q, hq, rfl⟩, ?_⟩
    obtain ⟨f, hf, hf'⟩ := hs
    exact ⟨f, broughtIn_fps hf, hf'⟩
  · obtain ⟨q₀, hq₀, rfl⟩ := (hmem q).1 hq
    by_cases hn : ∃ p' ∈ allPosts imp'.postings, SharesFp q₀ p'
    · obtain ⟨p', hp'', hs'⟩ := hn
      rw [k5 q₀ hq₀ p' hp'' hs']
      show strongest q₀.raw.status p'.raw.status = _
      rw [hst p' hp'']
      cases q₀.raw.status with
      | none => rfl
      | some x => cases x <;> rfl
    · have hn' : ∀ p' ∈ allPosts imp'.postings, ¬ SharesFp q₀ p' := fun p' hp'' hs' => hn ⟨p', hp'', hs'⟩
      rw [k6 q₀ hq₀ hn'] at hs
      exact absurd hs (hn' p hpp)

/-! ### Example -/

/-- A payment of which status and receipt are given, and one that is completed. -/
def Ex.payments (status receipt : String) : List (Option Row) := Ex.rows
  [["01/01/2019", "01:23:45", "GMT", "Shop", "Payment", status, "GBP", "-5.00", receipt, "10.00"],
   ["02/01/2019", "10:00:00", "GMT", "Friend", "Payment", "Completed", "GBP", "3.00", "", "13.00"]]

set_option maxRecDepth 100000 in
/-- The hypotheses of `C108_completed` are met: a payment was pending, and is completed in the later file, which has a receipt for it too. In the
journal that is made then, everything is cleared. -/
theorem C108_example (o o' : HashOrder) : ∃ imp imp' j' us',
    getTransactions Ex.plainLib "test".toList true (some Ex.paypalHeaders) (Ex.payments "Pending" "") Ex.paypalTz = .ok imp ∧
    getTransactions Ex.plainLib "test".toList true (some Ex.paypalHeaders) (Ex.payments "Completed" "R1") Ex.paypalTz = .ok imp' ∧
    oneRun [(HashOrder.sorted, imp.postings)] = some (imp.postings, [[]]) ∧
    (allPosts imp.postings).map (·.raw.status) = [some .pending, some .pending, some .cleared, some .cleared] ∧
    oneRun [(o, imp.postings), (o', imp'.postings)] = some (j', us') ∧ us'.flatten = [] ∧
    ∀ q ∈ allPosts j', ∀ p ∈ allPosts imp'.postings, SharesFp q p → q.raw.status = some .cleared := by
  have key : (match getTransactions Ex.plainLib "test".toList true (some Ex.paypalHeaders) (Ex.payments "Pending" "") Ex.paypalTz with
    | .ok imp => decide (oneRun [(HashOrder.sorted, imp.postings)] = some (imp.postings, [[]]) ∧
        (allPosts imp.postings).map (·.raw.status) = [some .pending, some .pending, some .cleared, some .cleared])
    | .error _ => false) = true := by
    unfold oneRun
    simp only [Ex.build_eval]
    decide +kernel
  split at key
  swap
  · cases key
  rename_i imp e
  obtain ⟨k1, k2⟩ := of_decide_eq_true key
  have hrows : ∀ X ∈ [Ex.payments "Pending" "", Ex.payments "Completed" "R1"],
      X.map (fun o => o.bind (RawRecord.ofRow Ex.plainLib Ex.paypalHeaders)) = (Ex.recordsOf X).map some := by decide +kernel
  have hn : ∀ X ∈ [Ex.payments "Pending" "", Ex.payments "Completed" "R1"], ∀ o ∈ X, ∀ row ∈ o, ∀ f ∈ row, '\n' ∉ f := by decide +kernel
  have hal : List.Forall₂ Alike (Ex.recordsOf (Ex.payments "Pending" "")) (Ex.recordsOf (Ex.payments "Completed" "R1")) := by decide +kernel
  have hc : ∀ v ∈ Ex.recordsOf (Ex.payments "Completed" "R1"), v.status = .cleared := by decide +kernel
  obtain ⟨hj, hkeep⟩ := C101_keeps _ _ _ k1 rfl imp.postings List.mem_cons_self
  obtain ⟨imp', j', us', r1, r2, r3, _, r4⟩ := C108_completed e (rows_of (hrows _ (.head _))) (rows_of (hrows _ (.tail _ (.head _)))) hal
    (fun row hr => hn _ (.head _) _ hr row rfl) (fun row hr => hn _ (.tail _ (.head _)) _ hr row rfl) hc _ _ _ k1 rfl List.mem_cons_self
    imp.postings hj hkeep o o'
  exact ⟨imp, imp', j', us', e, r1, k1, k2, r2, r3, r4⟩

/-- A payment of which status and balance are given. -/
def Ex.payment (status balance : String) : List (Option Row) := Ex.rows
  [["01/01/2019", "01:23:45", "GMT", "Shop", "Payment", status, "GBP", "-5.00", "", balance]]

set_option maxRecDepth 100000 in
/-- **C108: why balances must agree.** The balance of a payment is hashed. If it differs in the later file, perhaps since the payment was pending
before, the own posting is not recognised, but the other one matches softly. So the own posting is added to the transaction a second time, without
an error and with nothing handed back, and the transaction does not balance any more. -/
theorem C108_balance : ∃ imp imp' t us',
    getTransactions Ex.plainLib "test".toList true (some Ex.paypalHeaders) (Ex.payment "Pending" "10.00") Ex.paypalTz = .ok imp ∧
    getTransactions Ex.plainLib "test".toList true (some Ex.paypalHeaders) (Ex.payment "Completed" "5.00") Ex.paypalTz = .ok imp' ∧
    oneRun [(HashOrder.sorted, imp.postings), (HashOrder.sorted, imp'.postings)] = some ([t], us') ∧ us'.flatten = [] ∧
    t.posts.map (·.raw.status) = [some .pending, some .cleared, some .cleared] ∧
    ¬ Balanced (t.posts.map (·.raw)) := by
  have key : (match getTransactions Ex.plainLib "test".toList true (some Ex.paypalHeaders) (Ex.payment "Pending" "10.00") Ex.paypalTz,
      getTransactions Ex.plainLib "test".toList true (some Ex.paypalHeaders) (Ex.payment "Completed" "5.00") Ex.paypalTz with
    | .ok imp, .ok imp' => (match oneRun [(HashOrder.sorted, imp.postings), (HashOrder.sorted, imp'.postings)] with
      | some ([t], us') => decide (us'.flatten = [] ∧ t.posts.map (·.raw.status) = [some .pending, some .cleared, some .cleared] ∧
          total "GBP".toList (t.posts.map (·.raw)) ≠ 0)
      | _ => false)
    | _, _ => false) = true := by
    unfold oneRun
    simp only [Ex.build_eval]
    decide +kernel
  split at key
  swap
  · cases key
  rename_i imp imp' e e'
  split at key
  swap
  · cases key
  rename_i t us' r
  obtain ⟨k1, k2, k3⟩ := of_decide_eq_true key
  exact ⟨imp, imp', t, us', e, e', r, k1, k2, fun hb => k3 (hb.2 _)⟩

end PaypalCsv
end Verif
