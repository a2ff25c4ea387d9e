import Verif.Props.Complete
import Verif.Props.BankPdf
import Verif.Props.OverlapExact

/-!
# C96 for statements of an account
-/

namespace Verif
open Spec Spec.Book

/-! ## What is claimed -/

namespace NationwidePdf
open Nationwide NationwideCsv Tesseract

/-- A statement: the document, the transactions that its lines describe, and what is imported from it. -/
structure StatementOf (L : ImportLib) (doc : Document) (bs : List TransactionBuilder) (imp : Import) : Prop where
  imported : ∃ fpNs, getTransactions L fpNs doc = .ok imp
  described : ∃ lines lead groups ks, LinesOf L doc lines ∧ Splits lines lead groups ∧ Numbers groups ks ∧ Described L groups ks bs
  fits : ∀ b ∈ bs, TransactionBuilder.Fits b

/-- Two transactions of the same date and about the same sum, in or out. -/
def SameDaySum (b c : TransactionBuilder) : Prop := b.date = c.date ∧ value b.amount.quantity = value c.amount.quantity
instance (b c) : Decidable (SameDaySum b c) := by unfold SameDaySum; infer_instance

end NationwidePdf

/-! ## Files with rows about sums -/

namespace NationwideCsv

/-- No posting of a file can be taken for one of another exactly if no two rows of the same date are about the same sum, if fingerprints
are only shared by such rows. -/
theorem separate_rows {α β : Type} {da : α → Date} {db : β → Date} {va : α → Rat} {vb : β → Rat} {imp imp' : Import} {as : List α} {bs : List β}
    (ha : List.Forall₂ (fun t r => ∃ a, RowTransaction t (da r) a ∧ (value a.quantity = va r ∨ value a.quantity = -va r)) imp.transactions as)
    (hb : List.Forall₂ (fun t r => ∃ a, RowTransaction t (db r) a ∧ (value a.quantity = vb r ∨ value a.quantity = -vb r)) imp'.transactions bs)
    (h : ∀ t ∈ imp.transactions, ∀ u ∈ imp'.transactions, ∀ p ∈ t.postings, ∀ q ∈ u.postings, SharesFp (.ofPosting p) (.ofPosting q) →
      ∃ r ∈ as, ∃ s ∈ bs, da r = db s ∧ (va r = vb s ∨ va r = -vb s)) :
    Separate imp.postings imp'.postings ↔ ∀ r ∈ as, ∀ s ∈ bs, ¬ (da r = db s ∧ (va r = vb s ∨ va r = -vb s)) := by
  constructor
  · rintro hs r hr s hs' ⟨hd, hv⟩
    obtain ⟨t, ht, a, hta, hav⟩ := forall₂_right ha hr
    obtain ⟨u, hu, b, hub, hbv⟩ := forall₂_right hb hs'
    obtain ⟨p, hp, q, hq, hm⟩ := (rows_soft hta hub).2 (by
      rcases hav with e | e <;> rcases hbv with e' | e' <;> rw [e, e'] <;> rcases hv with hv | hv <;> rw [hv] <;> simp)
    exact (hs _ (List.mem_map_of_mem ht) p hp _ (List.mem_map_of_mem hu) q hq).2 ⟨hta.date.trans (hd.trans hub.date.symm), hm⟩
  · intro hs t ht p hp u hu q hq
    obtain ⟨t, ht', rfl⟩ := List.mem_map.1 ht
    obtain ⟨u, hu', rfl⟩ := List.mem_map.1 hu
    refine ⟨fun hsh => ?_, fun hm => ?_⟩
    · obtain ⟨p, hp', rfl⟩ := List.mem_map.1 hp
      obtain ⟨q, hq', rfl⟩ := List.mem_map.1 hq
      obtain ⟨r, hr, s, hs', he⟩ := h t ht' u hu' p hp' q hq' hsh
      exact hs r hr s hs' he
    · obtain ⟨r, hr, a, hta, hav⟩ := forall₂_left ha ht'
      obtain ⟨s, hs', b, hub, hbv⟩ := forall₂_left hb hu'
      refine hs r hr s hs' ⟨hta.date.symm.trans (hm.1.trans hub.date), ?_⟩
      have := (rows_soft hta hub).1 ⟨p, hp, q, hq, hm.2⟩
      rcases hav with e | e <;> rcases hbv with e' | e' <;> rw [e, e'] at this <;> rcases this with hv | hv <;>
        first | exact .inl (by linarith) | exact .inr (by linarith)

end NationwideCsv

/-- A file can be merged alone into a new journal, with nothing left over, exactly if it is in order. -/
theorem inOrder_iff {g : List TransactionPostings} (ho : HashOrder) : InOrder g ↔ (Merger.new.merge ho g).1 = .ok [] := by
  have hnew : ∀ t ∈ g, ∀ p ∈ t.posts, Book.empty.verdict (dateOf t) p = .new :=
    listsAll_empty.new_iff.2 fun t ht => by cases ht
  rw [← not_bad_inOrder hnew]
  constructor
  · rintro ⟨hb, hn⟩
    obtain ⟨m, hm, _⟩ := merge_of_not_bad R_new ho hb
    rw [hm]
    show Except.ok _ = _
    rw [handedBack_nil_iff.2 hn]
  · intro h
    rcases hm : Merger.new.merge ho g with ⟨x, m⟩
    rw [hm] at h
    simp only at h
    subst h
    obtain ⟨hb, hu, _⟩ := merge_ok R_new hm
    exact ⟨hb, handedBack_nil_iff.1 hu.symm⟩

namespace NationwidePdf
open Nationwide NationwideCsv Tesseract

/-! ## Statements -/

theorem StatementOf.says {L : ImportLib} {doc : Document} {bs : List TransactionBuilder} {imp : Import} (h : StatementOf L doc bs imp) :
    List.Forall₂ (fun t b => ∃ ns g k, GoodNamespace ns ∧ Makes L g (k : Nat) b ∧ PdfSays L ns g k t) imp.transactions bs := by
  obtain ⟨⟨fpNs, h⟩, ⟨lines, lead, groups, ks, hl, hs, hk, hb⟩, _⟩ := h
  obtain ⟨account, lines', lead', groups', ks', _, _, hl', hs', hk', hlen, hc⟩ := C51_transactions h
  obtain rfl := (C51_groups L doc).1 _ _ hl hl'
  obtain ⟨_, _, _, hu⟩ := (C51_groups L doc).2.1 lines
  obtain ⟨rfl, rfl⟩ := hu _ _ hs
  obtain ⟨rfl, rfl⟩ := hu _ _ hs'
  obtain ⟨_, _, hu⟩ := (C51_groups L doc).2.2 groups'
  obtain rfl := hu _ hk
  obtain rfl := hu _ hk'
  have hkl := hk'.1
  have hbl := hb.1
  rw [List.forall₂_iff_get]
  refine ⟨by omega, fun i h1 h2 => ?_⟩
  have et : imp.transactions[i]? = some imp.transactions[i] := List.getElem?_eq_getElem h1
  have hb' : bs[i]? = some bs[i] := List.getElem?_eq_getElem h2
  have hg' : groups'[i]? = some groups'[i] := List.getElem?_eq_getElem (by omega)
  have hk' : ks'[i]? = some ks'[i] := List.getElem?_eq_getElem (by omega)
  exact ⟨_, _, _, (from_lines h (List.mem_of_getElem? et)).1, hb.2 i _ _ _ hg' hk' hb', hc i _ _ _ hg' hk' et⟩

theorem pdf_row {L : ImportLib} {ns : Str} {g : LineGroup} {k : Nat} {b : TransactionBuilder} {t : Transaction} (hg : GoodNamespace ns)
    (hm : Makes L g k b) (h : PdfSays L ns g k t) :
    ∃ a, RowTransaction t b.date a ∧ (value a.quantity = value b.amount.quantity ∨ value a.quantity = -value b.amount.quantity) := by
  obtain ⟨b', p, q, hm', hts, hp, hq⟩ := h
  obtain rfl := Makes.unique hm hm'
  have hw := pdf_words L hg b
  refine ⟨ownPdfAmount b, ⟨hts.date, ⟨p, q, hts.postings, hp.amount, hq.amount, hq.balance, ?_, ?_⟩, ?_⟩, ?_⟩
  · exact (hp.read_iff hw.1 (seq_plain hg _ bank_plain) unknownTag).2 (by unfold unknownTag; simp)
  · exact (hq.read_iff hw.2 bank_plain unknownTag).2 (by unfold unknownTag; simp)
  · have hc : b.amount.commodity = gbp := by
      rcases hm.amount with ⟨_, _, _, _, _, _, e⟩ | ⟨_, _, _, _, _, _, e⟩ <;> rw [e]
    unfold ownPdfAmount
    split
    · exact hc
    · exact hc
  · unfold ownPdfAmount
    split
    · exact .inr (value_negateAmount _)
    · exact .inl rfl

theorem value_nonneg {d : Decimal} (h : d.neg = false) : 0 ≤ value d := by
  unfold value
  rw [h, if_neg Bool.false_ne_true]
  positivity

/-- The sums of transactions are not negative, so that there is only one way to be the same. -/
theorem sameDaySum_iff {b c : TransactionBuilder} (hb : b.amount.quantity.neg = false) (hc : c.amount.quantity.neg = false) :
    (b.date = c.date ∧ (value b.amount.quantity = value c.amount.quantity ∨ value b.amount.quantity = -value c.amount.quantity)) ↔
      SameDaySum b c := by
  refine and_congr_right fun _ => ⟨?_, .inl⟩
  have h1 := value_nonneg hb
  have h2 := value_nonneg hc
  rintro (h | h) <;> linarith

/-- No posting of a statement can be taken for one of another exactly if no two of their transactions have the same date and sum. -/
theorem statements_separate {L : ImportLib} {doc doc' : Document} {bs cs : List TransactionBuilder} {imp imp' : Import}
    (h : StatementOf L doc bs imp) (h' : StatementOf L doc' cs imp') (hsha : NoCollision L.sha1 (pdfTexts (bs ++ cs))) :
    Separate imp.postings imp'.postings ↔ ∀ b ∈ bs, ∀ c ∈ cs, ¬ SameDaySum b c := by
  have key := separate_rows (da := fun b : TransactionBuilder => b.date) (db := fun b : TransactionBuilder => b.date)
    (va := fun b => value b.amount.quantity) (vb := fun b => value b.amount.quantity)
    (h.says.imp fun t b ⟨ns, g, k, h1, h2, h3⟩ => pdf_row h1 h2 h3) (h'.says.imp fun t b ⟨ns, g, k, h1, h2, h3⟩ => pdf_row h1 h2 h3) (by
      rintro t ht u hu p hp q hq ⟨f, hfp, hfq⟩
      obtain ⟨b, mb, ns, g, k, hg, hm, hs⟩ := forall₂_left h.says ht
      obtain ⟨c, mc, ns', g', k', hg', hm', hs'⟩ := forall₂_left h'.says hu
      obtain ⟨i, hi⟩ := List.mem_iff_getElem?.1 hp
      obtain ⟨j, hj⟩ := List.mem_iff_getElem?.1 hq
      obtain ⟨s, _, hrs⟩ := pdf_read hs hm hg hi
      obtain ⟨s', _, hrs'⟩ := pdf_read hs' hm' hg' hj
      obtain ⟨m1, hf⟩ := mem_fps.1 hfp
      obtain ⟨m2, _⟩ := mem_fps.1 hfq
      have e := ((hrs f hf).1 m1).symm.trans ((hrs' f hf).1 m2)
      have e := (C41_legacy_tag (pick_built (pdfFp_built L hg _) _) (pick_built (pdfFp_built L hg' _) _) e).2
      rw [pdfFp_value L hg, pdfFp_value L hg'] at e
      have e := hsha _ _ ⟨b, List.mem_append_left _ mb, s, rfl⟩ ⟨c, List.mem_append_right _ mc, s', rfl⟩ (base64_inj e)
      obtain ⟨e1, _, _, e4, _, _⟩ := C40_nationwide_pdf.2 b c s s' (h.fits b mb) (h'.fits c mc) hm.positive hm'.positive e
      exact ⟨b, mb, c, mc, e1, .inl (by rw [e4])⟩)
  rw [key]
  refine forall₂_congr fun b mb => forall₂_congr fun c mc => not_congr ?_
  obtain ⟨_, _, _, _, _, _, hm, _⟩ := forall₂_right h.says mb
  obtain ⟨_, _, _, _, _, _, hm', _⟩ := forall₂_right h'.says mc
  exact sameDaySum_iff hm.positive hm'.positive

/-- **C96** for PDF statements: statements are merged one after the other. Provided that the hash function has no collision for them,
every transaction of every statement becomes one of the journal exactly if no two transactions of a statement agree on date, number on that date,
description and amount, and no two of different statements agree on date and sum, be it paid in or paid out. The number on a date
does not tell those of different statements apart, nor does the description. The journal is then that of all transactions, sorted by date. -/
theorem C96_statements {L : ImportLib} {sts : List (Document × List TransactionBuilder × Import)}
    (h : ∀ x ∈ sts, StatementOf L x.1 x.2.1 x.2.2) (hsha : NoCollision L.sha1 (pdfTexts (sts.flatMap fun x => x.2.1))) (orders : HashOrder)
    (j : List TransactionPostings) :
    journalOf (sts.map fun x => (orders, x.2.2.postings)) = some j ∧ j.length = (sts.flatMap fun x => x.2.1).length ↔
      (∀ x ∈ sts, x.2.1.Pairwise fun b c => ¬ Alike b c) ∧
      sts.Pairwise (fun x y => ∀ b ∈ x.2.1, ∀ c ∈ y.2.1, ¬ SameDaySum b c) ∧
      j = (sts.flatMap fun x => x.2.2.postings).mergeSort fun a b => (compare (dateOf a) (dateOf b)).isLE := by
  have hi : inputs (sts.map fun x => (orders, x.2.2.postings)) = sts.map fun x => x.2.2.postings := by
    unfold inputs
    rw [List.map_map]
    rfl
  have key := C96_complete (sts.map fun x => (orders, x.2.2.postings)) j
  rw [hi, ← List.flatMap_def] at key
  have hlen : (sts.flatMap fun x => x.2.2.postings).length = (sts.flatMap fun x => x.2.1).length := by
    rw [List.length_flatMap, List.length_flatMap]
    congr 1
    refine List.map_congr_left fun x hx => ?_
    have := (h x hx).says.length_eq
    show (x.2.2.transactions.map _).length = _
    rw [List.length_map, this]
  have hsub : ∀ {bs : List TransactionBuilder}, (∀ b ∈ bs, ∃ x ∈ sts, b ∈ x.2.1) → NoCollision L.sha1 (pdfTexts bs) := by
    intro bs hbs x y ⟨b, hb, s, e⟩ ⟨c, hc, s', e'⟩
    obtain ⟨z, hz, hb⟩ := hbs b hb
    obtain ⟨z', hz', hc⟩ := hbs c hc
    exact hsha x y ⟨b, List.mem_flatMap.2 ⟨z, hz, hb⟩, s, e⟩ ⟨c, List.mem_flatMap.2 ⟨z', hz', hc⟩, s', e'⟩
  rw [hlen] at key
  rw [key]
  refine and_congr ?_ (and_congr_left' ?_)
  · rw [List.forall_mem_map]
    refine forall₂_congr fun x hx => ?_
    obtain ⟨⟨fpNs, h1⟩, ⟨lines, lead, groups, ks, hl, hs, hk, hb⟩, hfit⟩ := h x hx
    rw [inOrder_iff .sorted, C47_nationwide_pdf_merge h1,
      C71_shared h1 hl hs hk hb hfit (hsub fun b hb => ⟨x, hx, hb⟩), List.pairwise_iff_getElem]
    constructor
    · intro hx i j hi hj hlt hal
      exact absurd (hx i j _ _ (List.getElem?_eq_getElem hi) (List.getElem?_eq_getElem hj) hal) (by omega)
    · intro hx i j b c hib hjc hal
      obtain ⟨hi, rfl⟩ := List.getElem?_eq_some_iff.1 hib
      obtain ⟨hj, rfl⟩ := List.getElem?_eq_some_iff.1 hjc
      rcases Nat.lt_trichotomy i j with hlt | he | hlt
      · exact absurd hal (hx i j hi hj hlt)
      · exact he
      · exact absurd ⟨hal.1.symm, hal.2.1.symm, hal.2.2.1.symm, hal.2.2.2.1.symm, hal.2.2.2.2.symm⟩ (hx j i hj hi hlt)
  · rw [List.pairwise_map]
    refine List.Pairwise.iff_of_mem fun {x y} hx hy => ?_
    refine statements_separate (h x hx) (h y hy) (hsub fun b hb => ?_)
    rcases List.mem_append.1 hb with hb | hb
    · exact ⟨x, hx, hb⟩
    · exact ⟨y, hy, hb⟩

/-! ## Examples -/

/-- A page of the next statement: a payment on the last day of the one before, and another. -/
def Ex.pdfSameDay : List Tesseract.Line :=
  [Ex.pdfRow 110 [(0, "2019"), (100, "Balance"), (600, "2,094.00")],
   Ex.pdfRow 120 [(0, "02"), (20, "Jan"), (100, "Rent"), (400, "1,000.00"), (600, "1,094.00")],
   Ex.pdfRow 130 [(0, "03"), (20, "Jan"), (100, "Gas"), (400, "44.00"), (600, "1,050.00")]]

set_option maxRecDepth 100000 in
/-- **C96**: without the condition on dates and sums a transaction can get lost. A statement ends with the salary, the next begins with a rent of the same
date and amount. Both are merged, with success and nothing left over, and there are four transactions in the journal, of five: the rent was taken for
the salary, though it was paid out and the salary was paid in, and though it has another number, description and balance. -/
theorem C96_lost : ∃ imp imp' j, getTransactions Ex.plainLib (.fixed "acc".toList) (Ex.pdfDoc Ex.pdfPage1 Ex.pdfPage2) = .ok imp ∧
    getTransactions Ex.plainLib (.fixed "acc".toList) (Ex.pdfDoc Ex.pdfSameDay []) = .ok imp' ∧
    (imp.postings ++ imp'.postings).map (fun t => t.trn.raw.description) =
      ["Coffee Shop", "Coffee Shop", "Salary", "Rent", "Gas"].map String.toList ∧
    journalOf [(.sorted, imp.postings), (.sorted, imp'.postings)] = some j ∧
    j.map (fun t => t.trn.raw.description) = ["Coffee Shop", "Coffee Shop", "Salary", "Gas"].map String.toList := by
  have key : (match getTransactions Ex.plainLib (.fixed "acc".toList) (Ex.pdfDoc Ex.pdfPage1 Ex.pdfPage2),
      getTransactions Ex.plainLib (.fixed "acc".toList) (Ex.pdfDoc Ex.pdfSameDay []) with
    | .ok imp, .ok imp' => decide ((imp.postings ++ imp'.postings).map (fun t => t.trn.raw.description) =
        ["Coffee Shop", "Coffee Shop", "Salary", "Rent", "Gas"].map String.toList) &&
      (match journalOf [(.sorted, imp.postings), (.sorted, imp'.postings)] with
        | some j => decide (j.map (fun t => t.trn.raw.description) = ["Coffee Shop", "Coffee Shop", "Salary", "Gas"].map String.toList)
        | none => false)
    | _, _ => false) = true := by
    unfold journalOf
    simp only [Ex.build_eval]
    decide +kernel
  split at key
  swap
  · cases key
  rename_i imp imp' e e'
  rw [Bool.and_eq_true] at key
  obtain ⟨k1, k2⟩ := key
  split at k2
  swap
  · cases k2
  rename_i j hj
  exact ⟨imp, imp', j, e, e', of_decide_eq_true k1, hj, of_decide_eq_true k2⟩

/-- The transactions of the statement after that of `exTransactions`. -/
def nextTransactions : List TransactionBuilder :=
  [⟨⟨2019, 1, 3⟩, 0, ⟨⟨false, 50000, 2⟩, gbp⟩, .payment, none, "Rent".toList, none⟩,
   ⟨⟨2019, 1, 3⟩, 1, ⟨⟨false, 4400, 2⟩, gbp⟩, .payment, none, "Gas".toList, some ⟨⟨false, 155000, 2⟩, gbp⟩⟩]

set_option maxRecDepth 100000 in
theorem nextTransactions_described :
    Described Ex.plainLib (splitLines (linesIn (Ex.pdfDoc Ex.pdfNext []))).2 (numbers (splitLines (linesIn (Ex.pdfDoc Ex.pdfNext []))).2) nextTransactions := by
  refine ⟨by decide +kernel, ?_⟩
  have hk : numbers (splitLines (linesIn (Ex.pdfDoc Ex.pdfNext []))).2 = [0, 1] := by decide +kernel
  rw [hk]
  intro i g k b hg hk' hb
  obtain ⟨hi, rfl⟩ := List.getElem?_eq_some_iff.1 hg
  match i, hk', hb with
  | 0, hk', hb =>
    cases hk'; cases hb
    show Makes _ ((splitLines (linesIn (Ex.pdfDoc Ex.pdfNext []))).2[0]'(by decide +kernel)) _ _
    exact makes_of [] [] (by decide +kernel) rfl ⟨"500.00".toList, by decide +kernel⟩ rfl rfl
      (by decide +kernel) (by decide +kernel) rfl (by decide +kernel) rfl
  | 1, hk', hb =>
    cases hk'; cases hb
    show Makes _ ((splitLines (linesIn (Ex.pdfDoc Ex.pdfNext []))).2[1]'(by decide +kernel)) _ _
    exact makes_of [] [⟨false, 155000, 2⟩] (by decide +kernel) rfl ⟨"44.00".toList, by decide +kernel⟩ rfl rfl
      (by decide +kernel) (by decide +kernel) rfl (by decide +kernel) rfl

set_option maxRecDepth 100000 in
/-- Two statements that meet the hypotheses of `C96_statements` and the condition in it: all five transactions become ones of the journal. -/
example : ∃ imp imp' j, getTransactions Ex.plainLib (.fixed "acc".toList) (Ex.pdfDoc Ex.pdfPage1 Ex.pdfPage2) = .ok imp ∧
    getTransactions Ex.plainLib (.fixed "acc".toList) (Ex.pdfDoc Ex.pdfNext []) = .ok imp' ∧
    journalOf [(.rev, imp.postings), (.rev, imp'.postings)] = some j ∧ j.length = 5 := by
  obtain ⟨imp, h, _⟩ := of_run (x := getTransactions Ex.plainLib (.fixed "acc".toList) (Ex.pdfDoc Ex.pdfPage1 Ex.pdfPage2))
    (P := fun imp => imp.transactions.length = 3) (by decide +kernel)
  obtain ⟨imp', h', _⟩ := of_run (x := getTransactions Ex.plainLib (.fixed "acc".toList) (Ex.pdfDoc Ex.pdfNext []))
    (P := fun imp => imp.transactions.length = 2) (by decide +kernel)
  have hl' := linesIn_read (doc := Ex.pdfDoc Ex.pdfNext []) (by decide +kernel)
  have key := fun j => C96_statements (L := Ex.plainLib)
    (sts := [(Ex.pdfDoc Ex.pdfPage1 Ex.pdfPage2, exTransactions, imp), (Ex.pdfDoc Ex.pdfNext [], nextTransactions, imp')]) (by
      intro x hx
      simp only [List.mem_cons, List.not_mem_nil, or_false] at hx
      rcases hx with rfl | rfl
      · exact ⟨⟨_, h⟩, ⟨_, _, _, _, exLines_read, splitLines_splits _, numbers_numbers _, exTransactions_described⟩,
          show ∀ b ∈ exTransactions, TransactionBuilder.Fits b by decide +kernel⟩
      · exact ⟨⟨_, h'⟩, ⟨_, _, _, _, hl', splitLines_splits _, numbers_numbers _, nextTransactions_described⟩,
          show ∀ b ∈ nextTransactions, TransactionBuilder.Fits b by decide +kernel⟩)
    (fun _ _ _ _ e => e) .rev j
  obtain ⟨k1, k2⟩ := (key _).2 ⟨by
      intro x hx
      simp only [List.mem_cons, List.not_mem_nil, or_false] at hx
      rcases hx with rfl | rfl
      · show exTransactions.Pairwise fun b c => ¬ Alike b c
        decide +kernel
      · show nextTransactions.Pairwise fun b c => ¬ Alike b c
        decide +kernel,
    List.pairwise_pair.2 (show ∀ b ∈ exTransactions, ∀ c ∈ nextTransactions, ¬ SameDaySum b c by decide +kernel), rfl⟩
  exact ⟨imp, imp', _, h, h', k1, k2⟩

end NationwidePdf
end Verif
