import Verif.Props.Twice
import Verif.Props.PdfDistinct
import Verif.Props.ImportMerge

/-!
# C91: a statement as CSV file and as PDF file
-/

namespace Verif
open Spec Spec.Book

/-- `t` and `u` are imports of one entry of a statement: same date, and for the own account the same amount and balances that agree. -/
def SameEntry (t u : Transaction) : Prop :=
  t.date = u.date ∧ ∃ p q p' q', t.postings = [p, q] ∧ u.postings = [p', q'] ∧ OptRel SamePostingAmount p.amount p'.amount ∧
    BalancesAgree p.balance p'.balance

/-- What is known of a transaction of an import of a statement. -/
structure Entry (t : Transaction) : Prop where
  pays : ∃ p q a, t.postings = [p, q] ∧ Pays (.ofTransaction t) (.ofPosting p) (.ofPosting q) a
  unknown : ∀ p ∈ t.postings, UnknownAccount (.ofPosting p)

theorem says_entry {h : HashOrder} {t : Transaction} {d : Date} {e : Option Date} {s : Str} {p q : Posting} {acc acc' : Str} {a : Amount} {b : Option Amount}
    {st st' : Option Status} {ts ts' : List Str} {vs vs' : List (Str × Str)} (ht : TransactionSays t d e s [p, q])
    (hp : Says h p acc a b st ts vs) (hq : Says h q acc' (negateAmount a) none st' ts' vs') (hw : ∀ x ∈ ts, Word x ∧ '\n' ∉ x)
    (hw' : ∀ x ∈ ts', Word x ∧ '\n' ∉ x) (hu : "unknown-account".toList ∈ ts) (hu' : "unknown-account".toList ∈ ts') : Entry t where
  pays := by
    refine ⟨p, q, a, ht.postings, ?_, hp.amount, ⟨_, hq.amount, rfl, value_negate _⟩, hq.balance⟩
    show t.postings.map _ = _
    rw [ht.postings]
    rfl
  unknown := by
    intro x hx
    rw [ht.postings] at hx
    simp only [List.mem_cons, List.not_mem_nil, or_false] at hx
    rcases hx with rfl | rfl
    · exact hp.read_mem hw hu
    · exact hq.read_mem hw' hu'

theorem csv_entry {L : ImportLib} {fpNs : Nationwide.FpNamespace} {legacy : Bool} {records : List (Option NationwideCsv.Row)} {imp : Import}
    (h : NationwideCsv.getTransactions L fpNs legacy records = .ok imp) {t : Transaction} (ht : t ∈ imp.transactions) : Entry t := by
  obtain ⟨account, ns, k, _, hg, hr⟩ := NationwideCsv.from_row h ht
  rcases hr with ⟨r, amt, p, q, _, hts, hp, hq⟩ | ⟨r, amt, p, q, _, hts, hp, hq⟩
  · have hw := NationwideCsv.five_words L r hg k
    exact says_entry hts hp hq hw.1 hw.2 (by simp) (by simp)
  · have hw := NationwideCsv.six_words L r hg k legacy (selfAndPeerAccountAmount amt ownAccount)
    exact says_entry hts hp hq hw.1 hw.2 (by simp) (by simp)

theorem pdf_entry {L : ImportLib} {fpNs : Nationwide.FpNamespace} {doc : Tesseract.Document} {imp : Import}
    (h : NationwidePdf.getTransactions L fpNs doc = .ok imp) {t : Transaction} (ht : t ∈ imp.transactions) : Entry t := by
  obtain ⟨hg, g, k, b, p, q, hm, hts, hp, hq⟩ := NationwidePdf.from_lines h ht
  have hw := NationwidePdf.pdf_words L hg b
  exact says_entry hts hp hq hw.1 hw.2 (by simp) (by simp)

open NationwideCsv Nationwide in
/-- The fingerprints in a CSV file without legacy fingerprints have a dot. -/
theorem csv_dotted {L : ImportLib} {fpNs : FpNamespace} {records : List (Option Row)} {imp : Import}
    (h : getTransactions L fpNs false records = .ok imp) (hpl : PlainFields records) {t : Transaction} (ht : t ∈ imp.transactions)
    {p : Posting} (hpt : p ∈ t.postings) {f : Str} (hf : f ∈ (Comment.fromOptComment p.comment).tags) (hfp : IsFp f) : '.' ∈ f := by
  have dot : ∀ g : Fingerprint, '.' ∈ g.tag := by
    intro g
    rw [tag_eq]
    simp
  have hw0 := fixed_words
  obtain ⟨account, columns, rows, hs, _, hc⟩ := (getTransactions_iff ..).1 h
  obtain ⟨hacc, hrows⟩ := shape_plain hs hpl
  obtain ⟨i, hi, rfl⟩ := List.getElem_of_mem ht
  have hgood : GoodNamespace imp.userFpNamespace := by
    refine (good_of_row h hs).resolve_left ?_
    rintro rfl
    rcases hc with ⟨rfl, _⟩ | ⟨rfl, _⟩
    · rw [(C45_five h hs).2.1] at hi; cases hi
    · rw [(C45_six h hs).2.1] at hi; cases hi
  have fixed : f ∉ ["import-self".toList, "import-peer".toList, "unknown-account".toList] := fun hm => (hw0 f hm).2.2 hfp
  rcases hc with ⟨rfl, _⟩ | ⟨rfl, _⟩
  · obtain ⟨_, hl, rs, hl', hr⟩ := C45_five h hs
    obtain ⟨⟨row, e1, hrow⟩, t, e2, amt, p', q, _, hts, hp, hq⟩ := hr i (by omega)
    rw [List.getElem?_eq_getElem hi] at e2
    rw [Option.some.inj e2, hts.postings] at hpt
    have hnl : '\n' ∉ rs[i].transactions ∧ '\n' ∉ rs[i].location := by
      obtain ⟨d, o, i', _, rfl, _⟩ := hrow
      have := hrows _ (List.mem_of_getElem? e1)
      exact ⟨(this _ (by simp)).2, (this _ (by simp)).2⟩
    have hv := five_values_plain hacc hnl.1 hnl.2
    have hw := five_words L rs[i] hgood (sinceChange (rs.map RecordFive.date) i)
    rcases List.mem_cons.1 hpt with rfl | hpt
    · rw [hp.read_iff hw.1 (seq_plain hgood _ hv)] at hf
      simp only [List.mem_cons, List.not_mem_nil, or_false] at hf fixed
      rcases hf with rfl | rfl | rfl
      · exact absurd (.inl rfl) fixed
      · exact dot _
      · exact absurd (.inr (.inr rfl)) fixed
    · obtain rfl := List.mem_singleton.1 hpt
      rw [hq.read_iff hw.2 hv] at hf
      simp only [List.mem_cons, List.not_mem_nil, or_false] at hf fixed
      rcases hf with rfl | rfl | rfl
      · exact absurd (.inr (.inl rfl)) fixed
      · exact dot _
      · exact absurd (.inr (.inr rfl)) fixed
  · obtain ⟨_, hl, rs, hl', hr⟩ := C45_six h hs
    obtain ⟨⟨row, e1, hrow⟩, t, e2, amt, p', q, _, hts, hp, hq⟩ := hr i (by omega)
    rw [List.getElem?_eq_getElem hi] at e2
    rw [Option.some.inj e2, hts.postings] at hpt
    have hnl : '\n' ∉ rs[i].type_ := by
      obtain ⟨d, o, i', b, _, rfl, _⟩ := hrow
      exact (hrows _ (List.mem_of_getElem? e1) _ (by simp)).2
    have hv := six_values_plain hacc hnl
    have hw := six_words L rs[i] hgood (sinceChange (rs.map RecordSix.date) i) false (selfAndPeerAccountAmount amt ownAccount)
    rcases List.mem_cons.1 hpt with rfl | hpt
    · rw [hp.read_iff hw.1 (seq_plain hgood _ hv)] at hf
      simp only [Bool.false_eq_true, if_false, List.nil_append, List.mem_cons, List.not_mem_nil, or_false] at hf fixed
      rcases hf with rfl | rfl | rfl
      · exact absurd (.inl rfl) fixed
      · exact dot _
      · exact absurd (.inr (.inr rfl)) fixed
    · obtain rfl := List.mem_singleton.1 hpt
      rw [hq.read_iff hw.2 hv] at hf
      simp only [Bool.false_eq_true, if_false, List.nil_append, List.mem_cons, List.not_mem_nil, or_false] at hf fixed
      rcases hf with rfl | rfl | rfl
      · exact absurd (.inr (.inl rfl)) fixed
      · exact dot _
      · exact absurd (.inr (.inr rfl)) fixed

open NationwidePdf NationwideCsv Nationwide in
/-- Those in a PDF file have none. -/
theorem pdf_undotted {L : ImportLib} {fpNs : FpNamespace} {doc : Tesseract.Document} {imp : Import}
    (h : NationwidePdf.getTransactions L fpNs doc = .ok imp) {t : Transaction} (ht : t ∈ imp.transactions)
    {p : Posting} (hpt : p ∈ t.postings) {f : Str} (hf : f ∈ (Comment.fromOptComment p.comment).tags) (hfp : IsFp f) : '.' ∉ f := by
  obtain ⟨hg, g, k, b, p', q, hm, hts, hp, hq⟩ := NationwidePdf.from_lines h ht
  have hw := pdf_words L hg b
  have hb := pdfFp_built L hg b
  have dot : ∀ g : Fingerprint, Built g → '.' ∉ g.legacyTag := by
    intro g hg hd
    refine absurd hd ?_
    rw [legacyTag_eq]
    obtain ⟨h1, h2, h3⟩ := hg.parts
    simp only [List.mem_append, List.mem_cons, not_or]
    exact ⟨by decide +kernel, no_char h2 (by decide), by decide, fun hx => absurd (h3 _ hx) (by unfold Base64Char; decide +kernel)⟩
  have fixed : f ∉ ["import-self".toList, "import-peer".toList, "unknown-account".toList] := fun hm => (fixed_words f hm).2.2 hfp
  rw [hts.postings] at hpt
  rcases List.mem_cons.1 hpt with rfl | hpt
  · rw [hp.read_iff hw.1 (seq_plain hg _ bank_plain)] at hf
    simp only [List.mem_cons, List.not_mem_nil, or_false] at hf fixed
    rcases hf with rfl | rfl | rfl
    · exact dot _ hb.1
    · exact absurd (.inl rfl) fixed
    · exact absurd (.inr (.inr rfl)) fixed
  · obtain rfl := List.mem_singleton.1 hpt
    rw [hq.read_iff hw.2 bank_plain] at hf
    simp only [List.mem_cons, List.not_mem_nil, or_false] at hf fixed
    rcases hf with rfl | rfl | rfl
    · exact dot _ hb.2
    · exact absurd (.inr (.inl rfl)) fixed
    · exact absurd (.inr (.inr rfl)) fixed

theorem samePayment_of {t u : Transaction} (ht : Entry t) (hu : Entry u) (h : SameEntry t u) :
    SamePayment (.ofTransaction t) (.ofTransaction u) := by
  obtain ⟨p, q, a, e, hp⟩ := ht.pays
  obtain ⟨p', q', a', e', hp'⟩ := hu.pays
  obtain ⟨hd, p1, q1, p2, q2, e1, e2, h1, h2⟩ := h
  rw [e] at e1
  rw [e'] at e2
  simp only [List.cons.injEq, and_true] at e1 e2
  obtain ⟨rfl, rfl⟩ := e1
  obtain ⟨rfl, rfl⟩ := e2
  refine ⟨hd, ?_, _, _, a, _, _, a', hp, hp', ?_, h2⟩
  · intro x hx
    obtain ⟨y, hy, rfl⟩ := List.mem_map.1 hx
    exact hu.unknown y hy
  · have := hp.amount
    have := hp'.amount
    rw [← samePlain, ← hp.amount, ← hp'.amount]
    exact h1

theorem balancesAgree_comm {a b : Option Balance} (h : BalancesAgree a b) : BalancesAgree b a := by
  cases a <;> cases b <;> first | trivial | exact sameBalance_comm h

theorem Spec.SharesFp.tags {p q : Posting} (h : SharesFp (.ofPosting p) (.ofPosting q)) :
    ∃ f, IsFp f ∧ f ∈ (Comment.fromOptComment p.comment).tags ∧ f ∈ (Comment.fromOptComment q.comment).tags := by
  obtain ⟨f, h1, h2⟩ := h
  exact ⟨f, (mem_fps.1 h1).2, (mem_fps.1 h1).1, (mem_fps.1 h2).1⟩

open Classical in
/-- What merging the imports of two files with the same entries, one after the other, does. -/
def MergesTwice (first second : Import) : Prop :=
  ∀ (h h' h₂ : HashOrder), ∃ m ws m', Merger.new.merge h first.postings = (.ok [], m) ∧ m.merge h' second.postings = (.ok ws, m') ∧
    List.Forall₂ (AsksWhich first.postings) (((first.postings.zip second.postings).filter fun x => ¬ Alone first.postings x.1).map (·.2)) ws ∧
    m'.build h₂ = .ok (byDate (List.zipWith
      (fun t u => if Alone first.postings t then ⟨t.trn, List.zipWith absorb t.posts u.posts⟩ else t) first.postings second.postings))

/-- C91: a statement as CSV file (without legacy fingerprints) and as PDF file, with the same entries. If both can be merged at all, they can be merged one
after the other, in either order. An entry becomes one transaction, with what both files say, if no other entry on that day is of the same sum, paid or
received, and the sum is not zero; the others of the second file are handed back. -/
theorem C91_csv_pdf {L L' : ImportLib} {fpNs fpNs' : Nationwide.FpNamespace} {records : List (Option NationwideCsv.Row)} {doc : Tesseract.Document} {csv pdf : Import}
    (hc : NationwideCsv.getTransactions L fpNs false records = .ok csv) (hp : NationwidePdf.getTransactions L' fpNs' doc = .ok pdf)
    (hplain : NationwideCsv.PlainFields records) (hdc : NationwideCsv.DistinctFingerprints csv.transactions)
    (hdp : NationwideCsv.DistinctFingerprints pdf.transactions) (hsame : List.Forall₂ SameEntry csv.transactions pdf.transactions) :
    MergesTwice csv pdf ∧ MergesTwice pdf csv := by
  have nofp : ∀ t ∈ csv.postings, ∀ p ∈ t.posts, ∀ u ∈ pdf.postings, ∀ q ∈ u.posts, ¬ SharesFp p q := by
    intro t ht p hpt u hu q hqu hs
    obtain ⟨t', ht', p', hp', rfl⟩ := import_post ht hpt
    obtain ⟨u', hu', q', hq', rfl⟩ := import_post hu hqu
    obtain ⟨f, h1, h2, h3⟩ := hs.tags
    exact pdf_undotted hp hu' hq' h3 h1 (csv_dotted hc hplain ht' hp' h2 h1)
  have mc : ∀ h, ∃ m, Merger.new.merge h csv.postings = (.ok [], m) := by
    intro h
    have := (NationwideCsv.C47_nationwide_csv_merge hc hplain h).2 hdc
    exact ⟨_, Prod.ext this rfl⟩
  have mp : ∀ h, ∃ m, Merger.new.merge h pdf.postings = (.ok [], m) := by
    intro h
    have := (NationwidePdf.C47_nationwide_pdf_merge hp h).2 hdp
    exact ⟨_, Prod.ext this rfl⟩
  have fwd : List.Forall₂ SamePayment csv.postings pdf.postings := by
    unfold Import.postings
    rw [List.forall₂_map_left_iff, List.forall₂_map_right_iff]
    exact forall₂_imp_mem hsame fun t u ht hu hs => samePayment_of (csv_entry hc ht) (pdf_entry hp hu) hs
  have bwd : List.Forall₂ SamePayment pdf.postings csv.postings := by
    unfold Import.postings
    rw [List.forall₂_map_left_iff, List.forall₂_map_right_iff]
    refine forall₂_imp_mem hsame.flip fun t u ht hu hs => samePayment_of (pdf_entry hp ht) (csv_entry hc hu) ?_
    obtain ⟨hd, p, q, p', q', e1, e2, h1, h2⟩ := hs
    exact ⟨hd.symm, p', q', p, q, e2, e1, optRel_comm (fun _ _ => samePostingAmount_comm) h1, balancesAgree_comm h2⟩
  constructor
  · intro h h' h₂
    obtain ⟨m, hm⟩ := mc h
    obtain ⟨mB, hB⟩ := mp h
    obtain ⟨ws, m', h1, h2, h3⟩ := C91_statement h h h' h₂ _ _ _ _ m mB hm hB fwd nofp
    exact ⟨m, ws, m', hm, h1, h2, h3⟩
  · intro h h' h₂
    obtain ⟨m, hm⟩ := mp h
    obtain ⟨mB, hB⟩ := mc h
    obtain ⟨ws, m', h1, h2, h3⟩ := C91_statement h h h' h₂ _ _ _ _ m mB hm hB bwd
      fun t ht p hpt u hu q hqu hs => nofp u hu q hqu t ht p hpt (sharesFp_comm.1 hs)
    exact ⟨m, ws, m', hm, h1, h2, h3⟩

/-! ### Example -/

/-- Two imports of one entry, as a check. -/
def sameEntryB (t u : Transaction) : Bool :=
  match t.postings, u.postings with
  | [p, _], [p', _] => decide (t.date = u.date) && decide (OptRel SamePostingAmount p.amount p'.amount) && decide (BalancesAgree p.balance p'.balance)
  | _, _ => false

theorem sameEntry_of {t u : Transaction} (h : sameEntryB t u = true) : SameEntry t u := by
  unfold sameEntryB at h
  split at h
  · rename_i p q p' q' e1 e2
    rw [Bool.and_eq_true, Bool.and_eq_true, decide_eq_true_iff, decide_eq_true_iff, decide_eq_true_iff] at h
    exact ⟨h.1.1, p, q, p', q', e1, e2, h.1.2, h.2⟩
  · cases h

theorem sameEntries_of {l m : List Transaction} (hl : l.length = m.length) (h : List.zipWith sameEntryB l m = List.replicate m.length true) :
    List.Forall₂ SameEntry l m := by
  induction l generalizing m with
  | nil =>
    cases m with
    | nil => exact .nil
    | cons b m => simp at hl
  | cons a l ih =>
    cases m with
    | nil => simp at hl
    | cons b m =>
      rw [List.zipWith_cons_cons, List.length_cons, List.replicate_succ, List.cons.injEq] at h
      exact .cons (sameEntry_of h.1) (ih (by simpa using hl) h.2)

/-- The CSV file of the statement `Ex.pdfPage1`, `Ex.pdfPage2`. -/
def coffeeCsv : List (Option NationwideCsv.Row) := Ex.rows
  [["Account Name:", "Current"], ["Account Balance:", "£2094.00"], ["Available Balance:", "£2094.00"],
   ["Date", "Transaction type", "Description", "Paid out", "Paid in", "Balance"],
   ["01 Jan 2019", "Visa purchase", "COFFEE SHOP", "£3.00", "", "£1097.00"],
   ["01 Jan 2019", "Visa purchase", "COFFEE SHOP", "£3.00", "", "£1094.00"],
   ["02 Jan 2019", "Bank credit", "SALARY", "", "£1000.00", "£2094.00"]]

/-- The imports of the two files. -/
def coffeeImports : Except ImportErr (Import × Import) := do
  let csv ← NationwideCsv.getTransactions Ex.plainLib .generated false coffeeCsv
  let pdf ← NationwidePdf.getTransactions Ex.plainLib (.fixed "acc".toList) (Ex.pdfDoc Ex.pdfPage1 Ex.pdfPage2)
  pure (csv, pdf)

theorem coffee_plain : NationwideCsv.PlainFields coffeeCsv := by unfold NationwideCsv.PlainFields; decide +kernel

set_option maxRecDepth 100000 in
/-- The two payments for coffee are handed back although the files tell the balance after each; the salary becomes one transaction, with the header of the
CSV file and the fingerprints of both. -/
example : ∃ csv pdf, NationwideCsv.getTransactions Ex.plainLib .generated false coffeeCsv = .ok csv ∧
    NationwidePdf.getTransactions Ex.plainLib (.fixed "acc".toList) (Ex.pdfDoc Ex.pdfPage1 Ex.pdfPage2) = .ok pdf ∧
    MergesTwice csv pdf ∧ MergesTwice pdf csv ∧
    ∃ us m ws, Merger.new.merge HashOrder.sorted csv.postings = (.ok us, m) ∧ (m.merge HashOrder.sorted pdf.postings).1 = .ok ws ∧
      ws.map (fun t => t.trn.raw.description) = ["Coffee Shop".toList, "Coffee Shop".toList] := by
  have key : (match coffeeImports with
      | .ok (csv, pdf) =>
        decide ((Merger.new.merge HashOrder.sorted csv.postings).1 = .ok []) && decide ((Merger.new.merge HashOrder.sorted pdf.postings).1 = .ok []) &&
        (decide (csv.transactions.length = pdf.transactions.length) &&
          decide (List.zipWith sameEntryB csv.transactions pdf.transactions = List.replicate pdf.transactions.length true)) &&
        (match ((Merger.new.merge HashOrder.sorted csv.postings).2.merge HashOrder.sorted pdf.postings).1 with
          | .ok ws => decide (ws.map (fun t => t.trn.raw.description) = ["Coffee Shop".toList, "Coffee Shop".toList])
          | .error _ => false)
      | .error _ => false) = true := by decide +kernel
  cases hc : NationwideCsv.getTransactions Ex.plainLib .generated false coffeeCsv with
  | error e => rw [show coffeeImports = .error e by unfold coffeeImports; rw [hc]; rfl] at key; cases key
  | ok csv =>
    cases hp : NationwidePdf.getTransactions Ex.plainLib (.fixed "acc".toList) (Ex.pdfDoc Ex.pdfPage1 Ex.pdfPage2) with
    | error e => rw [show coffeeImports = .error e by unfold coffeeImports; rw [hc, hp]; rfl] at key; cases key
    | ok pdf =>
      rw [show coffeeImports = .ok (csv, pdf) by unfold coffeeImports; rw [hc, hp]; rfl] at key
      simp only [Bool.and_eq_true, decide_eq_true_iff] at key
      obtain ⟨⟨⟨k1, k2⟩, k3, k4⟩, k5⟩ := key
      have hd := (NationwideCsv.C47_nationwide_csv_merge hc coffee_plain HashOrder.sorted).1 k1
      have hd' := (NationwidePdf.C47_nationwide_pdf_merge hp HashOrder.sorted).1 k2
      obtain ⟨h1, h2⟩ := C91_csv_pdf hc hp coffee_plain hd hd' (sameEntries_of k3 k4)
      refine ⟨csv, pdf, rfl, rfl, h1, h2, [], (Merger.new.merge HashOrder.sorted csv.postings).2, ?_⟩
      split at k5
      · rename_i ws hw
        exact ⟨ws, Prod.ext k1 rfl, hw, of_decide_eq_true k5⟩
      · cases k5

end Verif
