import Verif.Props.NationwidePdf
import Verif.Props.NationwideDistinct
import Mathlib.Tactic.IntervalCases

/-!
# C71: which postings of a PDF statement share fingerprints
-/

namespace Verif
namespace NationwidePdf
open Nationwide NationwideCsv Tesseract Spec

/-! ## What is claimed -/

/-- The transactions described by groups of lines with these numbers. -/
def Described (L : ImportLib) (groups : List LineGroup) (ks : List Nat) (bs : List TransactionBuilder) : Prop :=
  bs.length = groups.length ∧ ∀ (i : Nat) (g : LineGroup) (k : Nat) (b : TransactionBuilder), groups[i]? = some g → ks[i]? = some k →
    bs[i]? = some b → Makes L g k b

/-- What is hashed for transactions. -/
def pdfTexts (bs : List TransactionBuilder) (x : Bytes) : Prop := ∃ b ∈ bs, ∃ s : Side, x = TransactionBuilder.text b s

/-- Transactions that agree on date, number, description and amount. -/
def Alike (b c : TransactionBuilder) : Prop :=
  b.date = c.date ∧ b.dateCounter = c.dateCounter ∧ b.description = c.description ∧ b.amount = c.amount ∧ b.type_ = c.type_
instance (b c) : Decidable (Alike b c) := by unfold Alike; infer_instance

/-! ## Proof -/

theorem pdfMoney_unique {L : ImportLib} {s : Str} {a b : Amount} (ha : PdfMoney L s a) (hb : PdfMoney L s b) : a = b := by
  obtain ⟨q, h1, rfl⟩ := ha
  obtain ⟨q', h1', rfl⟩ := hb
  rw [h1] at h1'
  cases h1'
  rfl

theorem forall₂_unique {α β : Type} {R : α → β → Prop} (hR : ∀ a b c, R a b → R a c → b = c) {xs : List α} {ys zs : List β}
    (h : List.Forall₂ R xs ys) (h' : List.Forall₂ R xs zs) : ys = zs := by
  induction h generalizing zs with
  | nil => cases h'; rfl
  | cons h1 _ ih => cases h' with
    | cons h1' h2' => rw [hR _ _ _ h1 h1', ih h2']

theorem Makes.unique {L : ImportLib} {g : LineGroup} {k : Int} {b c : TransactionBuilder} (hb : Makes L g k b) (hc : Makes L g k c) : b = c := by
  have h1 : b.date = c.date := Option.some.inj (hb.date.symm.trans hc.date)
  have h2 : b.dateCounter = c.dateCounter := hb.number.trans hc.number.symm
  have h3 : b.amount = c.amount ∧ b.type_ = c.type_ := by
    rcases hb.amount with ⟨e, t, s, p, m⟩ | ⟨e, t, s, p, m⟩ <;> rcases hc.amount with ⟨e', t', s', p', m'⟩ | ⟨e', t', s', p', m'⟩
    · rw [p] at p'; cases p'; exact ⟨pdfMoney_unique m m', t.trans t'.symm⟩
    · rw [p] at e'; cases e'
    · rw [p] at e'; cases e'
    · rw [p] at p'; cases p'; exact ⟨pdfMoney_unique m m', t.trans t'.symm⟩
  have h4 : b.description = c.description := hb.description.trans hc.description.symm
  have h5 : b.effectiveDate = c.effectiveDate := by
    obtain ⟨ds, f, e⟩ := hb.effective
    obtain ⟨ds', f', e'⟩ := hc.effective
    rw [e, e', forall₂_unique (fun l d d' h h' => Option.some.inj (h.symm.trans h')) f f']
  have h6 : b.balance = c.balance := by
    obtain ⟨ds, f, e⟩ := hb.balance
    obtain ⟨ds', f', e'⟩ := hc.balance
    rw [e, e', forall₂_unique (R := PdfMoney L) (fun _ _ _ h h' => pdfMoney_unique h h') f f']
  cases b
  cases c
  simp only at h1 h2 h3 h4 h5 h6
  obtain ⟨h3, h3'⟩ := h3
  subst h1 h2 h3 h3' h4 h5 h6
  rfl

theorem newBuilder_pdf {ns : Str} (h : GoodNamespace ns) : newBuilder "nwpdf".toList 1 ns = .ok ⟨[], "nwpdf".toList, 1, ns⟩ := by
  unfold newBuilder
  rw [good_new nwpdf_chars 1 h]

theorem pdfFp_value (L : ImportLib) {ns : Str} (h : GoodNamespace ns) (b : TransactionBuilder) (s : Side) :
    (s.pick (pdfFp L ns b).self (pdfFp L ns b).peer).value = Base64.encode (L.sha1 (TransactionBuilder.text b s)) := by
  have := C40_nationwide_pdf.1 L.sha1 b ns _ (newBuilder_pdf h) s
  cases s <;> exact this

/-- The fingerprint in the comment of a posting. -/
theorem pdf_read {L : ImportLib} {ns : Str} {g : LineGroup} {k : Nat} {b : TransactionBuilder} {t : Transaction} (h : PdfSays L ns g k t)
    (hb : Makes L g k b) (hg : GoodNamespace ns) {a : Nat} {x : Posting} (hx : t.postings[a]? = some x) :
    ∃ s : Side, a = Side.index s ∧ ∀ f, IsFp f →
      (f ∈ (Comment.fromOptComment x.comment).tags ↔ f = (s.pick (pdfFp L ns b).self (pdfFp L ns b).peer).legacyTag) := by
  obtain ⟨b', p, q, hm, hts, hp, hq⟩ := h
  obtain rfl := Makes.unique hb hm
  rw [hts.postings] at hx
  obtain ⟨s, rfl, rfl⟩ := two_postings hx
  refine ⟨s, rfl, fun f hf => ?_⟩
  have hw := pdf_words L hg b
  have hfix := fixed_words
  simp only [List.forall_mem_cons, List.not_mem_nil, false_implies, implies_true, and_true] at hfix
  have e1 : f ≠ "import-self".toList := fun e => hfix.1.2.2 (e ▸ hf)
  have e2 : f ≠ "import-peer".toList := fun e => hfix.2.1.2.2 (e ▸ hf)
  have e3 : f ≠ "unknown-account".toList := fun e => hfix.2.2.2.2 (e ▸ hf)
  cases s
  · show f ∈ (Comment.fromOptComment p.comment).tags ↔ f = (pdfFp L ns b).self.legacyTag
    rw [hp.read_iff hw.1 (seq_plain hg _ bank_plain)]
    generalize (pdfFp L ns b).self.legacyTag = w
    simp only [List.mem_cons, List.not_mem_nil, or_false, e1, e3]
  · show f ∈ (Comment.fromOptComment q.comment).tags ↔ f = (pdfFp L ns b).peer.legacyTag
    rw [hq.read_iff hw.2 bank_plain]
    generalize (pdfFp L ns b).peer.legacyTag = w
    simp only [List.mem_cons, List.not_mem_nil, or_false, e2, e3]

theorem alike_text {b c : TransactionBuilder} (h : Alike b c) (s : Side) : TransactionBuilder.text b s = TransactionBuilder.text c s := by
  obtain ⟨h1, h2, h3, h4, h5⟩ := h
  unfold TransactionBuilder.text
  rw [halves_eq, halves_eq]
  unfold TransactionBuilder.signed
  rw [h1, h2, h3, h4, h5]

/-- C71: provided that the hash function has no collision for the document, two different postings of an imported document share a
fingerprint exactly if they are for two transactions that agree on date, number on that date, description and amount. -/
theorem C71_shared {L : ImportLib} {fpNs : FpNamespace} {doc : Document} {imp : Import} {lines lead : List TransactionLine}
    {groups : List LineGroup} {ks : List Nat} {bs : List TransactionBuilder}
    (h : getTransactions L fpNs doc = .ok imp) (hl : LinesOf L doc lines) (hs : Splits lines lead groups) (hk : Numbers groups ks)
    (hb : Described L groups ks bs) (hfit : ∀ b ∈ bs, TransactionBuilder.Fits b) (hsha : NoCollision L.sha1 (pdfTexts bs)) :
    DistinctFingerprints imp.transactions ↔ ∀ (i j : Nat) (b c : TransactionBuilder), bs[i]? = some b → bs[j]? = some c → Alike b c → i = j := by
  obtain ⟨account, lines', lead', groups', ks', _, _, hl', hs', hk', hlen, hc⟩ := C51_transactions h
  obtain rfl := (C51_groups L doc).1 _ _ hl hl'
  obtain ⟨_, _, _, hu⟩ := (C51_groups L doc).2.1 lines
  obtain ⟨rfl, rfl⟩ := hu _ _ hs
  obtain ⟨rfl, rfl⟩ := hu _ _ hs'
  obtain ⟨_, _, hu⟩ := (C51_groups L doc).2.2 groups'
  obtain rfl := hu _ hk
  obtain rfl := hu _ hk'
  have hkl := hk'.1
  have hbl := hb.1
  have hsays : ∀ (i : Nat) (t : Transaction), imp.transactions[i]? = some t → ∃ g k b, bs[i]? = some b ∧ b ∈ bs ∧ Makes L g (k : Nat) b ∧
      PdfSays L imp.userFpNamespace g k t ∧ GoodNamespace imp.userFpNamespace := by
    intro i t et
    have hi := (List.getElem?_eq_some_iff.1 et).1
    have hb' : bs[i]? = some bs[i] := List.getElem?_eq_getElem (by omega)
    have hg' : groups'[i]? = some groups'[i] := List.getElem?_eq_getElem (by omega)
    have hk' : ks'[i]? = some ks'[i] := List.getElem?_eq_getElem (by omega)
    exact ⟨_, _, _, hb', List.getElem_mem _, hb.2 i _ _ _ hg' hk' hb', hc i _ _ t hg' hk' et, (from_lines h (List.mem_of_getElem? et)).1⟩
  constructor
  · intro hdist i j b c hi hj hal
    have hi' := (List.getElem?_eq_some_iff.1 hi).1
    have hj' := (List.getElem?_eq_some_iff.1 hj).1
    have et : imp.transactions[i]? = some imp.transactions[i] := List.getElem?_eq_getElem (by omega)
    have eu : imp.transactions[j]? = some imp.transactions[j] := List.getElem?_eq_getElem (by omega)
    obtain ⟨g, k, b', eb, _, hm, ht, hg⟩ := hsays i _ et
    obtain ⟨g', k', c', ec, _, hm', hu, _⟩ := hsays j _ eu
    rw [hi] at eb; cases eb
    rw [hj] at ec; cases ec
    generalize imp.transactions[i] = t at et ht
    generalize imp.transactions[j] = u at eu hu
    obtain ⟨_, p, _, _, htp, _⟩ := id ht
    obtain ⟨_, q, _, _, huq, _⟩ := id hu
    have hp0 : t.postings[0]? = some p := by rw [htp.postings]; rfl
    have hq0 : u.postings[0]? = some q := by rw [huq.postings]; rfl
    obtain ⟨s, es, hrs⟩ := pdf_read ht hm hg hp0
    obtain ⟨s', es', hrs'⟩ := pdf_read hu hm' hg hq0
    have hss : s = s' := index_inj (es.symm.trans es')
    subst hss
    have hbt := C42_legacy_tag (pick_built (pdfFp_built L hg b) s)
    refine (hdist i j 0 0 t u p q _ et eu hp0 hq0 hbt.1 ((hrs _ hbt.1).2 rfl) ((hrs' _ hbt.1).2 ?_)).1
    have e : ∀ b : TransactionBuilder, (s.pick (pdfFp L imp.userFpNamespace b).self (pdfFp L imp.userFpNamespace b).peer).legacyTag =
        "fp-".toList ++ (imp.userFpNamespace ++ '-' :: Base64.encode (L.sha1 (TransactionBuilder.text b s))) := by
      intro b
      rw [legacyTag_eq, pdfFp_value L hg]
      cases s <;> rfl
    rw [e, e, alike_text hal]
  · intro hinj i j a b t u p q f et eu hpa hqb hf hfp hfq
    obtain ⟨g, k, b, eb, mb, hm, ht, hg⟩ := hsays i _ et
    obtain ⟨g', k', c, ec, mc, hm', hu, _⟩ := hsays j _ eu
    obtain ⟨s, rfl, hrs⟩ := pdf_read ht hm hg hpa
    obtain ⟨s', rfl, hrs'⟩ := pdf_read hu hm' hg hqb
    have e := ((hrs f hf).1 hfp).symm.trans ((hrs' f hf).1 hfq)
    have e := (C41_legacy_tag (pick_built (pdfFp_built L hg _) _) (pick_built (pdfFp_built L hg _) _) e).2
    rw [pdfFp_value L hg, pdfFp_value L hg] at e
    have e := hsha _ _ ⟨b, mb, s, rfl⟩ ⟨c, mc, s', rfl⟩ (base64_inj e)
    obtain ⟨e1, e2, e3, e4, e5, e6⟩ := C40_nationwide_pdf.2 b c s s' (hfit b mb) (hfit c mc) hm.positive hm'.positive e
    exact ⟨hinj i j b c eb ec ⟨e1, e2, e3, e4, e5⟩, by rw [e6]⟩

/-- C71: no two postings of a document share a fingerprint if transactions of a date are next to each other and no transaction goes over
to lines without its date. -/
theorem C71_days {L : ImportLib} {fpNs : FpNamespace} {doc : Document} {imp : Import} {lines lead : List TransactionLine}
    {groups : List LineGroup} {ks : List Nat} {bs : List TransactionBuilder}
    (h : getTransactions L fpNs doc = .ok imp) (hl : LinesOf L doc lines) (hs : Splits lines lead groups) (hk : Numbers groups ks)
    (hb : Described L groups ks bs) (hfit : ∀ b ∈ bs, TransactionBuilder.Fits b) (hsha : NoCollision L.sha1 (pdfTexts bs))
    (hd : ∀ g ∈ groups, ∀ l ∈ g.more, l.impliedDate = g.start.impliedDate) (ht : Together (groups.map fun g => g.start.impliedDate)) :
    DistinctFingerprints imp.transactions := by
  refine (C71_shared h hl hs hk hb hfit hsha).2 fun i j b c hi hj hal => ?_
  have hbl := hb.1
  have hi' := (List.getElem?_eq_some_iff.1 hi).1
  have hj' := (List.getElem?_eq_some_iff.1 hj).1
  have gi : groups[i]? = some groups[i] := List.getElem?_eq_getElem (by omega)
  have gj : groups[j]? = some groups[j] := List.getElem?_eq_getElem (by omega)
  have ki := C51_numbers hk hd i (by omega)
  have kj := C51_numbers hk hd j (by omega)
  have mi := hb.2 i _ _ b gi ki hi
  have mj := hb.2 j _ _ c gj kj hj
  refine together_unique ht (x := some b.date) ?_ ?_ ?_
  · rw [List.getElem?_map, gi, Option.map_some, mi.date]
  · rw [List.getElem?_map, gj, Option.map_some, mj.date, hal.1]
  · have := hal.2.1
    rw [mi.number, mj.number] at this
    exact_mod_cast this

/-! ## Example -/

theorem linesOf_read {L : ImportLib} {doc : Document} {pages : List (List TransactionLine)}
    (h : List.Forall₂ (fun t ls => readLines L t.1 t.2 = .ok ls) (doc.pages.flatMap findTables) pages) :
    LinesOf L doc (pages.flatMap (upTo none)) := (lines_iff ..).1 ⟨pages, h, rfl⟩

/-- The lines of the two pages. -/
def exPages : List (List TransactionLine) :=
  ((Ex.pdfDoc Ex.pdfPage1 Ex.pdfPage2).pages.flatMap findTables).map fun t =>
    match readLines Ex.plainLib t.1 t.2 with
    | .ok ls => ls
    | .error _ => []

/-- The lines of the statement. -/
def exLines : List TransactionLine := exPages.flatMap (upTo none)

/-- The transactions of the statement. -/
def exTransactions : List TransactionBuilder :=
  [⟨⟨2019, 1, 1⟩, 0, ⟨⟨false, 300, 2⟩, gbp⟩, .payment, none, "Coffee Shop".toList, some ⟨⟨false, 109700, 2⟩, gbp⟩⟩,
   ⟨⟨2019, 1, 1⟩, 1, ⟨⟨false, 300, 2⟩, gbp⟩, .payment, some ⟨2019, 1, 2⟩, "Coffee Shop".toList, some ⟨⟨false, 109400, 2⟩, gbp⟩⟩,
   ⟨⟨2019, 1, 2⟩, 0, ⟨⟨false, 100000, 2⟩, gbp⟩, .receipt, none, "Salary".toList, some ⟨⟨false, 209400, 2⟩, gbp⟩⟩]

theorem forall₂_of_map {α β : Type} {R : α → β → Prop} (f : α → β) {xs : List α} (h : ∀ x ∈ xs, R x (f x)) : List.Forall₂ R xs (xs.map f) := by
  induction xs with
  | nil => exact .nil
  | cons x xs ih => exact .cons (h x List.mem_cons_self) (ih fun y hy => h y (List.mem_cons_of_mem _ hy))

set_option maxRecDepth 100000 in
theorem exLines_read : LinesOf Ex.plainLib (Ex.pdfDoc Ex.pdfPage1 Ex.pdfPage2) exLines := by
  refine linesOf_read (forall₂_of_map _ ?_)
  have h : ∀ t ∈ (Ex.pdfDoc Ex.pdfPage1 Ex.pdfPage2).pages.flatMap findTables, (readLines Ex.plainLib t.1 t.2).isOk = true := by decide +kernel
  intro t ht
  have := h t ht
  cases e : readLines Ex.plainLib t.1 t.2 with
  | ok ls => rfl
  | error e' => rw [e] at this; cases this


theorem money_of {L : ImportLib} {s : Str} {a : Amount} (h : L.decimal (s.filter (· ≠ ',')) = some a.quantity) (hc : a.commodity = gbp) :
    PdfMoney L s a := by
  refine ⟨_, h, ?_⟩
  cases a
  subst hc
  rfl

theorem forall₂_of_mapM {α β : Type} (f : α → Option β) : ∀ {xs : List α} {ys : List β}, xs.map f = ys.map some →
    List.Forall₂ (fun x y => f x = some y) xs ys
  | [], [], _ => .nil
  | [], _ :: _, h => by cases h
  | _ :: _, [], h => by cases h
  | _ :: _, _ :: _, h => .cons (List.cons.inj h).1 (forall₂_of_mapM f (List.cons.inj h).2)

/-- A way to check what lines say. -/
theorem makes_of {L : ImportLib} {g : LineGroup} {k : Int} {b : TransactionBuilder} (ds : List Date) (qs : List Decimal)
    (h1 : g.start.impliedDate = some b.date) (h2 : b.dateCounter = k)
    (h3 : ∃ s, ((g.start.receipt = none ∧ b.type_ = .payment ∧ g.start.payment = some s) ∨
      (g.start.payment = none ∧ b.type_ = .receipt ∧ g.start.receipt = some s)) ∧
      L.decimal (s.filter (· ≠ ',')) = some b.amount.quantity) (h4 : b.amount.commodity = gbp) (h5 : b.amount.quantity.neg = false)
    (h6 : b.description = Str.join [' '] (g.start.detail :: (g.more.filter fun l => l.detail ≠ [] ∧ ¬ TellsDate l).map (·.detail)))
    (h7 : (g.more.filter fun l => TellsDate l).map (fun l => L.dateEffective l.detail) = ds.map some) (h8 : b.effectiveDate = ds.getLast?)
    (h9 : (g.lines.filterMap (·.balance)).map (fun s => L.decimal (s.filter (· ≠ ','))) = qs.map some)
    (h10 : b.balance = (qs.map fun q => (⟨q, gbp⟩ : Amount)).getLast?) : Makes L g k b where
  date := h1
  number := h2
  amount := by
    obtain ⟨s, h3, hd⟩ := h3
    have hm := money_of hd h4
    rcases h3 with ⟨a1, a2, a3⟩ | ⟨a1, a2, a3⟩
    · exact .inl ⟨a1, a2, s, a3, hm⟩
    · exact .inr ⟨a1, a2, s, a3, hm⟩
  positive := h5
  description := h6
  effective := ⟨ds, forall₂_of_mapM _ h7, h8⟩
  balance := by
    refine ⟨_, ?_, h10⟩
    rw [List.forall₂_map_right_iff]
    exact (forall₂_of_mapM _ h9).imp fun s q h => ⟨q, h, rfl⟩

set_option maxRecDepth 100000 in
theorem exTransactions_described : Described Ex.plainLib (splitLines exLines).2 (numbers (splitLines exLines).2) exTransactions := by
  have hk : numbers (splitLines exLines).2 = [0, 1, 0] := by decide +kernel
  have hl : (splitLines exLines).2.length = 3 := by decide +kernel
  refine ⟨by rw [hl]; rfl, fun i g k b hg hk' hb => ?_⟩
  rw [hk] at hk'
  obtain ⟨hi, rfl⟩ := List.getElem?_eq_some_iff.1 hg
  match i, hk', hb with
  | 0, hk', hb =>
    cases hk'; cases hb
    show Makes _ ((splitLines exLines).2[0]'(by decide +kernel)) _ _
    exact makes_of [] [⟨false, 109700, 2⟩] (by decide +kernel) rfl ⟨"3.00".toList, by decide +kernel⟩ rfl rfl
      (by decide +kernel) (by decide +kernel) rfl (by decide +kernel) rfl
  | 1, hk', hb =>
    cases hk'; cases hb
    show Makes _ ((splitLines exLines).2[1]'(by decide +kernel)) _ _
    exact makes_of [⟨2019, 1, 2⟩] [⟨false, 109400, 2⟩] (by decide +kernel) rfl ⟨"3.00".toList, by decide +kernel⟩ rfl rfl
      (by decide +kernel) (by decide +kernel) rfl (by decide +kernel) rfl
  | 2, hk', hb =>
    cases hk'; cases hb
    show Makes _ ((splitLines exLines).2[2]'(by decide +kernel)) _ _
    exact makes_of [] [⟨false, 209400, 2⟩] (by decide +kernel) rfl ⟨"1,000.00".toList, by decide +kernel⟩ rfl rfl
      (by decide +kernel) (by decide +kernel) rfl (by decide +kernel) rfl

set_option maxRecDepth 100000 in
/-- The statement with two equal payments on one day meets the hypotheses of `C71_shared`, with an injective hash function: all four
postings for the payments and both for the salary have fingerprints of their own. With `C51_page_break` there is a statement with shared ones. -/
example : ∃ imp, getTransactions Ex.plainLib (.fixed "acc".toList) (Ex.pdfDoc Ex.pdfPage1 Ex.pdfPage2) = .ok imp ∧ imp.transactions.length = 3 ∧
    NoCollision Ex.plainLib.sha1 (pdfTexts exTransactions) ∧ (∀ b ∈ exTransactions, TransactionBuilder.Fits b) ∧
    DistinctFingerprints imp.transactions := by
  obtain ⟨imp, h, h1⟩ := of_run (x := getTransactions Ex.plainLib (.fixed "acc".toList) (Ex.pdfDoc Ex.pdfPage1 Ex.pdfPage2))
    (P := fun imp => imp.transactions.length = 3) (by decide +kernel)
  have hsha : NoCollision Ex.plainLib.sha1 (pdfTexts exTransactions) := fun _ _ _ _ e => e
  have hfit : ∀ b ∈ exTransactions, TransactionBuilder.Fits b := by decide +kernel
  refine ⟨imp, h, h1, hsha, hfit, ?_⟩
  refine (C71_shared h exLines_read (splitLines_splits _) (numbers_numbers _) exTransactions_described hfit hsha).2 ?_
  intro i j b c hi hj hal
  match i, j, hi, hj with
  | 0, 0, _, _ | 1, 1, _, _ | 2, 2, _, _ => rfl
  | 0, 1, hi, hj | 0, 2, hi, hj | 1, 0, hi, hj | 1, 2, hi, hj | 2, 0, hi, hj | 2, 1, hi, hj =>
    cases hi; cases hj; revert hal; decide +kernel

set_option maxRecDepth 100000 in
/-- The same statement meets the hypotheses of `C71_days`. -/
example : (∀ g ∈ (splitLines exLines).2, ∀ l ∈ g.more, l.impliedDate = g.start.impliedDate) ∧
    Together ((splitLines exLines).2.map fun g => g.start.impliedDate) := by
  refine ⟨by decide +kernel, ?_⟩
  have e : (splitLines exLines).2.map (fun g => g.start.impliedDate) = [some ⟨2019, 1, 1⟩, some ⟨2019, 1, 1⟩, some ⟨2019, 1, 2⟩] := by decide +kernel
  rw [e]
  intro i j k x hij hjk hi hk
  have hk3 := (List.getElem?_eq_some_iff.1 hk).1
  simp only [List.length_cons, List.length_nil] at hk3
  interval_cases k <;> interval_cases j <;> interval_cases i <;> first | exact hi | exact hk

end NationwidePdf
end Verif
