import Verif.Props.PdfStatements

/-!
# C96 for files and statements of Nationwide, of several accounts and in any format
-/

namespace Verif
open Spec Spec.Book
namespace NationwideCsv
open Nationwide

/-! ## What is claimed -/

/-- What a row of a file says: a row of a CSV file of five or six columns, with its number, or a transaction of a PDF statement. -/
inductive FileRow
  | five (r : RecordFive) (k : Nat)
  | six (r : RecordSix) (k : Nat) (legacy : Bool)
  | pdf (b : NationwidePdf.TransactionBuilder)

/-- The date of a row. -/
def FileRow.date : FileRow → Date
  | .five r _ => r.date
  | .six r _ _ => r.date
  | .pdf b => b.date

/-- The sum that a row is about, without regard to its direction. -/
def FileRow.Sum : FileRow → Rat → Prop
  | .five r _, x => SumOf r.paidIn r.paidOut x
  | .six r _ _, x => SumOf r.paidIn r.paidOut x
  | .pdf b, x => value b.amount.quantity = x

/-- Two rows of the same date about the same sum, in or out. -/
def FileRow.SameDaySum (r s : FileRow) : Prop := r.date = s.date ∧ ∃ x, r.Sum x ∧ s.Sum x

/-- How fingerprints are made: those of a kind are only compared with each other. -/
inductive Kind
  | five | six | plain
  deriving DecidableEq

/-- What is hashed for a row. -/
inductive FileRow.Hashed : FileRow → Kind → Bytes → Prop
  | five (r k s) : Hashed (.five r k) .five (r.text k s)
  | six (r k legacy s) : Hashed (.six r k legacy) .six (r.text k s)
  | legacy (r : RecordSix) (k : Nat) (amt s) : OwnAmount r.paidIn r.paidOut amt → Hashed (.six r k true) .plain (r.legacyText k amt s)
  | pdf (b s) : Hashed (.pdf b) .plain (NationwidePdf.TransactionBuilder.text b s)

/-- What is imported from a file or a statement, and its rows. -/
inductive IsFile (L : ImportLib) : Import → List FileRow → Prop
  | five {fpNs legacy records imp account rows} {rs : List RecordFive} : getTransactions L fpNs legacy records = .ok imp →
      FileShape L records account fiveColumns rows → Records (FiveRow L) rows rs → PlainFields records → rows.length < 2 ^ 31 →
      IsFile L imp (rs.mapIdx fun i r => .five r (sinceChange (rs.map RecordFive.date) i))
  | six {fpNs legacy records imp account rows} {rs : List RecordSix} : getTransactions L fpNs legacy records = .ok imp →
      FileShape L records account sixColumns rows → Records (SixRow L) rows rs → PlainFields records → rows.length < 2 ^ 31 →
      IsFile L imp (rs.mapIdx fun i r => .six r (sinceChange (rs.map RecordSix.date) i) legacy)
  | pdf {doc bs imp} : NationwidePdf.StatementOf L doc bs imp → IsFile L imp (bs.map .pdf)

/-- There are not both a statement and a file with legacy fingerprints: these are made in the same way of other things. -/
def NotMixed (rows : List FileRow) : Prop := ∀ b r k, FileRow.pdf b ∈ rows → FileRow.six r k true ∉ rows

/-! ## Proof -/

/-- What fits into the numbers that are hashed. -/
def FileRow.Fits : FileRow → Prop
  | .five r k => r.Fits ∧ FitsI32 k
  | .six r k _ => r.Fits ∧ FitsI32 k
  | .pdf b => NationwidePdf.TransactionBuilder.Fits b ∧ b.amount.quantity.neg = false

/-- The tag of a fingerprint of this kind. -/
def KindTag (kind : Kind) (g : Fingerprint) (f : Str) : Prop :=
  match kind with
  | .five => f = g.tag ∧ g.algorithmName = "nwcsv5".toList
  | .six => f = g.tag ∧ g.algorithmName = "nwcsv6".toList
  | .plain => f = g.legacyTag

theorem kindTag_unique {kind kind' : Kind} {g g' : Fingerprint} {f : Str} (hg : Built g) (hg' : Built g') (h : KindTag kind g f)
    (h' : KindTag kind' g' f) : kind = kind' ∧ g.value = g'.value := by
  have hne : "nwcsv5".toList ≠ "nwcsv6".toList := by decide
  have both : f = g.tag → f = g'.tag → g = g' := fun e e' => C41_tag hg hg' (e.symm.trans e')
  cases kind <;> cases kind'
  · exact ⟨rfl, by rw [both h.1 h'.1]⟩
  · exact absurd (h.2.symm.trans ((congrArg _ (both h.1 h'.1)).trans h'.2)) hne
  · exact absurd (h.1.symm.trans h') (C41_tag_ne_legacy hg')
  · exact absurd (h'.2.symm.trans ((congrArg _ (both h.1 h'.1).symm).trans h.2)) hne
  · exact ⟨rfl, by rw [both h.1 h'.1]⟩
  · exact absurd (h.1.symm.trans h') (C41_tag_ne_legacy hg')
  · exact absurd (h'.1.symm.trans h) (C41_tag_ne_legacy hg)
  · exact absurd (h'.1.symm.trans h) (C41_tag_ne_legacy hg)
  · exact ⟨rfl, (C41_legacy_tag hg hg' (h.symm.trans h')).2⟩

/-- What matters about a transaction and its row. -/
structure RowFacts (L : ImportLib) (t : Transaction) (r : FileRow) : Prop where
  row : ∃ a, RowTransaction t r.date a ∧ ∀ x, r.Sum x ↔ 0 ≤ x ∧ (value a.quantity = x ∨ value a.quantity = -x)
  fits : r.Fits
  made : ∀ p ∈ t.postings, ∀ f ∈ fps (.ofPosting p), ∃ kind g x, r.Hashed kind x ∧ Built g ∧ g.value = Base64.encode (L.sha1 x) ∧ KindTag kind g f

theorem five_row_facts {L : ImportLib} {fpNs : FpNamespace} {legacy : Bool} {records : List (Option Row)} {imp : Import} {account : Str}
    {rows : List (Option Row)} {rs : List RecordFive} (h : getTransactions L fpNs legacy records = .ok imp)
    (hs : FileShape L records account fiveColumns rows) (hrs : Records (FiveRow L) rows rs) (hp : PlainFields records) (hd : PlainDates L)
    (hlen : rows.length < 2 ^ 31) :
    List.Forall₂ (RowFacts L) imp.transactions (rs.mapIdx fun i r => .five r (sinceChange (rs.map RecordFive.date) i)) := by
  obtain ⟨hacc, hrows⟩ := shape_plain hs hp
  obtain ⟨_, hl, rs', hl', hc⟩ := C45_five h hs
  obtain rfl : rs' = rs := records_get hrs (fun row r r' h1 h2 => by
    rw [← fiveRow_iff] at h1 h2; rw [h1] at h2; exact Option.some.inj h2) hl' fun i hi => (hc i hi).1
  rw [List.forall₂_iff_get]
  refine ⟨by rw [List.length_mapIdx]; omega, fun i h1 h2 => ?_⟩
  rw [List.length_mapIdx] at h2
  have hg : GoodNamespace imp.userFpNamespace := by
    refine (good_of_row h hs).resolve_left ?_
    rintro rfl
    rw [hl'] at h2
    cases h2
  obtain ⟨⟨row, e, hr⟩, t, et, ht⟩ := hc i h2
  have hf := fiveRow_fits hd (hrows row (List.mem_of_getElem? e)) hr
  rw [List.get_eq_getElem, List.get_eq_getElem, List.getElem_mapIdx, (List.getElem?_eq_some_iff.1 et).2]
  obtain ⟨a, ha, ho⟩ := five_transaction hr ht hg hacc hf.2.1 hf.2.2
  refine ⟨⟨a, ha, fun x => sum_own ho⟩, ⟨hf.1, fits_count (sinceChange_le _ i) (by rw [List.length_map, hl']; exact hlen)⟩, ?_⟩
  intro p hp f hfp
  obtain ⟨hm, hfp⟩ := mem_fps.1 hfp
  obtain ⟨n, hn⟩ := List.mem_iff_getElem?.1 hp
  obtain ⟨s, _, hread⟩ := five_read ht hg hacc hf.2.1 hf.2.2 hn
  refine ⟨.five, _, _, .five _ _ s, pick_built (fiveFp_built L _ hg _) s, fiveFp_value L _ hg _ s, (hread f hfp).1 hm, ?_⟩
  cases s <;> rfl

theorem six_row_facts {L : ImportLib} {fpNs : FpNamespace} {legacy : Bool} {records : List (Option Row)} {imp : Import} {account : Str}
    {rows : List (Option Row)} {rs : List RecordSix} (h : getTransactions L fpNs legacy records = .ok imp)
    (hs : FileShape L records account sixColumns rows) (hrs : Records (SixRow L) rows rs) (hp : PlainFields records) (hd : PlainDates L)
    (hlen : rows.length < 2 ^ 31) :
    List.Forall₂ (RowFacts L) imp.transactions (rs.mapIdx fun i r => .six r (sinceChange (rs.map RecordSix.date) i) legacy) := by
  obtain ⟨hacc, hrows⟩ := shape_plain hs hp
  obtain ⟨_, hl, rs', hl', hc⟩ := C45_six h hs
  obtain rfl : rs' = rs := records_get hrs (fun row r r' h1 h2 => by
    rw [← sixRow_iff] at h1 h2; rw [h1] at h2; exact Option.some.inj h2) hl' fun i hi => (hc i hi).1
  rw [List.forall₂_iff_get]
  refine ⟨by rw [List.length_mapIdx]; omega, fun i h1 h2 => ?_⟩
  rw [List.length_mapIdx] at h2
  have hg : GoodNamespace imp.userFpNamespace := by
    refine (good_of_row h hs).resolve_left ?_
    rintro rfl
    rw [hl'] at h2
    cases h2
  obtain ⟨⟨row, e, hr⟩, t, et, ht⟩ := hc i h2
  have hf := sixRow_fits hd (hrows row (List.mem_of_getElem? e)) hr
  rw [List.get_eq_getElem, List.get_eq_getElem, List.getElem_mapIdx, (List.getElem?_eq_some_iff.1 et).2]
  obtain ⟨a, ha, ho⟩ := six_transaction hr ht hg hacc hf.2
  refine ⟨⟨a, ha, fun x => sum_own ho⟩, ⟨hf.1, fits_count (sinceChange_le _ i) (by rw [List.length_map, hl']; exact hlen)⟩, ?_⟩
  intro p hp f hfp
  obtain ⟨hm, hfp⟩ := mem_fps.1 hfp
  obtain ⟨n, hn⟩ := List.mem_iff_getElem?.1 hp
  obtain ⟨s, amt, _, ho, hread⟩ := six_read ht hg hacc hf.2 hn
  rcases (hread f hfp).1 hm with e | ⟨rfl, e⟩
  · refine ⟨.six, _, _, .six _ _ _ s, pick_built (sixFp_built L _ hg _) s, sixFp_value L _ hg _ s, e, ?_⟩
    cases s <;> rfl
  · exact ⟨.plain, _, _, .legacy _ _ _ s ho, pick_built (sixLegacyFp_built L _ hg _ _) s, sixLegacyFp_value L _ hg _ _ s, e⟩

theorem pdf_row_facts {L : ImportLib} {doc : Tesseract.Document} {bs : List NationwidePdf.TransactionBuilder} {imp : Import}
    (h : NationwidePdf.StatementOf L doc bs imp) : List.Forall₂ (RowFacts L) imp.transactions (bs.map .pdf) := by
  rw [List.forall₂_map_right_iff]
  have : List.Forall₂ (fun t b => (∃ ns g k, GoodNamespace ns ∧ Makes L g (k : Nat) b ∧ PdfSays L ns g k t) ∧ b ∈ bs)
      imp.transactions bs := by
    have := h.says
    rw [List.forall₂_iff_get] at this ⊢
    exact ⟨this.1, fun i h1 h2 => ⟨this.2 i h1 h2, List.get_mem _ _⟩⟩
  refine this.imp ?_
  rintro t b ⟨⟨ns, g, k, hg, hm, hs⟩, mb⟩
  obtain ⟨a, ha, hv⟩ := NationwidePdf.pdf_row hg hm hs
  have h0 := NationwidePdf.value_nonneg hm.positive
  refine ⟨⟨a, ha, fun x => ?_⟩, ⟨h.fits b mb, hm.positive⟩, ?_⟩
  · show value b.amount.quantity = x ↔ _
    constructor
    · rintro rfl
      exact ⟨h0, hv⟩
    · rintro ⟨hx, h1 | h1⟩ <;> rcases hv with hv | hv <;> linarith
  · intro p hp f hfp
    obtain ⟨hmem, hfp⟩ := mem_fps.1 hfp
    obtain ⟨n, hn⟩ := List.mem_iff_getElem?.1 hp
    obtain ⟨s, _, hread⟩ := NationwidePdf.pdf_read hs hm hg hn
    exact ⟨.plain, _, _, .pdf _ s, pick_built (NationwidePdf.pdfFp_built L hg b) s, NationwidePdf.pdfFp_value L hg b s, (hread f hfp).1 hmem⟩

theorem IsFile.facts {L : ImportLib} {imp : Import} {rows : List FileRow} (h : IsFile L imp rows) (hd : PlainDates L) :
    List.Forall₂ (RowFacts L) imp.transactions rows := by
  cases h with
  | five h1 h2 h3 h4 h5 => exact five_row_facts h1 h2 h3 h4 hd h5
  | six h1 h2 h3 h4 h5 => exact six_row_facts h1 h2 h3 h4 hd h5
  | pdf h => exact pdf_row_facts h

/-- What is hashed tells the date and the sum. -/
theorem hashed_sameDaySum {r s : FileRow} {kind : Kind} {x : Bytes} (hr : r.Hashed kind x) (hs : s.Hashed kind x) (fr : r.Fits) (fs : s.Fits)
    (hx : ∃ y, r.Sum y) (h1 : ∀ b r' k, r = .pdf b → s ≠ .six r' k true) (h2 : ∀ b r' k, s = .pdf b → r ≠ .six r' k true) : r.SameDaySum s := by
  obtain ⟨y, hy⟩ := hx
  generalize hk : kind = kind' at hs
  generalize hxx : x = x' at hs
  cases hr with
  | five r k a =>
    cases hs with
    | five r' k' a' =>
      obtain ⟨rfl, _⟩ := C40_nationwide_five.2 _ _ _ _ _ _ fr.1 fs.1 fr.2 fs.2 hxx
      exact ⟨rfl, y, hy, hy⟩
    | six | legacy | pdf => cases hk
  | six r k l a =>
    cases hs with
    | six r' k' l' a' =>
      obtain ⟨rfl, _⟩ := C40_nationwide_six.2 _ _ _ _ _ _ fr.1 fs.1 fr.2 fs.2 hxx
      exact ⟨rfl, y, hy, hy⟩
    | five | legacy | pdf => cases hk
  | legacy r k amt a ho =>
    cases hs with
    | legacy r' k' amt' a' ho' =>
      obtain ⟨_, e2, _, _, rfl, _⟩ := C40_nationwide_six_legacy.2 _ _ _ _ _ _ _ _ fr.1 fs.1 fr.2 fs.2
        (own_fits fr.1.2.2.2.2.1 fr.1.2.2.2.1 ho) (own_fits fs.1.2.2.2.2.1 fs.1.2.2.2.1 ho') hxx
      exact ⟨e2, y, hy, (sum_own ho').2 ((sum_own ho).1 hy)⟩
    | five | six => cases hk
    | pdf b => exact absurd rfl (h2 b r k rfl)
  | pdf b a =>
    cases hs with
    | pdf b' a' =>
      obtain ⟨e1, _, _, e4, _⟩ := NationwidePdf.C40_nationwide_pdf.2 b b' a a' fr.1 fs.1 fr.2 fs.2 hxx
      exact ⟨e1, y, hy, by rw [← hy]; show value b'.amount.quantity = _; rw [← e4]⟩
    | five | six => cases hk
    | legacy r' k' => exact absurd rfl (h1 b r' k' rfl)

/-- No posting of a file can be taken for one of another exactly if no two of their rows have the same date and sum. -/
theorem files_separate {L : ImportLib} {imp imp' : Import} {rows rows' : List FileRow} (ha : List.Forall₂ (RowFacts L) imp.transactions rows)
    (hb : List.Forall₂ (RowFacts L) imp'.transactions rows') (hmix : NotMixed (rows ++ rows'))
    (hsha : NoCollision L.sha1 fun x => ∃ r ∈ rows ++ rows', ∃ kind, r.Hashed kind x) :
    Separate imp.postings imp'.postings ↔ ∀ r ∈ rows, ∀ s ∈ rows', ¬ r.SameDaySum s := by
  have sums : ∀ {r s : FileRow} {a b : Amount}, (∀ x, r.Sum x ↔ 0 ≤ x ∧ (value a.quantity = x ∨ value a.quantity = -x)) →
      (∀ x, s.Sum x ↔ 0 ≤ x ∧ (value b.quantity = x ∨ value b.quantity = -x)) →
      ((∃ x, r.Sum x ∧ s.Sum x) ↔ value a.quantity = value b.quantity ∨ value a.quantity = -value b.quantity) := by
    intro r s a b h1 h2
    simp only [h1, h2]
    constructor
    · rintro ⟨x, ⟨_, h1 | h1⟩, ⟨_, h2 | h2⟩⟩ <;> rw [h1, h2] <;> simp
    · intro hv
      rcases le_total 0 (value b.quantity) with hb | hb
      · exact ⟨value b.quantity, ⟨hb, hv⟩, hb, Or.inl rfl⟩
      · refine ⟨-value b.quantity, ⟨by linarith, ?_⟩, by linarith, Or.inr (neg_neg _).symm⟩
        rw [neg_neg]
        exact hv.symm
  constructor
  · rintro hs r hr s hs' ⟨hd, hv⟩
    obtain ⟨t, ht, ⟨a, hta, hav⟩, _, _⟩ := forall₂_right ha hr
    obtain ⟨u, hu, ⟨b, hub, hbv⟩, _, _⟩ := forall₂_right hb hs'
    obtain ⟨p, hp, q, hq, hm⟩ := (rows_soft hta hub).2 ((sums hav hbv).1 hv)
    exact (hs _ (List.mem_map_of_mem ht) p hp _ (List.mem_map_of_mem hu) q hq).2 ⟨hta.date.trans (hd.trans hub.date.symm), hm⟩
  · intro hs t ht p hp u hu q hq
    obtain ⟨t, ht', rfl⟩ := List.mem_map.1 ht
    obtain ⟨u, hu', rfl⟩ := List.mem_map.1 hu
    obtain ⟨r, hr, ⟨a, hta, hav⟩, fr, mr⟩ := forall₂_left ha ht'
    obtain ⟨s, hs', ⟨b, hub, hbv⟩, fs, ms⟩ := forall₂_left hb hu'
    refine ⟨?_, fun hm => ?_⟩
    · rintro ⟨f, hf, hf'⟩
      obtain ⟨p, hp', rfl⟩ := List.mem_map.1 hp
      obtain ⟨q, hq', rfl⟩ := List.mem_map.1 hq
      obtain ⟨kind, g, x, h1, h2, h3, h4⟩ := mr p hp' f hf
      obtain ⟨kind', g', x', h1', h2', h3', h4'⟩ := ms q hq' f hf'
      obtain ⟨rfl, hv⟩ := kindTag_unique h2 h2' h4 h4'
      rw [h3, h3'] at hv
      obtain rfl := hsha _ _ ⟨r, List.mem_append_left _ hr, _, h1⟩ ⟨s, List.mem_append_right _ hs', _, h1'⟩ (base64_inj hv)
      refine hs r hr s hs' (hashed_sameDaySum h1 h1' fr fs ⟨|value a.quantity|, (hav _).2 ⟨abs_nonneg _, ?_⟩⟩ ?_ ?_)
      · rcases abs_choice (value a.quantity) with e | e <;> rw [e] <;> simp
      · rintro b r' k rfl rfl
        exact hmix b r' k (List.mem_append_left _ hr) (List.mem_append_right _ hs')
      · rintro b r' k rfl rfl
        exact hmix b r' k (List.mem_append_right _ hs') (List.mem_append_left _ hr)
    · exact hs r hr s hs' ⟨hta.date.symm.trans (hm.1.trans hub.date), (sums hav hbv).2 ((rows_soft hta hub).1 ⟨p, hp, q, hq, hm.2⟩)⟩

/-- **C96** for files of Nationwide: CSV files of five or six columns and PDF statements, of one or several accounts, are merged one after the other. Provided
that the hash function has no collision for them, every row of every file becomes a transaction of the journal exactly if each file could be merged alone
and no two rows of different files agree on date and sum, be it paid in or paid out. So a row that is in two files, or a transfer that is in the files of two
accounts, becomes one transaction; and so do two others that just agree on date and sum. -/
theorem C96_files {L : ImportLib} {files : List (Import × List FileRow)} (hd : PlainDates L) (h : ∀ x ∈ files, IsFile L x.1 x.2)
    (hmix : NotMixed (files.flatMap fun x => x.2)) (hsha : NoCollision L.sha1 fun x => ∃ r ∈ files.flatMap (fun x => x.2), ∃ kind, r.Hashed kind x)
    (orders : HashOrder) (j : List TransactionPostings) :
    journalOf (files.map fun x => (orders, x.1.postings)) = some j ∧ j.length = (files.flatMap fun x => x.2).length ↔
      (∀ x ∈ files, (Merger.new.merge orders x.1.postings).1 = .ok []) ∧
      files.Pairwise (fun x y => ∀ r ∈ x.2, ∀ s ∈ y.2, ¬ r.SameDaySum s) ∧
      j = (files.flatMap fun x => x.1.postings).mergeSort fun a b => (compare (dateOf a) (dateOf b)).isLE := by
  have hi : inputs (files.map fun x => (orders, x.1.postings)) = files.map fun x => x.1.postings := by
    unfold inputs
    rw [List.map_map]
    rfl
  have key := C96_complete (files.map fun x => (orders, x.1.postings)) j
  rw [hi, ← List.flatMap_def] at key
  have hlen : (files.flatMap fun x => x.1.postings).length = (files.flatMap fun x => x.2).length := by
    rw [List.length_flatMap, List.length_flatMap]
    congr 1
    refine List.map_congr_left fun x hx => ?_
    have := ((h x hx).facts hd).length_eq
    show (x.1.transactions.map _).length = _
    rw [List.length_map, this]
  rw [hlen] at key
  rw [key]
  refine and_congr ?_ (and_congr_left' ?_)
  · rw [List.forall_mem_map]
    exact forall₂_congr fun x hx => inOrder_iff orders
  · rw [List.pairwise_map]
    refine List.Pairwise.iff_of_mem fun {x y} hx hy => ?_
    have hsub : ∀ r ∈ x.2 ++ y.2, r ∈ files.flatMap fun x => x.2 := by
      intro r hr
      rcases List.mem_append.1 hr with hr | hr
      · exact List.mem_flatMap.2 ⟨x, hx, hr⟩
      · exact List.mem_flatMap.2 ⟨y, hy, hr⟩
    refine files_separate ((h x hx).facts hd) ((h y hy).facts hd) (fun b r k h1 h2 => hmix b r k (hsub _ h1) (hsub _ h2)) ?_
    rintro x y ⟨r, hr, k⟩ ⟨s, hs, k'⟩
    exact hsha x y ⟨r, hsub r hr, k⟩ ⟨s, hsub s hs, k'⟩

/-! ## Example -/

/-- The record of a cash withdrawal, on a day with transactions of another account. -/
def cash : RecordSix := ⟨⟨2019, 1, 3⟩, "ATM".toList, "ATM Withdrawal".toList, some ⟨⟨false, 3000, 2⟩, gbp⟩, none, ⟨⟨false, 20000, 2⟩, gbp⟩⟩

/-- The rows of the three files of the example. -/
def threeFiles : List FileRow × List FileRow × List FileRow :=
  ([coffee, tea].mapIdx fun i r => .five r (sinceChange ([coffee, tea].map RecordFive.date) i),
   [cash].mapIdx fun i r => .six r (sinceChange ([cash].map RecordSix.date) i) false, NationwidePdf.nextTransactions.map .pdf)

set_option maxRecDepth 100000 in
/-- The hypotheses of `C96_files` are met by a CSV file of five columns, one of six columns and a PDF statement, of three accounts. Those of
one date are not about the same sum, so all five transactions become ones of the journal. -/
example : ∃ imp₁ imp₂ imp₃ j, getTransactions Ex.plainLib .generated false (fileOf "£-123.45" [coffeeRow, teaRow]) = .ok imp₁ ∧
    getTransactions Ex.plainLib .generated false (fileOf6 [["03 Jan 2019", "ATM", "ATM Withdrawal", "£30.00", "", "£200.00"]]) = .ok imp₂ ∧
    NationwidePdf.getTransactions Ex.plainLib (.fixed "acc".toList) (Ex.pdfDoc NationwidePdf.Ex.pdfNext []) = .ok imp₃ ∧
    journalOf [(.rev, imp₁.postings), (.rev, imp₂.postings), (.rev, imp₃.postings)] = some j ∧ j.length = 5 := by
  obtain ⟨imp₁, e₁, m₁⟩ := NationwidePdf.of_run (x := getTransactions Ex.plainLib .generated false (fileOf "£-123.45" [coffeeRow, teaRow]))
    (P := fun imp => (Merger.new.merge HashOrder.rev imp.postings).1 = .ok []) (by decide +kernel)
  obtain ⟨imp₂, e₂, m₂⟩ := NationwidePdf.of_run
    (x := getTransactions Ex.plainLib .generated false (fileOf6 [["03 Jan 2019", "ATM", "ATM Withdrawal", "£30.00", "", "£200.00"]]))
    (P := fun imp => (Merger.new.merge HashOrder.rev imp.postings).1 = .ok []) (by decide +kernel)
  obtain ⟨imp₃, e₃, m₃⟩ := NationwidePdf.of_run
    (x := NationwidePdf.getTransactions Ex.plainLib (.fixed "acc".toList) (Ex.pdfDoc NationwidePdf.Ex.pdfNext []))
    (P := fun imp => (Merger.new.merge HashOrder.rev imp.postings).1 = .ok []) (by decide +kernel)
  have h₁ : IsFile Ex.plainLib imp₁ threeFiles.1 := .five e₁ (fileOf_shape _)
    (records_of (fun row r => fiveRow_iff Ex.plainLib row r) (by decide +kernel)) (by unfold PlainFields; decide +kernel) (by decide +kernel)
  have h₂ : IsFile Ex.plainLib imp₂ threeFiles.2.1 := .six e₂ (fileOf6_shape _)
    (records_of (fun row r => sixRow_iff Ex.plainLib row r) (by decide +kernel)) (by unfold PlainFields; decide +kernel) (by decide +kernel)
  have h₃ : IsFile Ex.plainLib imp₃ threeFiles.2.2 := .pdf ⟨⟨_, e₃⟩, ⟨_, _, _, _, NationwidePdf.linesIn_read (by decide +kernel),
    NationwidePdf.splitLines_splits _, NationwidePdf.numbers_numbers _, NationwidePdf.nextTransactions_described⟩, by decide +kernel⟩
  have hdates : ∀ r ∈ threeFiles.1, ∀ s ∈ threeFiles.2.1 ++ threeFiles.2.2, r.date ≠ s.date := by decide +kernel
  have key := C96_files (L := Ex.plainLib) (files := [(imp₁, threeFiles.1), (imp₂, threeFiles.2.1), (imp₃, threeFiles.2.2)]) plain_dates
    (by simp only [List.forall_mem_cons]; exact ⟨h₁, h₂, h₃, fun x hx => by cases hx⟩)
    (by
      simp only [List.flatMap_cons, List.flatMap_nil, List.append_nil]
      intro b r k _ hr
      have : ∀ x ∈ threeFiles.1 ++ (threeFiles.2.1 ++ threeFiles.2.2), (match x with | .six _ _ l => l | _ => false) = false := by decide +kernel
      cases this _ hr) (fun _ _ _ _ e => e) .rev
  obtain ⟨a1, a2⟩ := (key _).2 ⟨by simp only [List.forall_mem_cons]; exact ⟨m₁, m₂, m₃, fun x hx => by cases hx⟩, by
    simp only [List.pairwise_cons, List.forall_mem_cons, List.not_mem_nil, false_implies, implies_true, and_true, List.Pairwise.nil]
    refine ⟨⟨fun r hr s hs h => hdates r hr s (List.mem_append_left _ hs) h.1, fun r hr s hs h => hdates r hr s (List.mem_append_right _ hs) h.1⟩, ?_⟩
    rintro r hr s hs ⟨_, x, hx, hy⟩
    have hv : ∀ s ∈ threeFiles.2.2, ∃ b ∈ NationwidePdf.nextTransactions, s = .pdf b := fun s hs => by
      obtain ⟨b, hb, rfl⟩ := List.mem_map.1 hs; exact ⟨b, hb, rfl⟩
    obtain ⟨b, hb, rfl⟩ := hv s hs
    obtain rfl : r = .six cash 0 false := List.mem_singleton.1 hr
    have hx : x = 30 := by
      obtain ⟨h0, a, ha, hv⟩ := hx
      have ha : a = ⟨⟨false, 3000, 2⟩, gbp⟩ := by
        rcases ha with ha | ha
        · cases ha
        · exact (Option.some.inj ha).symm
      subst ha
      norm_num [value] at hv
      rcases hv with hv | hv <;> linarith
    subst hx
    have : ∀ b ∈ NationwidePdf.nextTransactions, value b.amount.quantity ≠ 30 := by decide +kernel
    exact this b hb hy, rfl⟩
  exact ⟨imp₁, imp₂, imp₃, _, e₁, e₂, e₃, a1, a2⟩

end NationwideCsv
end Verif
