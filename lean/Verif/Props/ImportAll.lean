import Verif.Props.ImportFiles
import Verif.Props.PdfStatements
import Verif.Props.PaypalDistinct
import Verif.Props.Looks
import Verif.Props.ReadTsv

/-!
# C79 for PDF documents and for files of PayPal: from the statement to the journal
-/

namespace Verif
open Spec Spec.Book Spec.Rules Verif.Rules

/-- Imported transactions can be merged after rules exactly if they could be merged at once. -/
theorem mergeable_iff {imp : Import} (ho : HashOrder) : Mergeable imp.transactions ↔ (Merger.new.merge ho imp.postings).1 = .ok [] := by
  rw [← inOrder_iff ho]
  have hmem : ∀ p, p ∈ allPosts imp.postings ↔ ∃ t ∈ imp.transactions, ∃ p' ∈ t.postings, p = .ofPosting p' := by
    intro p
    unfold allPosts
    rw [List.mem_flatMap]
    constructor
    · rintro ⟨t, ht, hp⟩
      exact import_post ht hp
    · rintro ⟨t, ht, p', hp', rfl⟩
      exact ⟨_, List.mem_map_of_mem ht, List.mem_map_of_mem hp'⟩
  constructor
  · intro h
    refine ⟨?_, ?_, ?_, (distinct_iff.1 h.distinct).imp fun hpq ⟨f, hf, hf'⟩ =>
      hpq f (mem_fps.1 hf).1 (mem_fps.1 hf).2 (mem_fps.1 hf').1⟩
    · intro t ht
      obtain ⟨t', ht', rfl⟩ := List.mem_map.1 ht
      show t'.postings.map _ ≠ []
      rw [Ne, List.map_eq_nil_iff]
      exact h.postings t' ht'
    · intro p hp
      obtain ⟨t, ht, p', hp', rfl⟩ := (hmem p).1 hp
      exact h.candidate t ht p' hp'
    · intro p hp
      obtain ⟨t, ht, p', hp', rfl⟩ := (hmem p).1 hp
      obtain ⟨f, h1, h2⟩ := h.fingerprint t ht p' hp'
      exact List.ne_nil_of_mem (mem_fps.2 ⟨h2, h1⟩)
  · intro h
    refine ⟨fun t ht e => ?_, fun t ht p hp => ?_, fun t ht p hp => ?_,
      distinct_iff.2 (h.distinct.imp fun hpq f hf hfp hf' => hpq ⟨f, mem_fps.2 ⟨hf, hfp⟩, mem_fps.2 ⟨hf', hfp⟩⟩)⟩
    · refine h.nonempty _ (List.mem_map_of_mem ht) ?_
      show t.postings.map _ = []
      rw [e]
      rfl
    · obtain ⟨f, hf⟩ := List.exists_mem_of_ne_nil _ (h.marked _ ((hmem _).2 ⟨t, ht, p, hp, rfl⟩))
      rw [mem_fps] at hf
      exact ⟨f, hf.2, hf.1⟩
    · exact h.clean _ ((hmem _).2 ⟨t, ht, p, hp, rfl⟩)

section
variable {sys : Sys} {L : ImportLib} {source : ImportCmd.Source} {lower : Str → Str} {T : Table} {raw ruled merged : Str}
  {imp : Import} {next : Sys}

/-- **C79.** From a statement to the journal, whatever the kind of statement: after rules, and through files, the merge succeeds exactly if
what was imported could have been merged at once, and then the journal has exactly the imported transactions. -/
theorem C79_journal (P : PreparedFrom sys L source lower T raw ruled imp next) (hF : P.Faithful) (hi : PlainImport imp)
    (hT : LeavesFingerprints T) (hT' : PlainTable T) (hs : NotesNoSource T) :
    ((∀ n, next.fault n = none) → ∀ (orders : Nat → HashOrder) (ho : HashOrder) (out : FileSpec),
      (MergeCmd.run next orders ⟨[.path ruled], none, out⟩ World.start).1 = .ok () ↔ (Merger.new.merge ho imp.postings).1 = .ok []) ∧
    ∀ files, Merges next [] ruled [] merged files → ∃ js h,
      files (sys.file merged) = some (encodeUtf8 (sys.render (TransactionPostings.intoLedger h js))) ∧
      js.Pairwise (fun t u => (compare t.trn.raw.date u.trn.raw.date).isLE = true) ∧
      ∀ d : Date, List.Forall₂ IsImported (imp.transactions.filter fun t => t.date = d) (js.filter fun J => J.trn.raw.date = d) := by
  obtain ⟨w, P', hF'⟩ := P.prepared hF
  refine ⟨fun hf orders ho out => ?_, fun files hM => ?_⟩
  · rw [C72_succeeds P' hF' hT hT' hs hi hf orders out, mergeable_iff ho]
  · exact C72_fresh (sys := laterSys sys w) P' hF' hM hT hT' hs hi

/-- The first two commands in a system without faults in which what is printed can be read again: they succeed if the statement can be
imported and the rules can be applied. -/
theorem prepared_exists {importer : ImportCmd.Importer} {fuel : Nat} {us : List TransactionPostings} (hf : ∀ n, sys.fault n = none)
    (hback : ∀ l, sys.parse (sys.render l) = some l) (hr : ReadsFrom sys source importer) (hi : importer.doImport L = .ok imp)
    (hu : T.updateTransactions lower fuel imp.postings = .ok us) (raw ruled : Str) :
    ∃ next, ∃ P : PreparedFrom sys L source lower T raw ruled imp next, P.Faithful ∧ ∀ n, next.fault n = none := by
  have hw : WritesTo ⟨.path raw, false, false⟩ imp.userFpNamespace (.path raw) := (C57_output ..).1 rfl
  have h1 : (ImportCmd.runFiles sys L (fun _ => true) source ⟨.path raw, false, false⟩ World.start).1 = .ok () :=
    (C79_succeeds_iff sys L (fun _ => true) source _ hf).2 ⟨⟨_, _, hr, hi⟩, by unfold FitTogether; simp⟩
  rcases e1 : ImportCmd.runFiles sys L (fun _ => true) source ⟨.path raw, false, false⟩ World.start with ⟨r1, w1⟩
  rw [e1] at h1
  obtain rfl : r1 = .ok () := h1
  obtain ⟨importer', imp', f, g1, g2, g3, g4⟩ := C79_contents e1
  cases readsFrom_unique g1 hr
  cases Except.ok.inj (g2.symm.trans hi)
  cases Option.some.inj (((C57_output _ _ _).2 g3).symm.trans ((C57_output _ _ _).2 hw))
  have hl : ledgerAt (sysAfter sys w1.log [] (fun _ => none) sys.random) (sysAfter sys w1.log [] (fun _ => none) sys.random).start false
      (.path raw) = some (ledgerFromTransactions imp.transactions) := by
    unfold ledgerAt
    show ((contentsAfter sys.start w1.log (sys.file raw)).bind decodeUtf8).bind sys.parse = _
    rw [g4, if_pos (show fileOf sys (.path raw) = some (sys.file raw) from rfl), Option.bind_some, decode_encode, Option.bind_some, hback]
  obtain ⟨w2, e2, _⟩ := (applyRules_calm (h := HashOrder.sorted) (output := .path ruled) (fun _ => rfl) hl (fromLedger_import _)).1 us hu
  exact ⟨sysAfter (sysAfter sys w1.log [] (fun _ => none) sys.random) w2.log [] (fun _ => none) sys.random,
    ⟨_, _, fuel, HashOrder.sorted, w1, w2, _, importer, hr, hi, hw, e1, ⟨_, _, _, rfl⟩, e2, ⟨_, _, _, rfl⟩⟩,
    ⟨hback _, fun ts _ => hback _⟩, fun _ => rfl⟩

end

namespace NationwidePdf
open Nationwide NationwideCsv Tesseract

theorem pdf_plain_import {L : ImportLib} {fpNs : FpNamespace} {doc : Document} {imp : Import} (h : getTransactions L fpNs doc = .ok imp) :
    PlainImport imp := by
  suffices H : ∀ t ∈ imp.transactions, t.comment = none ∧ ∀ p ∈ t.postings, ∀ (k v : Str),
      (Comment.fromOptComment p.comment).valueTags[k]? = some v → k.trim ≠ [] from ⟨fun t ht => (H t ht).1, fun t ht => (H t ht).2⟩
  intro t ht
  obtain ⟨hg, g, k, b, p, q, hm, hts, hp, hq⟩ := from_lines h ht
  refine ⟨hts.comment, fun x hx => ?_⟩
  rw [hts.postings] at hx
  rcases List.mem_cons.1 hx with rfl | hx
  · exact hp.read_keys (pdf_words L hg b).1 (seq_plain hg _ bank_plain)
  · obtain rfl := List.mem_singleton.1 hx
    exact hq.read_keys (pdf_words L hg b).2 bank_plain

end NationwidePdf

/-- **C79.** From a PDF document of Nationwide to the journal: the merge succeeds exactly if no two postings of the document share a
fingerprint (for which see C71), and then the journal has the transactions of the document, in the order of their dates. -/
theorem C79_pdf_journal {sys : Sys} {L : ImportLib} {lower : Str → Str} {T : Table} {raw ruled merged : Str} {imp : Import}
    {next : Sys} {fpNs : Nationwide.FpNamespace} {input : Str} {programs : Option Bytes → Ocr.Programs} {doc : Tesseract.Document}
    (P : PreparedFrom sys L (.nationwidePdf fpNs input programs) lower T raw ruled imp next) (hF : P.Faithful)
    (hd : Ocr.ocrDocument (programs (sys.start (sys.file input))) = .ok doc)
    (hT : LeavesFingerprints T) (hT' : PlainTable T) (hs : NotesNoSource T) :
    NationwidePdf.getTransactions L fpNs doc = .ok imp ∧
    ((∀ n, next.fault n = none) → ∀ (orders : Nat → HashOrder) (out : FileSpec),
      (MergeCmd.run next orders ⟨[.path ruled], none, out⟩ World.start).1 = .ok () ↔ NationwideCsv.DistinctFingerprints imp.transactions) ∧
    ∀ files, Merges next [] ruled [] merged files → ∃ js h,
      files (sys.file merged) = some (encodeUtf8 (sys.render (TransactionPostings.intoLedger h js))) ∧
      js.Pairwise (fun t u => (compare t.trn.raw.date u.trn.raw.date).isLE = true) ∧
      ∀ d : Date, List.Forall₂ IsImported (imp.transactions.filter fun t => t.date = d) (js.filter fun J => J.trn.raw.date = d) := by
  have himp : NationwidePdf.getTransactions L fpNs doc = .ok imp := by
    have hi := P.imports
    rw [← readsFrom_unique (ReadsFrom.nationwidePdf hd) P.reads] at hi
    exact hi
  obtain ⟨h1, h2⟩ := C79_journal (merged := merged) P hF (NationwidePdf.pdf_plain_import himp) hT hT' hs
  refine ⟨himp, fun hf orders out => ?_, h2⟩
  rw [h1 hf orders HashOrder.sorted out, NationwidePdf.C47_nationwide_pdf_merge himp]

namespace PaypalCsv
open NationwideCsv

theorem paypal_plain_import {L : ImportLib} {ns : Str} {legacy : Bool} {headers : Option Row} {rows : List (Option Row)}
    {tzRecords : List (Option TzAbbr.Record)} {imp : Import} (h : getTransactions L ns legacy headers rows tzRecords = .ok imp)
    (hp : NoNewlines rows) : PlainImport imp := by
  suffices H : ∀ t ∈ imp.transactions, t.comment = none ∧ ∀ p ∈ t.postings, ∀ (k v : Str),
      (Comment.fromOptComment p.comment).valueTags[k]? = some v → k.trim ≠ [] from ⟨fun t ht => (H t ht).1, fun t ht => (H t ht).2⟩
  intro t ht
  have hgood := (from_group h ht).1
  obtain ⟨hs, tz, rfl, htz, _⟩ := (getTransactions_iff ..).1 h
  obtain ⟨_, vs, gs, h1, h2, h3⟩ := C50_groups h htz
  obtain ⟨i, hi, rfl⟩ := List.getElem_of_mem ht
  have hi' : i < gs.length := by rw [h3.length_eq]; exact hi
  have hf := (List.forall₂_iff_get.1 h3).2 i hi' hi
  change GroupSays L tz ns legacy gs[i] imp.transactions[i] at hf
  obtain ⟨dt, d, before, after, w, pairs, _, _, _, _, hts, hlen, hps⟩ := hf
  refine ⟨hts.comment, fun x hx => ?_⟩
  rw [hts.postings] at hx
  obtain ⟨y, hy, hx⟩ := List.mem_flatMap.1 hx
  obtain ⟨k, hk, rfl⟩ := List.getElem_of_mem hy
  have hkg : k < gs[i].length := by omega
  have hpair := hps k hkg hk
  have hv := rows_plain h1 hp (v := gs[i][k]) (by
    rw [← h2.flatten]
    exact List.mem_flatten.2 ⟨_, List.getElem_mem hi', List.getElem_mem _⟩)
  have hw := fixed_words
  simp only [List.forall_mem_cons, List.not_mem_nil, false_implies, implies_true, and_true] at hw
  have hb := fingerprints_built L hgood gs[i][k] k
  have t1 := C42_tag hb.1
  have t2 := C42_legacy_tag hb.1
  have t3 := C42_legacy_tag hb.2
  rcases List.mem_cons.1 hx with rfl | hx
  · refine hpair.self.read_keys ?_ (selfValues_plain hv.2.2)
    cases legacy <;>
    simp only [if_true, Bool.false_eq_true, if_false, List.nil_append, List.cons_append, List.forall_mem_cons, List.not_mem_nil, false_implies,
      implies_true, and_true]
    · exact ⟨t1.2.2, ⟨hw.2.2.1, hw.2.2.2.1⟩, hw.1.1, hw.1.2.1⟩
    · exact ⟨t1.2.2, t2.2.2, ⟨hw.2.2.1, hw.2.2.2.1⟩, hw.1.1, hw.1.2.1⟩
  · obtain rfl := List.mem_singleton.1 hx
    refine hpair.peer.read_keys ?_ (peerValues_plain hv.1 hv.2.1)
    cases legacy <;>
    simp only [if_true, Bool.false_eq_true, if_false, List.nil_append, List.cons_append, List.forall_mem_cons, List.not_mem_nil, false_implies,
      implies_true, and_true]
    · exact ⟨⟨hw.2.2.1, hw.2.2.2.1⟩, hw.2.1.1, hw.2.1.2.1⟩
    · exact ⟨t3.2.2, ⟨hw.2.2.1, hw.2.2.2.1⟩, hw.2.1.1, hw.2.1.2.1⟩

end PaypalCsv

/-- **C79.** From a file of PayPal to the journal: the merge succeeds exactly if the file has no records, or if it was imported with the
old fingerprints too and no two postings share a fingerprint (for which see C77); and then the journal has the transactions of the file, in
the order of their dates. -/
theorem C79_paypal_journal {sys : Sys} {L : ImportLib} {lower : Str → Str} {T : Table} {raw ruled merged : Str} {imp : Import}
    {next : Sys} {ns : Str} {legacy : Bool} {input tz : FileSpec} {text tzText : Str}
    (P : PreparedFrom sys L (.paypalCsv ns legacy input tz) lower T raw ruled imp next) (hF : P.Faithful)
    (hb : bytesAt sys false input = some (encodeUtf8 text)) (hz : bytesAt sys (decide (input = .stdio)) tz = some (encodeUtf8 tzText))
    (hpl : ∀ row ∈ (Csv.trimmedRecords ',' text).tail, ∀ f ∈ row, '\n' ∉ f)
    (hT : LeavesFingerprints T) (hT' : PlainTable T) (hs : NotesNoSource T) :
    (ImportCmd.Texts.paypalCsv ns legacy text tzText).doImport L = .ok imp ∧
    ((∀ n, next.fault n = none) → ∀ (orders : Nat → HashOrder) (out : FileSpec),
      (MergeCmd.run next orders ⟨[.path ruled], none, out⟩ World.start).1 = .ok () ↔
        (Csv.trimmedRecords ',' text).tail = [] ∨ (legacy = true ∧ NationwideCsv.DistinctFingerprints imp.transactions)) ∧
    ∀ files, Merges next [] ruled [] merged files → ∃ js h,
      files (sys.file merged) = some (encodeUtf8 (sys.render (TransactionPostings.intoLedger h js))) ∧
      js.Pairwise (fun t u => (compare t.trn.raw.date u.trn.raw.date).isLE = true) ∧
      ∀ d : Date, List.Forall₂ IsImported (imp.transactions.filter fun t => t.date = d) (js.filter fun J => J.trn.raw.date = d) := by
  have himp : (ImportCmd.Texts.paypalCsv ns legacy text tzText).doImport L = .ok imp := by
    have hi := P.imports
    rw [← readsFrom_unique (ReadsFrom.paypalCsv hb hz rfl) P.reads] at hi
    exact hi
  have hnl : PaypalCsv.NoNewlines ((Csv.trimmedRecords ',' text).tail.map fun row =>
      if row.length = ((Csv.trimmedRecords ',' text).headD []).length then some row else none) := by
    intro row hrow f hf
    obtain ⟨row', hr', e⟩ := List.mem_map.1 hrow
    split_ifs at e
    cases e
    exact hpl _ hr' f hf
  have hget : PaypalCsv.getTransactions L ns legacy (some ((Csv.trimmedRecords ',' text).headD [])) ((Csv.trimmedRecords ',' text).tail.map fun row =>
      if row.length = ((Csv.trimmedRecords ',' text).headD []).length then some row else none) (TzAbbr.readRecords tzText) = .ok imp := himp
  obtain ⟨h1, h2⟩ := C79_journal (merged := merged) P hF (PaypalCsv.paypal_plain_import hget hnl) hT hT' hs
  refine ⟨himp, fun hf orders out => ?_, h2⟩
  rw [h1 hf orders HashOrder.sorted out, PaypalCsv.C47_paypal_merge hget hnl, List.map_eq_nil_iff]

/-! ### Cases -/

/-- The rules of the case for C72 meet the hypotheses. -/
theorem Ex.pipe_table : LeavesFingerprints Ex.pipeRules ∧ PlainTable Ex.pipeRules ∧ NotesNoSource Ex.pipeRules := by
  refine ⟨Ex.pipe_all (P := fun a => ∀ tag, Touches a tag → ¬ IsFp tag ∧ ¬ IsCand tag) ?_, Ex.pipe_all (P := PlainAction) ⟨?_, ?_⟩,
    Ex.pipe_all (P := fun a => ∀ value, ¬ AddsValue a srcKey value) ?_⟩
  · intro tag ht
    cases ht with
    | inside hm ht =>
      simp only [List.mem_cons, List.not_mem_nil, or_false] at hm
      rcases hm with rfl | rfl | rfl
      · cases ht
      · cases ht
        decide +kernel
      · cases ht
  · intro tag ht
    cases ht with
    | inside hm ht =>
      simp only [List.mem_cons, List.not_mem_nil, or_false] at hm
      rcases hm with rfl | rfl | rfl <;> cases ht
      decide +kernel
  · intro k v ht
    cases ht with
    | inside hm ht =>
      simp only [List.mem_cons, List.not_mem_nil, or_false] at hm
      rcases hm with rfl | rfl | rfl <;> cases ht
  · intro v ht
    cases ht with
    | inside hm ht =>
      simp only [List.mem_cons, List.not_mem_nil, or_false] at hm
      rcases hm with rfl | rfl | rfl <;> cases ht

/-- A system with an exact printer, with these bytes in the file `a` and as standard input. -/
noncomputable def Ex.statementSystem (b i : Bytes) : Sys :=
  { Ex.exactSystem ⟨[]⟩ ⟨[]⟩ with start := fun n => if n = 97 then some b else none, stdin := i }

theorem Ex.statement_bytes (b i : Bytes) : bytesAt (Ex.statementSystem b i) false (.path "a".toList) = some b := by
  show (Ex.statementSystem b i).start ((Ex.statementSystem b i).file "a".toList) = _
  rw [show (Ex.statementSystem b i).file "a".toList = 97 from rfl]
  rfl

set_option maxRecDepth 100000 in
theorem Ex.paypal_records : (Csv.trimmedRecords ',' Ex.paypalText).headD [] = Ex.paypalHeaders ∧
    ((Csv.trimmedRecords ',' Ex.paypalText).tail.map fun row => if row.length = Ex.paypalHeaders.length then some row else none) = Ex.paypalRows ∧
    TzAbbr.readRecords Ex.paypalTzText = Ex.paypalTz ∧
    ∀ row ∈ (Csv.trimmedRecords ',' Ex.paypalText).tail, ∀ f ∈ row, '\n' ∉ f := by decide +kernel

theorem Ex.paypal_import (legacy : Bool) : (ImportCmd.Texts.paypalCsv "n".toList legacy Ex.paypalText Ex.paypalTzText).doImport Ex.plainLib =
    PaypalCsv.getTransactions Ex.plainLib "n".toList legacy (some Ex.paypalHeaders) Ex.paypalRows Ex.paypalTz := by
  rw [← Ex.paypal_records.2.1, ← Ex.paypal_records.2.2.1, ← Ex.paypal_records.1]
  rfl

theorem Ex.paypal_plain : PaypalCsv.NoNewlines Ex.paypalRows := by
  intro row hrow f hf
  rw [← Ex.paypal_records.2.1] at hrow
  obtain ⟨row', hr', e⟩ := List.mem_map.1 hrow
  split_ifs at e
  cases e
  exact Ex.paypal_records.2.2.2 _ hr' f hf

set_option maxRecDepth 100000 in
theorem Ex.paypal_run (legacy : Bool) : ∃ imp, PaypalCsv.getTransactions Ex.plainLib "n".toList legacy (some Ex.paypalHeaders) Ex.paypalRows Ex.paypalTz =
      .ok imp ∧ imp.transactions.length = 2 ∧ ((Merger.new.merge HashOrder.sorted imp.postings).1 = .ok [] ↔ legacy = true) ∧
    (Ex.pipeRules.updateTransactions id 2 imp.postings).isOk = true := by
  cases legacy <;> exact NationwidePdf.of_run (by decide +kernel)

set_option maxRecDepth 100000 in
/-- The statement of PayPal in the tests, with the table of time zones from standard input, imported with the old fingerprints or without
them: with them it gets to the journal, without them it does not. -/
example (legacy : Bool) : ∃ imp next, ∃ P : PreparedFrom (Ex.statementSystem (encodeUtf8 Ex.paypalText) (encodeUtf8 Ex.paypalTzText)) Ex.plainLib
      (.paypalCsv "n".toList legacy (.path "a".toList) .stdio) id Ex.pipeRules "b".toList "c".toList imp next,
    P.Faithful ∧ imp.transactions.length = 2 ∧
    (∀ row ∈ (Csv.trimmedRecords ',' Ex.paypalText).tail, ∀ f ∈ row, '\n' ∉ f) ∧
    ∀ orders out, (MergeCmd.run next orders ⟨[.path "c".toList], none, out⟩ World.start).1 = .ok () ↔ legacy = true := by
  obtain ⟨imp, hi, hlen, hm, hu⟩ := Ex.paypal_run legacy
  have hb := Ex.statement_bytes (encodeUtf8 Ex.paypalText) (encodeUtf8 Ex.paypalTzText)
  have hz : bytesAt (Ex.statementSystem (encodeUtf8 Ex.paypalText) (encodeUtf8 Ex.paypalTzText)) (decide (FileSpec.path "a".toList = .stdio)) .stdio =
      some (encodeUtf8 Ex.paypalTzText) := rfl
  cases hus : Ex.pipeRules.updateTransactions id 2 imp.postings with
  | error e => rw [hus] at hu; cases hu
  | ok us =>
    obtain ⟨next, P, hF, hf⟩ := prepared_exists (sys := Ex.statementSystem (encodeUtf8 Ex.paypalText) (encodeUtf8 Ex.paypalTzText))
      (fun _ => rfl) (fun l => Ex.exactSystem_comesBack ⟨[]⟩ ⟨[]⟩ l) (ReadsFrom.paypalCsv (legacy := legacy) (ns := "n".toList) hb hz rfl) ((Ex.paypal_import legacy).trans hi) hus
      "b".toList "c".toList
    have hT := Ex.pipe_table
    refine ⟨imp, next, P, hF, hlen, Ex.paypal_records.2.2.2, fun orders out => ?_⟩
    rw [(C79_journal (merged := "d".toList) P hF (PaypalCsv.paypal_plain_import hi Ex.paypal_plain) hT.1 hT.2.1 hT.2.2).1 hf orders HashOrder.sorted out, hm]

/-- The records of the statement of two pages. -/
def Ex.pdfRecords : List (Tesseract.Record × Int) :=
  Ex.recordsOf (Ex.pdfDoc (Ex.pdfPage1.dropLast ++ [Ex.pdfRow 300 [(100, "Page"), (400, "1")]]) Ex.pdfPage2)

open Tesseract in
set_option maxRecDepth 100000 in
theorem Ex.pdf_run : ∃ doc imp, Document.fromTsv (Ex.pdfText "Page") = .ok doc ∧
    NationwidePdf.getTransactions Ex.plainLib (.fixed "acc".toList) doc = .ok imp ∧ imp.transactions.length = 3 ∧
    (Merger.new.merge HashOrder.sorted imp.postings).1 = .ok [] ∧ (Ex.pipeRules.updateTransactions id 2 imp.postings).isOk = true := by
  have h := of_check (rs := Ex.pdfRecords) (by decide +kernel)
  have hr : Document.fromTsv (Ex.pdfText "Page") = Document.fromRecords (Ex.pdfRecords.map fun r => some r.1) := by
    rw [← C75_read_partial _ h.1 h.2]
    rfl
  rw [hr]
  suffices H : (match Document.fromRecords (Ex.pdfRecords.map fun r => some r.1) with
      | .ok doc => match NationwidePdf.getTransactions Ex.plainLib (.fixed "acc".toList) doc with
        | .ok imp => decide (imp.transactions.length = 3 ∧ (Merger.new.merge HashOrder.sorted imp.postings).1 = .ok [] ∧
            (Ex.pipeRules.updateTransactions id 2 imp.postings).isOk = true)
        | .error _ => false
      | .error _ => false) = true by
    split at H
    · split at H
      · exact ⟨_, _, ‹_›, ‹_›, of_decide_eq_true H⟩
      · cases H
    · cases H
  decide +kernel

/-- A statement of two pages as a PDF document, from the programs that read it to the journal. -/
example : ∃ doc imp next, ∃ P : PreparedFrom (Ex.statementSystem [] []) Ex.plainLib
      (.nationwidePdf (.fixed "acc".toList) "a".toList fun _ => ⟨some ⟨true, [0, 1]⟩, fun _ => some ⟨true, some (Ex.pdfText "Page")⟩⟩)
      id Ex.pipeRules "b".toList "c".toList imp next,
    P.Faithful ∧ Ocr.ocrDocument ⟨some ⟨true, [0, 1]⟩, fun _ => some ⟨true, some (Ex.pdfText "Page")⟩⟩ = .ok doc ∧ imp.transactions.length = 3 ∧
    ∀ orders out, (MergeCmd.run next orders ⟨[.path "c".toList], none, out⟩ World.start).1 = .ok () := by
  obtain ⟨doc, imp, hd, hi, hlen, hm, hu⟩ := Ex.pdf_run
  have hd' : Ocr.ocrDocument ⟨some ⟨true, [0, 1]⟩, fun _ => some ⟨true, some (Ex.pdfText "Page")⟩⟩ = .ok doc := hd
  cases hus : Ex.pipeRules.updateTransactions id 2 imp.postings with
  | error e => rw [hus] at hu; cases hu
  | ok us =>
    obtain ⟨next, P, hF, hf⟩ := prepared_exists (sys := Ex.statementSystem [] []) (fun _ => rfl) (fun l => Ex.exactSystem_comesBack ⟨[]⟩ ⟨[]⟩ l)
      (ReadsFrom.nationwidePdf (fpNs := .fixed "acc".toList) (input := "a".toList)
        (programs := fun _ => ⟨some ⟨true, [0, 1]⟩, fun _ => some ⟨true, some (Ex.pdfText "Page")⟩⟩) hd') hi hus "b".toList "c".toList
    have hT := Ex.pipe_table
    refine ⟨doc, imp, next, P, hF, hd', hlen, fun orders out => ?_⟩
    rw [(C79_pdf_journal (merged := "d".toList) P hF hd' hT.1 hT.2.1 hT.2.2).2.1 hf orders out]
    exact (NationwidePdf.C47_nationwide_pdf_merge hi _).1 hm

end Verif
