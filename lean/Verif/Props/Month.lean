import Verif.Props.Migrate
import Verif.Props.ImportAll
import Verif.Props.ExampleRules

/-!
# C110: a statement on its way into a journal that is there already

What is done each month: a statement is imported, rules are applied to it, and the result is merged into the journal. The journal was edited by hand,
and it may have some of the transactions of the statement already.
-/

namespace Verif.Spec
open Verif Book

/-- A statement suits a journal: those of its transactions that have fingerprints in the journal can be found there, and no posting of the others has
the date, the amount and the balance of a posting there. Accounts do not matter. -/
structure Suits (js g : List TransactionPostings) : Prop where
  inOrder : InOrder g
  kept : Keeps (knownIn js g) js
  unlike : Unlike js (missingIn js g)

end Verif.Spec

namespace Verif
open Spec Spec.Book

theorem keeps_self {g : List TransactionPostings} (hg : InOrder g) : Keeps g g :=
  ⟨fun t ht => ⟨t, ht, fun p hp => ⟨p, hp, fun _ hf => hf⟩⟩, fun _ hp _ hp' _ hq h1 h2 => (inOrder_same hg hq hp h1).symm.trans (inOrder_same hg hq hp' h2)⟩

theorem inOrder_marks {g g' : List TransactionPostings} (hg : InOrder g)
    (h : List.Forall₂ (fun t u => List.Forall₂ SameMarks t.posts u.posts) g g') : InOrder g' :=
  (keeps_marks hg ⟨hg, keeps_self hg⟩ h).1

theorem sameMarks_fps {p q : PostingInternal} (h : SameMarks p q) (f : Str) : f ∈ fps q ↔ f ∈ fps p := by
  rw [mem_fps_iff, mem_fps_iff]
  exact ⟨fun hf => ⟨(h f (.inl hf.2)).1 hf.1, hf.2⟩, fun hf => ⟨(h f (.inl hf.2)).2 hf.1, hf.2⟩⟩

theorem sameMarks_shares {p q x : PostingInternal} (h : SameMarks p q) : SharesFp x q ↔ SharesFp x p := by
  unfold SharesFp
  simp only [sameMarks_fps h]

theorem sameMarks_symm {p q : PostingInternal} (h : SameMarks p q) : SameMarks q p := fun tag ht => (h tag ht).symm

theorem known_marks {js : List TransactionPostings} {t u : TransactionPostings} (h : List.Forall₂ SameMarks t.posts u.posts) :
    Known js t ↔ Known js u := by
  constructor
  · rintro ⟨p, hp, q, hq, hs⟩
    obtain ⟨i, hi⟩ := List.mem_iff_getElem?.1 hp
    obtain ⟨p', hp', hm⟩ := forall₂_left h hi
    exact ⟨p', List.mem_of_getElem? hp', q, hq, (sameMarks_shares hm).2 hs⟩
  · rintro ⟨p, hp, q, hq, hs⟩
    obtain ⟨i, hi⟩ := List.mem_iff_getElem?.1 hp
    obtain ⟨p', hp', hm⟩ := forall₂_getElem? h hi
    exact ⟨p', List.mem_of_getElem? hp', q, hq, (sameMarks_shares hm).1 hs⟩

/-- The two files have the same transactions, but for descriptions, accounts and what the comments say besides fingerprints. -/
def SameStatement (g g' : List TransactionPostings) : Prop :=
  List.Forall₂ (fun t u => dateOf u = dateOf t ∧ List.Forall₂ (fun p q => SameMarks p q ∧ q.raw.amount = p.raw.amount ∧ q.raw.balance = p.raw.balance)
    t.posts u.posts) g g'

theorem sameStatement_marks {g g' : List TransactionPostings} (h : SameStatement g g') :
    List.Forall₂ (fun t u => List.Forall₂ SameMarks t.posts u.posts) g g' := h.imp fun _ _ h => h.2.imp fun _ _ h => h.1

theorem sameStatement_filter {g g' : List TransactionPostings} (h : SameStatement g g') (js : List TransactionPostings) :
    SameStatement (knownIn js g) (knownIn js g') ∧ SameStatement (missingIn js g) (missingIn js g') := by
  have hk : ∀ t u : TransactionPostings, _ → (Known js t ↔ Known js u) := fun t u htu =>
    known_marks (js := js) ((show dateOf u = dateOf t ∧ List.Forall₂ (fun p q => SameMarks p q ∧ q.raw.amount = p.raw.amount ∧
      q.raw.balance = p.raw.balance) t.posts u.posts from htu).2.imp fun _ _ h => h.1)
  exact ⟨forall₂_filter (fun t u htu => decide_eq_decide.2 (hk t u htu)) h,
    forall₂_filter (fun t u htu => decide_eq_decide.2 (not_congr (hk t u htu))) h⟩

/-- Rules make no difference to whether a statement suits. -/
theorem suits_same {js g g' : List TransactionPostings} (hj : InOrder js) (h : Suits js g) (hs : SameStatement g g') : Suits js g' := by
  obtain ⟨f1, f2⟩ := sameStatement_filter hs js
  refine ⟨inOrder_marks h.inOrder (sameStatement_marks hs), ?_, ?_⟩
  · exact (keeps_marks hj ⟨inOrder_filter h.inOrder _, h.kept⟩ (sameStatement_marks f1)).2
  · intro t ht p hp u hu q hq
    obtain ⟨i, hi⟩ := List.mem_iff_getElem?.1 hu
    obtain ⟨u', hu', hd, hps⟩ := forall₂_getElem? f2 hi
    obtain ⟨k, hk⟩ := List.mem_iff_getElem?.1 hq
    obtain ⟨q', hq', hm, ha, hb⟩ := forall₂_getElem? hps hk
    obtain ⟨h1, h2⟩ := h.unlike t ht p hp u' (List.mem_of_getElem? hu') q' (List.mem_of_getElem? hq')
    rw [sameMarks_shares hm, hd]
    unfold SameSums at h2 ⊢
    rw [ha, hb]
    exact ⟨h1, h2⟩

theorem suits_fits {js g : List TransactionPostings} (hj : InOrder js) (h : Suits js g) : Spec.Fits js g := by
  refine ⟨h.inOrder, keeps_recognised (inOrder_filter h.inOrder _).marked hj h.kept, ?_⟩
  intro t ht p hp u hu q hq
  obtain ⟨h1, h2⟩ := h.unlike t ht p hp u hu q hq
  exact ⟨h1, fun hs => h2 ⟨hs.1, hs.2.2⟩⟩

/-- What a journal is after a statement that suits it was merged into it: it can be merged alone, and it has the whole statement. -/
theorem suits_after {js g : List TransactionPostings} (hj : InOrder js) (h : Suits js g) :
    InOrder ((grown js g).mergeSort fun a b => (compare (dateOf a) (dateOf b)).isLE) ∧
    Keeps js ((grown js g).mergeSort fun a b => (compare (dateOf a) (dateOf b)).isLE) ∧
    Keeps g ((grown js g).mergeSort fun a b => (compare (dateOf a) (dateOf b)).isLE) := by
  obtain ⟨us, h1, h2⟩ := C103_fits HashOrder.sorted js [(HashOrder.sorted, g)] hj ⟨suits_fits hj h, trivial⟩
  exact ⟨oneRun_inOrder h1, (C101_keeps _ _ _ h1 h2 js List.mem_cons_self).2,
    (C101_keeps _ _ _ h1 h2 g (List.mem_cons_of_mem _ List.mem_cons_self)).2⟩

/-- **C110: again.** A statement whose transactions are in the journal suits it, and nothing of it is missing: so what C110 gives suits the statement
again, also after edits by hand. -/
theorem C110_again {js g : List TransactionPostings} (hg : InOrder g) (hk : Keeps g js) : Suits js g ∧ knownIn js g = g ∧ missingIn js g = [] := by
  have hall : ∀ t ∈ g, Known js t := by
    intro t ht
    obtain ⟨u, hu, hq⟩ := hk.together t ht
    obtain ⟨p, hp⟩ := List.exists_mem_of_ne_nil _ (hg.nonempty t ht)
    obtain ⟨q, hqu, hf⟩ := hq p hp
    obtain ⟨f, hfp⟩ := List.exists_mem_of_ne_nil _ (hg.marked p (mem_allPosts.2 ⟨t, ht, hp⟩))
    exact ⟨p, hp, q, mem_allPosts.2 ⟨u, hu, hqu⟩, f, hf f hfp, hfp⟩
  have h1 : knownIn js g = g := List.filter_eq_self.2 fun t ht => decide_eq_true (hall t ht)
  have h2 : missingIn js g = [] := List.filter_eq_nil_iff.2 fun t ht => by
    rw [decide_eq_true_eq]
    exact fun h => h (hall t ht)
  exact ⟨⟨hg, h1.symm ▸ hk, by rw [h2]; intro t _ p _ u hu; cases hu⟩, h1, h2⟩

section
open Spec.Rules Verif.Rules
variable {sys : Sys} {L : ImportLib} {importer : ImportCmd.Importer} {lower : Str → Str} {T : Table} {raw ruled : Str} {imp : Import} {next : Sys}

/-- **C110.** A statement is imported and rules are applied to it, by two commands with files in between. If no rule touches fingerprints, and the
statement suits the journal, then `merge JOURNAL RULED --unmerged U --output OUT` succeeds, writes nothing to `U`, and writes a journal to `OUT`
that has every transaction of the journal and of the statement by its fingerprints, and can be merged again. The transactions the journal had are
there with what the statement tells about them brought in, and nothing was added to them; those it did not have are as they were imported. -/
theorem C110_month (P : Prepared sys L importer lower T raw ruled imp next) (hF : P.Faithful) (hT : LeavesFingerprints T) (hT' : PlainTable T)
    (hs : NotesNoSource T) (hi : PlainImport imp) (p : Str) (js : List TransactionPostings) (v out : FileSpec) (ho : Nat → HashOrder)
    (hf : ∀ n, next.fault n = none) (hp : p ≠ ruled) (hc : contentOf next next.start p = some js ∧ NoSources js) (hj : InOrder js)
    (hsuit : Suits js imp.postings) :
    ∃ known missing w,
      List.Forall₂ IsImported (imp.transactions.filter fun t => Known js (.ofTransaction t)) known ∧
      List.Forall₂ IsImported (imp.transactions.filter fun t => ¬ Known js (.ofTransaction t)) missing ∧
      MergeCmd.run next ho ⟨[p, ruled].map .path, some v, out⟩ World.start = (.ok (), w) ∧
      w.log = wholeWrite next out (textOf next ((broughtInto js known ++ missing).mergeSort fun a b => (compare (dateOf a) (dateOf b)).isLE)) ∧
      InOrder ((broughtInto js known ++ missing).mergeSort fun a b => (compare (dateOf a) (dateOf b)).isLE) ∧
      Keeps js ((broughtInto js known ++ missing).mergeSort fun a b => (compare (dateOf a) (dateOf b)).isLE) ∧
      Keeps imp.postings ((broughtInto js known ++ missing).mergeSort fun a b => (compare (dateOf a) (dateOf b)).isLE) := by
  obtain ⟨rs, hrs, hnone, hread⟩ := P.content hF hT hT' hs hi
  have hsame : SameStatement imp.postings rs := by
    unfold SameStatement Import.postings
    rw [List.forall₂_map_left_iff]
    refine hrs.imp fun t R h => ⟨h.1.date, ?_⟩
    show List.Forall₂ _ (t.postings.map PostingInternal.ofPosting) R.posts
    rw [List.forall₂_map_left_iff]
    have a := h.1.postings
    have b := h.2
    rw [List.forall₂_iff_get] at a b ⊢
    exact ⟨a.1, fun i h1 h2 => ⟨b.2 i h1 h2, (a.2 i h1 h2).1, (a.2 i h1 h2).2.1⟩⟩
  have hsr := suits_same hj hsuit hsame
  have hno : NoSources rs := by
    intro R hR hm
    rw [Std.ExtTreeMap.mem_iff_isSome_getElem?, hnone R hR] at hm
    cases hm
  obtain ⟨w, h1, h2⟩ := C103_command next ho p ruled js rs v out hf hp hc ⟨hread false, hno⟩ hj (suits_fits hj hsr)
  obtain ⟨h3, h4, h5⟩ := suits_after hj hsr
  have hback : List.Forall₂ (fun t u => List.Forall₂ SameMarks t.posts u.posts) rs imp.postings :=
    (sameStatement_marks hsame).flip.imp fun _ _ h => h.flip.imp fun _ _ h => sameMarks_symm h
  have hk : ∀ (t : Transaction) (R : TransactionPostings), IsImported t R ∧ List.Forall₂ (fun p q => SameMarks (.ofPosting p) q) t.postings R.posts →
      (Known js (.ofTransaction t) ↔ Known js R) := by
    intro t R h
    refine known_marks ?_
    show List.Forall₂ _ (t.postings.map PostingInternal.ofPosting) R.posts
    rw [List.forall₂_map_left_iff]
    exact h.2
  refine ⟨knownIn js rs, missingIn js rs, w, ?_, ?_, h1, h2, h3, h4, (keeps_marks h3 ⟨hsr.inOrder, h5⟩ hback).2⟩
  · refine (forall₂_filter (fun t R h => decide_eq_decide.2 (hk t R h)) hrs).imp fun _ _ h => h.1
  · refine (forall₂_filter (fun t R h => decide_eq_decide.2 (not_congr (hk t R h))) hrs).imp fun _ _ h => h.1

variable {source : ImportCmd.Source}

/-- The first two commands write to no other files. -/
theorem PreparedFrom.others (P : PreparedFrom sys L source lower T raw ruled imp next) {p : Str} (h1 : sys.file p ≠ sys.file raw)
    (h2 : sys.file p ≠ sys.file ruled) : contentOf next next.start p = contentOf sys sys.start p := by
  obtain ⟨i1, f1, r1, e1⟩ := P.between_eq
  obtain ⟨i2, f2, r2, e2⟩ := P.next_eq
  obtain ⟨importer', imp', f, g1, g2, g3, g4⟩ := C79_contents P.run1
  cases readsFrom_unique g1 P.reads
  cases Except.ok.inj (g2.symm.trans P.imports)
  cases Option.some.inj (((C57_output _ _ _).2 g3).symm.trans ((C57_output _ _ _).2 P.output))
  obtain ⟨T', l, us, ts, hT, hl, hus, hts, hlog2⟩ := (applyRules_sat P.between P.order lower P.fuel (some T) (.path raw) (.path ruled)).ok P.run2
  have hb : P.between.file = sys.file := by rw [e1]; rfl
  have hn : next.start (sys.file p) = sys.start (sys.file p) := by
    rw [e2]
    show contentsAfter P.between.start P.w2.log (sys.file p) = _
    rw [hlog2, contentsAfter_whole, if_neg (show ¬ fileOf P.between (.path ruled) = some (sys.file p) by
      show ¬ some (P.between.file ruled) = _
      rw [hb]
      exact fun e => h2 (Option.some.inj e).symm), e1]
    show contentsAfter sys.start P.w1.log (sys.file p) = _
    rw [g4, if_neg (show ¬ fileOf sys (.path raw) = some (sys.file p) from fun e => h1 (Option.some.inj e).symm)]
  have hfile : next.file = sys.file := by rw [e2, e1]; rfl
  have hparse : next.parse = sys.parse := by rw [e2, e1]; rfl
  unfold contentOf ledgerAt
  show (((next.start (next.file p)).bind decodeUtf8).bind next.parse).bind _ = (((sys.start (sys.file p)).bind decodeUtf8).bind sys.parse).bind _
  rw [hfile, hparse, hn]

/-- **C110, with all three commands.** No operation on files fails, and what is printed can be read again. A statement of any kind can be imported and
the rules can be applied to it; no rule touches fingerprints. The journal is in a file that the first two commands do not write to, and the statement
suits it. Then `import`, `apply-rules` and `merge` succeed, and the journal that is written is as in `C110_month`. -/
theorem C110_commands {importer : ImportCmd.Importer} {fuel : Nat} {us : List TransactionPostings} (hf : ∀ n, sys.fault n = none)
    (hback : ∀ l, sys.parse (sys.render l) = some l) (hr : ReadsFrom sys source importer) (hi : importer.doImport L = .ok imp) (hpi : PlainImport imp)
    (hu : T.updateTransactions lower fuel imp.postings = .ok us) (hT : LeavesFingerprints T) (hT' : PlainTable T) (hs : NotesNoSource T)
    (raw ruled p : Str) (h1 : sys.file p ≠ sys.file raw) (h2 : sys.file p ≠ sys.file ruled) (js : List TransactionPostings)
    (hc : contentOf sys sys.start p = some js ∧ NoSources js) (hj : InOrder js) (hsuit : Suits js imp.postings) (v out : FileSpec) (ho : Nat → HashOrder) :
    ∃ next, ∃ P : PreparedFrom sys L source lower T raw ruled imp next, P.Faithful ∧ ∃ known missing w,
      List.Forall₂ IsImported (imp.transactions.filter fun t => Known js (.ofTransaction t)) known ∧
      List.Forall₂ IsImported (imp.transactions.filter fun t => ¬ Known js (.ofTransaction t)) missing ∧
      MergeCmd.run next ho ⟨[p, ruled].map .path, some v, out⟩ World.start = (.ok (), w) ∧
      w.log = wholeWrite next out (textOf next ((broughtInto js known ++ missing).mergeSort fun a b => (compare (dateOf a) (dateOf b)).isLE)) ∧
      InOrder ((broughtInto js known ++ missing).mergeSort fun a b => (compare (dateOf a) (dateOf b)).isLE) ∧
      Keeps js ((broughtInto js known ++ missing).mergeSort fun a b => (compare (dateOf a) (dateOf b)).isLE) ∧
      Keeps imp.postings ((broughtInto js known ++ missing).mergeSort fun a b => (compare (dateOf a) (dateOf b)).isLE) := by
  obtain ⟨next, P, hF, hfn⟩ := prepared_exists hf hback hr hi hu raw ruled
  obtain ⟨w, P', hF'⟩ := P.prepared hF
  refine ⟨next, P, hF, C110_month P' hF' hT hT' hs hpi p js v out ho hfn (fun e => h2 (by rw [e])) ?_ hj hsuit⟩
  rw [P.others h1 h2]
  exact hc

/-! ### A case -/

/-- The first two transactions of a statement, as the user has edited them. -/
def Ex.editedHalf (imp : Import) : List Transaction :=
  (imp.transactions.take 2).map fun t =>
    { t with description := "edited".toList, postings := t.postings.map fun p => { p with account := "expenses:food".toList } }

/-- A system with a statement in the file `a` and a journal in the file `j`. -/
noncomputable def Ex.monthSystem (b : Bytes) (l : Ledger) : Sys :=
  { Ex.exactSystem ⟨[]⟩ ⟨[]⟩ with start := fun n => if n = 97 then some b else if n = 106 then some (encodeUtf8 ((Ex.exactSystem ⟨[]⟩ ⟨[]⟩).render l)) else none }

set_option maxRecDepth 100000 in
/-- The statement of the test with five columns, of which the journal has the first two transactions, edited by hand; the third one is added. -/
example (ho : Nat → HashOrder) : ∃ next known missing w,
    (Ex.pipeImport.transactions.filter fun t => Known ((Ex.editedHalf Ex.pipeImport).map .ofTransaction) (.ofTransaction t)).length = 2 ∧
    known.length = 2 ∧ missing.length = 1 ∧
    MergeCmd.run next ho ⟨["j".toList, "c".toList].map .path, some (.path "u".toList), .path "o".toList⟩ World.start = (.ok (), w) ∧
    w.log = wholeWrite next (.path "o".toList) (textOf next
      ((broughtInto ((Ex.editedHalf Ex.pipeImport).map .ofTransaction) known ++ missing).mergeSort fun a b => (compare (dateOf a) (dateOf b)).isLE)) := by
  have hc : contentOf (Ex.monthSystem Ex.bytes5 (ledgerFromTransactions (Ex.editedHalf Ex.pipeImport)))
      (Ex.monthSystem Ex.bytes5 (ledgerFromTransactions (Ex.editedHalf Ex.pipeImport))).start "j".toList =
      some ((Ex.editedHalf Ex.pipeImport).map .ofTransaction) := by
    unfold contentOf ledgerAt
    show (((some (encodeUtf8 ((Ex.exactSystem ⟨[]⟩ ⟨[]⟩).render (ledgerFromTransactions (Ex.editedHalf Ex.pipeImport))))).bind decodeUtf8).bind
      (Ex.exactSystem ⟨[]⟩ ⟨[]⟩).parse).bind _ = _
    rw [Option.bind_some, decode_encode, Option.bind_some, Ex.exactSystem_comesBack, Option.bind_some, fromLedger_import]
  have hpl : NationwideCsv.PlainFields Ex.file5 := by unfold NationwideCsv.PlainFields; decide +kernel
  have hn : NoSources ((Ex.editedHalf Ex.pipeImport).map .ofTransaction) := by unfold NoSources; decide +kernel
  have hj : InOrder ((Ex.editedHalf Ex.pipeImport).map .ofTransaction) := (inOrder_iff HashOrder.sorted).2 (by decide +kernel)
  have hs : Suits ((Ex.editedHalf Ex.pipeImport).map .ofTransaction) Ex.pipeImport.postings :=
    ⟨(inOrder_iff HashOrder.sorted).2 (by decide +kernel), ⟨by decide +kernel, by decide +kernel⟩, by decide +kernel⟩
  have hl : (Ex.pipeImport.transactions.filter fun t => Known ((Ex.editedHalf Ex.pipeImport).map .ofTransaction) (.ofTransaction t)).length = 2 ∧
      (Ex.pipeImport.transactions.filter fun t => ¬ Known ((Ex.editedHalf Ex.pipeImport).map .ofTransaction) (.ofTransaction t)).length = 1 := by
    decide +kernel
  cases hus : Ex.pipeRules.updateTransactions id 2 Ex.pipeImport.postings with
  | error e =>
    have : (Ex.pipeRules.updateTransactions id 2 Ex.pipeImport.postings).isOk = true := by decide +kernel
    rw [hus] at this
    cases this
  | ok us =>
    obtain ⟨next, P, hF, known, missing, w, k1, k2, k3, k4, _⟩ := C110_commands
      (sys := Ex.monthSystem Ex.bytes5 (ledgerFromTransactions (Ex.editedHalf Ex.pipeImport))) (L := Ex.plainLib) (imp := Ex.pipeImport) (fun _ => rfl)
      (fun l => Ex.exactSystem_comesBack ⟨[]⟩ ⟨[]⟩ l)
      (ReadsFrom.nationwideCsv (fpNs := .generated) (legacy := false) (input := .path "a".toList) (b := Ex.bytes5) rfl rfl) (by
        rw [Ex.csv_text]
        show NationwideCsv.getTransactions Ex.plainLib .generated false ((Csv.trimmedRecords ',' Ex.text5).map some) = _
        rw [Ex.csv_records]
        exact Ex.pipe_import) (NationwideCsv.plain_import Ex.pipe_import hpl) hus Ex.pipe_table.1 Ex.pipe_table.2.1 Ex.pipe_table.2.2 "b".toList "c".toList
      "j".toList (by decide) (by decide) _ ⟨hc, hn⟩ hj hs (.path "u".toList) (.path "o".toList) ho
    exact ⟨next, known, missing, w, hl.1, k1.length_eq.symm.trans hl.1, k2.length_eq.symm.trans hl.2, k3, k4⟩

end
end Verif
