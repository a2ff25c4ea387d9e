import Verif.Proofs.NationwideTable
import Verif.Props.ImportMerge

/-!
# C44, C47, C51: PDF statements
-/

namespace Verif
namespace NationwidePdf
open Nationwide NationwideCsv Tesseract Spec

/-! ## C51 -/

theorem accountOf_iff (L : ImportLib) (doc : Document) (account : Str) : findAccountName L doc = some account ↔ AccountOf L doc account :=
  findAccount_iff L doc account

theorem AccountOf.unique {L : ImportLib} {doc : Document} {a b : Str} (ha : AccountOf L doc a) (hb : AccountOf L doc b) : a = b := by
  rw [← accountOf_iff] at ha hb
  rw [ha] at hb
  exact Option.some.inj hb

/-- The table of a paragraph. -/
def tableOf (p : Paragraph) : Option (Columns × List Line) :=
  (Columns.findInParagraph p).map fun c => (c, p.lines.drop (c.headerLineIdx + 1))

theorem tableOf_iff (p : Paragraph) (c : Columns) (rows : List Line) : tableOf p = some (c, rows) ↔ IsTable p c rows := by
  rw [isTable_iff]
  unfold tableOf
  cases Columns.findInParagraph p with
  | none => simp
  | some c' =>
    simp only [Option.map_some, Option.some.injEq, Prod.mk.injEq]
    constructor
    · rintro ⟨rfl, rfl⟩; exact ⟨rfl, rfl⟩
    · rintro ⟨rfl, rfl⟩; exact ⟨rfl, rfl⟩

theorem forall2_map {α β : Type} (f : α → β) (R : α → β → Prop) (hf : ∀ a b, R a b ↔ b = f a) {xs : List α} {ys : List β} :
    List.Forall₂ R xs ys ↔ ys = xs.map f := by
  induction xs generalizing ys with
  | nil => cases ys <;> simp
  | cons x xs ih => cases ys with
    | nil => simp
    | cons y ys => rw [List.forall₂_cons, ih, hf, List.map_cons, List.cons.injEq]

theorem tablesOf_iff (doc : Document) (tables : List (Columns × List Line)) : TablesOf doc tables ↔ tables = doc.paragraphs.filterMap tableOf := by
  unfold TablesOf
  rw [← paragraphs_eq]
  have h : ∀ all : List (Option (Columns × List Line)),
      List.Forall₂ (fun p o => ∀ c rows, o = some (c, rows) ↔ IsTable p c rows) doc.paragraphs all ↔ all = doc.paragraphs.map tableOf := by
    intro all
    refine forall2_map tableOf _ fun p o => ?_
    simp only [← tableOf_iff]
    constructor
    · intro h
      cases o with
      | some x => exact ((h x.1 x.2).1 rfl).symm
      | none =>
        cases ht : tableOf p with
        | none => rfl
        | some x => exact (h x.1 x.2).2 ht
    · rintro rfl c rows; exact Iff.rfl
  simp only [h, exists_eq_left]
  rw [List.filterMap_map]
  rfl

theorem findTables_eq (doc : Document) : (doc.pages.flatMap findTables) =
    doc.paragraphs.filterMap fun p => (Columns.findInParagraph p).map fun c => (c, p) := by
  unfold Document.paragraphs findTables
  rw [List.flatMap_assoc]
  induction doc.pages with
  | nil => rfl
  | cons p ps ih => rw [List.flatMap_cons, List.flatMap_cons, List.filterMap_append, ih]

theorem lines_iff (L : ImportLib) (doc : Document) (lines : List TransactionLine) :
    (∃ pages, List.Forall₂ (fun t ls => readLines L t.1 t.2 = .ok ls) (doc.pages.flatMap findTables) pages ∧ lines = pages.flatMap (upTo none)) ↔
      LinesOf L doc lines := by
  unfold LinesOf
  simp only [tablesOf_iff]
  rw [findTables_eq]
  have e : doc.paragraphs.filterMap tableOf = (doc.paragraphs.filterMap fun p => (Columns.findInParagraph p).map fun c => (c, p)).map
      fun t => (t.1, t.2.lines.drop (t.1.headerLineIdx + 1)) := by
    rw [List.map_filterMap]
    congr 1
    funext p
    unfold tableOf
    cases Columns.findInParagraph p <;> rfl
  generalize (doc.paragraphs.filterMap fun p => (Columns.findInParagraph p).map fun c => (c, p)) = ts at e ⊢
  rw [e]
  clear e
  induction ts generalizing lines with
  | nil =>
    constructor
    · rintro ⟨pages, h, rfl⟩
      cases h
      exact ⟨[], [], rfl, by simp, .nil, rfl⟩
    · rintro ⟨tables, useds, rfl, _, h, rfl⟩
      cases h
      exact ⟨[], .nil, rfl⟩
  | cons t ts ih =>
    constructor
    · rintro ⟨pages, h, rfl⟩
      cases h with
      | cons h1 h2 =>
        rename_i ls pages
        obtain ⟨tables, useds, rfl, h3, h4, h5⟩ := (ih _).1 ⟨pages, h2, rfl⟩
        obtain ⟨h6, rfl⟩ := readLines_iff.1 h1
        refine ⟨_, upTo none _ :: useds, rfl, ?_, .cons (upTo_gap _) h4, ?_⟩
        · intro x hx
          rcases List.mem_cons.1 hx with rfl | hx
          · exact h6
          · exact h3 x hx
        · rw [List.flatMap_cons, h5, List.flatten_cons]
    · rintro ⟨tables, useds, rfl, h1, h2, rfl⟩
      cases h2 with
      | cons h3 h4 =>
        rename_i used useds
        obtain ⟨pages, h5, h6⟩ := (ih _).2 ⟨_, useds, rfl, fun x hx => h1 x (List.mem_cons_of_mem _ hx), h4, rfl⟩
        refine ⟨_ :: pages, .cons (readLines_iff.2 ⟨h1 _ List.mem_cons_self, rfl⟩) h5, ?_⟩
        rw [List.flatMap_cons, List.flatten_cons, h6, gap_unique h3 (upTo_gap _)]

/-- C51: a document has at most one sequence of lines, and lines split into groups in exactly one way, with one way to number them. -/
theorem C51_groups (L : ImportLib) (doc : Document) :
    (∀ lines lines', LinesOf L doc lines → LinesOf L doc lines' → lines = lines') ∧
    (∀ lines, ∃ lead groups, Splits lines lead groups ∧ ∀ lead' groups', Splits lines lead' groups' → lead' = lead ∧ groups' = groups) ∧
    ∀ groups, ∃ ks, Numbers groups ks ∧ ∀ ks', Numbers groups ks' → ks' = ks := by
  refine ⟨?_, ?_, ?_⟩
  · intro lines lines' h h'
    obtain ⟨pages, h1, rfl⟩ := (lines_iff ..).2 h
    obtain ⟨pages', h1', rfl⟩ := (lines_iff ..).2 h'
    congr 1
    clear h h'
    generalize doc.pages.flatMap findTables = ts at h1 h1'
    induction h1 generalizing pages' with
    | nil => cases h1'; rfl
    | cons a _ ih =>
      cases h1' with
      | cons b c =>
        rw [a] at b
        cases b
        rw [ih _ c]
  · intro lines
    refine ⟨_, _, splitLines_splits lines, fun lead' groups' h => ?_⟩
    rw [Splits_unique h]
    exact ⟨rfl, rfl⟩
  · exact fun groups => ⟨_, numbers_numbers groups, fun ks' h => Numbers_unique h (numbers_numbers groups)⟩

theorem getTransactions_iff (L : ImportLib) (fpNs : FpNamespace) (doc : Document) (imp : Import) :
    getTransactions L fpNs doc = .ok imp ↔ ∃ account lines, AccountOf L doc account ∧ fpNs.make L account = .ok imp.userFpNamespace ∧
      LinesOf L doc lines ∧
      ∃ bs, bs.length = (splitLines lines).2.length ∧
        (∀ i (h : i < (splitLines lines).2.length) (h' : i < bs.length) (h'' : i < (numbers (splitLines lines).2).length),
          Makes L (splitLines lines).2[i] ((numbers (splitLines lines).2)[i] : Nat) bs[i]) ∧
        List.Forall₂ (fun b t => b.build L imp.userFpNamespace = .ok t) bs imp.transactions := by
  have hsplit := fun lines => splitLines_splits lines
  have hacc : ∀ ns lines out, (∃ acc1 acc2, feedAll L ns Acc.new lines = .ok acc1 ∧ acc1.flush L ns = .ok acc2 ∧ acc2.trns = out) ↔
      ∃ bs, bs.length = (splitLines lines).2.length ∧
        (∀ i (h : i < (splitLines lines).2.length) (h' : i < bs.length) (h'' : i < (numbers (splitLines lines).2).length),
          Makes L (splitLines lines).2[i] ((numbers (splitLines lines).2)[i] : Nat) bs[i]) ∧
        List.Forall₂ (fun b t => b.build L ns = .ok t) bs out := by
    intro ns lines out
    have hs := splitLines_splits lines
    have e : feedAll L ns Acc.new lines = feedAll L ns Acc.new ((splitLines lines).2.flatMap LineGroup.lines) := by
      have h := congrArg (feedAll L ns Acc.new) hs.lines
      rw [h]
      cases hf : feedAll L ns Acc.new ((splitLines lines).2.flatMap LineGroup.lines) with
      | ok acc => exact feedAll_append.2 ⟨_, feedAll_lead hs.lead rfl, hf⟩
      | error e =>
        have hl : feedAll L ns Acc.new (splitLines lines).1 = .ok Acc.new := feedAll_lead hs.lead rfl
        have happ : ∀ (xs ys : List TransactionLine) acc acc', feedAll L ns acc xs = .ok acc' →
            feedAll L ns acc (xs ++ ys) = feedAll L ns acc' ys := by
          intro xs ys
          induction xs with
          | nil => intro acc acc' h; cases h; rfl
          | cons x xs ih =>
            intro acc acc' h
            obtain ⟨acc1, h1, h2⟩ := feedAll_cons.1 h
            rw [List.cons_append, feedAll, h1]
            exact ih _ _ h2
        rw [happ _ _ _ _ hl, hf]
    rw [e, feed_groups hs.start hs.more]
    constructor
    · rintro ⟨acc1, bs, ts, h1, h2, h3, rfl⟩
      cases h1
      obtain ⟨h4, h5⟩ := makesAll_new.1 h2
      exact ⟨bs, h4, h5, h3⟩
    · rintro ⟨bs, h4, h5, h3⟩
      exact ⟨Acc.new, bs, out, rfl, makesAll_new.2 ⟨h4, h5⟩, h3, rfl⟩
  unfold getTransactions
  constructor
  · intro h
    split at h
    · cases h
    · rename_i account ha
      cases hn : fpNs.make L account with
      | error e => rw [hn] at h; cases h
      | ok ns =>
        rw [hn] at h
        change (do let acc ← tablesLoop L ns Acc.new _; let acc ← acc.flush L ns; pure (⟨ns, acc.trns⟩ : Import)) = _ at h
        cases ht : tablesLoop L ns Acc.new (doc.pages.flatMap findTables) with
        | error e => rw [ht] at h; cases h
        | ok acc =>
          rw [ht] at h
          change (do let acc ← acc.flush L ns; pure (⟨ns, acc.trns⟩ : Import)) = _ at h
          cases hf : acc.flush L ns with
          | error e => rw [hf] at h; cases h
          | ok acc' =>
            rw [hf] at h
            cases h
            obtain ⟨pages, h1, h2⟩ := tablesLoop_iff.1 ht
            exact ⟨account, _, (accountOf_iff ..).1 ha, hn, (lines_iff ..).1 ⟨pages, h1, rfl⟩, (hacc ..).1 ⟨acc, acc', h2, hf, rfl⟩⟩
  · rintro ⟨account, lines, ha, hn, hl, hb⟩
    obtain ⟨acc, acc', h1, h2, h3⟩ := (hacc ..).2 hb
    obtain ⟨pages, h4, rfl⟩ := (lines_iff ..).2 hl
    rw [(accountOf_iff ..).2 ha]
    simp only
    rw [hn]
    change (do let acc ← tablesLoop L imp.userFpNamespace Acc.new _; let acc ← acc.flush L imp.userFpNamespace; pure (⟨imp.userFpNamespace, acc.trns⟩ : Import)) = _
    rw [tablesLoop_iff.2 ⟨pages, h4, h1⟩]
    change (do let acc ← acc.flush L imp.userFpNamespace; pure (⟨imp.userFpNamespace, acc.trns⟩ : Import)) = _
    rw [h2]
    change Except.ok _ = _
    rw [h3]

theorem makes_good {L : ImportLib} {g : LineGroup} {k : Int} {b : TransactionBuilder} (h : Makes L g k b) : PdfGood L g where
  dated := by rw [h.date]; simp
  amount := by
    rcases h.amount with ⟨h1, _, s, h2, h3⟩ | ⟨h1, _, s, h2, h3⟩
    · exact ⟨s, b.amount, .inl ⟨h2, h1⟩, h3, h.positive⟩
    · exact ⟨s, b.amount, .inr ⟨h1, h2⟩, h3, h.positive⟩
  effective := by
    intro l hl ht
    obtain ⟨ds, hds, _⟩ := h.effective
    have hm : l ∈ g.more.filter fun l => TellsDate l := List.mem_filter.2 ⟨hl, decide_eq_true ht⟩
    obtain ⟨i, hi, e⟩ := List.getElem_of_mem hm
    obtain ⟨hlen, hf⟩ := List.forall₂_iff_get.1 hds
    have : L.dateEffective ((g.more.filter fun l => TellsDate l)[i]).detail = some ds[i] := hf i hi (hlen ▸ hi)
    rw [e] at this
    rw [this]; simp
  balance := by
    intro l hl s hs
    obtain ⟨bs, hbs, _⟩ := h.balance
    have hm : s ∈ g.lines.filterMap (·.balance) := List.mem_filterMap.2 ⟨l, hl, hs⟩
    obtain ⟨i, hi, e⟩ := List.getElem_of_mem hm
    obtain ⟨hlen, hf⟩ := List.forall₂_iff_get.1 hbs
    have : PdfMoney L (g.lines.filterMap (·.balance))[i] bs[i] := hf i hi (hlen ▸ hi)
    rw [e] at this
    exact ⟨_, this⟩

theorem forall2_exists {α β : Type} {R : α → β → Prop} {xs : List α} (h : ∀ x ∈ xs, ∃ y, R x y) : ∃ ys, List.Forall₂ R xs ys := by
  induction xs with
  | nil => exact ⟨[], .nil⟩
  | cons x xs ih =>
    obtain ⟨y, hy⟩ := h x List.mem_cons_self
    obtain ⟨ys, hys⟩ := ih fun z hz => h z (List.mem_cons_of_mem _ hz)
    exact ⟨y :: ys, .cons hy hys⟩

theorem good_makes {L : ImportLib} {g : LineGroup} (h : PdfGood L g) (k : Int) : ∃ b, Makes L g k b := by
  obtain ⟨s, a, h1, h2, h3⟩ := h.amount
  obtain ⟨ds, hds⟩ := forall2_exists (R := fun l d => L.dateEffective l.detail = some d) (xs := g.more.filter fun l => TellsDate l) (by
    intro l hl
    obtain ⟨hl, ht⟩ := List.mem_filter.1 hl
    exact Option.ne_none_iff_exists'.1 (h.effective l hl (of_decide_eq_true ht)))
  obtain ⟨bs, hbs⟩ := forall2_exists (R := PdfMoney L) (xs := g.lines.filterMap (·.balance)) (by
    intro s hs
    obtain ⟨l, hl, hs⟩ := List.mem_filterMap.1 hs
    exact h.balance l hl s hs)
  obtain ⟨d, hd⟩ := Option.ne_none_iff_exists'.1 h.dated
  rcases h1 with ⟨e1, e2⟩ | ⟨e1, e2⟩
  · exact ⟨⟨d, k, a, .payment, ds.getLast?, _, bs.getLast?⟩, hd, rfl, .inl ⟨e2, rfl, s, e1, h2⟩, h3, rfl, ⟨ds, hds, rfl⟩, bs, hbs, rfl⟩
  · exact ⟨⟨d, k, a, .receipt, ds.getLast?, _, bs.getLast?⟩, hd, rfl, .inr ⟨e1, rfl, s, e2, h2⟩, h3, rfl, ⟨ds, hds, rfl⟩, bs, hbs, rfl⟩

theorem good_of_build {L : ImportLib} {ns : Str} {b : TransactionBuilder} {t : Transaction} (h : b.build L ns = .ok t) : GoodNamespace ns := by
  by_contra hg
  obtain ⟨e, he⟩ := build_bad (L := L) hg b
  rw [h] at he; cases he

/-- C51: a document is imported exactly if there is an account and a namespace, the dates in the tables can be read, every group of lines
says what a transaction needs (one amount that is not negative, a date, balances and effective dates that can be read), and the
namespace is good unless there are no groups. Otherwise nothing is imported. -/
theorem C51_accepted (L : ImportLib) (fpNs : FpNamespace) (doc : Document) :
    (∃ imp, getTransactions L fpNs doc = .ok imp) ↔ ∃ account ns lines lead groups, AccountOf L doc account ∧ fpNs.make L account = .ok ns ∧
      LinesOf L doc lines ∧ Splits lines lead groups ∧ (∀ g ∈ groups, PdfGood L g) ∧ (groups = [] ∨ GoodNamespace ns) := by
  constructor
  · rintro ⟨imp, h⟩
    obtain ⟨account, lines, ha, hn, hl, bs, h1, h2, h3⟩ := (getTransactions_iff ..).1 h
    have hnl := (numbers_numbers (splitLines lines).2).1
    refine ⟨account, _, lines, _, _, ha, hn, hl, splitLines_splits lines, ?_, ?_⟩
    · intro g hg
      obtain ⟨i, hi, rfl⟩ := List.getElem_of_mem hg
      exact makes_good (h2 i hi (by omega) (by omega))
    · generalize imp.transactions = ts at h3
      cases h3 with
      | nil => exact .inl (List.eq_nil_of_length_eq_zero h1.symm)
      | cons hb _ => exact .inr (good_of_build hb)
  · rintro ⟨account, ns, lines, lead, groups, ha, hn, hl, hs, hg, hgn⟩
    have e := Splits_unique hs
    have key : ∃ (bs : List TransactionBuilder) (ts : List Transaction), bs.length = groups.length ∧
        (∀ i (h : i < groups.length) (h' : i < bs.length) (h'' : i < (numbers groups).length), Makes L groups[i] ((numbers groups)[i] : Nat) bs[i]) ∧
        List.Forall₂ (fun b t => b.build L ns = .ok t) bs ts := by
      have hnl := (numbers_numbers groups).1
      have hb : ∀ i : Fin groups.length, ∃ b, Makes L groups[i] ((numbers groups)[i]'(by omega) : Nat) b := fun i => good_makes (hg _ (List.getElem_mem _)) _
      choose f hf using hb
      obtain ⟨ts, hts⟩ := forall2_exists (R := fun (b : TransactionBuilder) t => b.build L ns = .ok t) (xs := List.ofFn f) (by
        intro b hb
        obtain ⟨i, rfl⟩ := List.mem_ofFn.1 hb
        have hgood := hgn.resolve_left (by rintro rfl; exact i.elim0)
        obtain ⟨t, _, _, ht, _⟩ := build_says (L := L) hgood (f i) _ (hf i).number
        exact ⟨t, ht⟩)
      refine ⟨List.ofFn f, ts, by simp, fun i h h' h'' => ?_, hts⟩
      rw [List.getElem_ofFn]
      exact hf ⟨i, h⟩
    obtain ⟨bs, ts, h1, h2, h3⟩ := key
    refine ⟨⟨ns, ts⟩, (getTransactions_iff ..).2 ⟨account, lines, ha, hn, hl, bs, ?_⟩⟩
    rw [e]
    exact ⟨h1, h2, h3⟩

/-- C51: the transactions are in the order of the groups of lines, one for each group, with what the lines of that group say. -/
theorem C51_transactions {L : ImportLib} {fpNs : FpNamespace} {doc : Document} {imp : Import} (h : getTransactions L fpNs doc = .ok imp) :
    ∃ account lines lead groups ks, AccountOf L doc account ∧ fpNs.make L account = .ok imp.userFpNamespace ∧ LinesOf L doc lines ∧
      Splits lines lead groups ∧ Numbers groups ks ∧ imp.transactions.length = groups.length ∧
      ∀ (i : Nat) (g : LineGroup) (k : Nat) (t : Transaction), groups[i]? = some g → ks[i]? = some k → imp.transactions[i]? = some t →
        PdfSays L imp.userFpNamespace g k t := by
  obtain ⟨account, lines, ha, hn, hl, bs, h1, h2, h3⟩ := (getTransactions_iff ..).1 h
  obtain ⟨h4, h5⟩ := List.forall₂_iff_get.1 h3
  refine ⟨account, lines, _, _, _, ha, hn, hl, splitLines_splits lines, numbers_numbers _, by omega, ?_⟩
  intro i g k t hg hk ht
  obtain ⟨hi, rfl⟩ := List.getElem?_eq_some_iff.1 hg
  obtain ⟨hi', rfl⟩ := List.getElem?_eq_some_iff.1 hk
  obtain ⟨hi'', rfl⟩ := List.getElem?_eq_some_iff.1 ht
  have hm := h2 i hi (by omega) hi'
  have hb : bs[i].build L imp.userFpNamespace = .ok imp.transactions[i] := h5 i (by omega) hi''
  obtain ⟨t, p, q, e, hts, hp, hq⟩ := build_says (L := L) (good_of_build hb) bs[i] _ hm.number
  rw [hb] at e
  cases e
  exact ⟨bs[i], p, q, hm, hts, hp, hq⟩

theorem sinceChange_zero {α : Type} [DecidableEq α] (l : List α) : sinceChange l 0 = 0 := by
  unfold sinceChange
  cases l[0]? <;> rfl

theorem sinceChange_other {α : Type} [DecidableEq α] {l : List α} {i : Nat} {x y : α} (h : l[i]? = some y) (h' : l[i + 1]? = some x) (hne : y ≠ x) :
    sinceChange l (i + 1) = 0 := by
  rw [sinceChange_some h', List.take_add_one, h]
  simp [hne]

/-- C51: if every line of a transaction has the date of the first one, the number of a transaction is how many transactions right before
it have its date. -/
theorem C51_numbers {groups : List LineGroup} {ks : List Nat} (hk : Numbers groups ks) (hd : ∀ g ∈ groups, ∀ l ∈ g.more, l.impliedDate = g.start.impliedDate)
    (i : Nat) (hi : i < groups.length) : ks[i]? = some (sinceChange (groups.map fun g => g.start.impliedDate) i) := by
  have hlast : ∀ g ∈ groups, g.lastDate = g.start.impliedDate := by
    intro g hg
    unfold LineGroup.lastDate
    have hm : g.lines.getLast (by simp [LineGroup.lines]) ∈ g.start :: g.more := List.getLast_mem _
    rcases List.mem_cons.1 hm with h | h
    · rw [h]
    · exact hd g hg _ h
  have hn : Numbers groups ((List.range groups.length).map (sinceChange (groups.map fun g => g.start.impliedDate))) := by
    refine ⟨by simp, fun i g k hg hk => ?_⟩
    rw [List.getElem?_map] at hk
    have hi := (List.getElem?_eq_some_iff.1 hg).1
    rw [List.getElem?_range hi] at hk
    cases hk
    cases i with
    | zero => exact sinceChange_zero _
    | succ j =>
      have hj := List.getElem?_eq_getElem (l := groups) (i := j) (by omega)
      have e1 : (groups.map fun g => g.start.impliedDate)[j]? = some groups[j].start.impliedDate := by rw [List.getElem?_map, hj]; rfl
      have e2 : (groups.map fun g => g.start.impliedDate)[j + 1]? = some g.start.impliedDate := by rw [List.getElem?_map, hg]; rfl
      simp only [hj, Option.map_some, hlast _ (List.getElem_mem _), Option.some.injEq]
      by_cases h : groups[j].start.impliedDate = g.start.impliedDate
      · rw [if_pos h, List.getElem?_map, List.getElem?_range (by omega)]
        rw [h] at e1
        exact sinceChange_succ e1 e2
      · rw [if_neg h]
        exact sinceChange_other e1 e2 h
  rw [Numbers_unique hk hn, List.getElem?_map, List.getElem?_range hi]
  rfl

/-- Every transaction is from a group, and the namespace is good. -/
theorem from_lines {L : ImportLib} {fpNs : FpNamespace} {doc : Document} {imp : Import} (h : getTransactions L fpNs doc = .ok imp)
    {t : Transaction} (ht : t ∈ imp.transactions) : GoodNamespace imp.userFpNamespace ∧ ∃ g k, PdfSays L imp.userFpNamespace g k t := by
  obtain ⟨account, lines, lead, groups, ks, _, _, _, _, hk, hl, hc⟩ := C51_transactions h
  obtain ⟨i, hi, rfl⟩ := List.getElem_of_mem ht
  have hkl := hk.1
  refine ⟨?_, _, _, hc i groups[i] ks[i] _ (List.getElem?_eq_getElem _) (List.getElem?_eq_getElem (by omega)) (List.getElem?_eq_getElem hi)⟩
  obtain ⟨account, lines, ha, hn, hl, bs, h1, h2, h3⟩ := (getTransactions_iff ..).1 h
  obtain ⟨h4, h5⟩ := List.forall₂_iff_get.1 h3
  exact good_of_build (h5 i (by omega) hi)

/-- C44, Nationwide PDF: every transaction has two postings, with the same amount of the same commodity in opposite directions. -/
theorem C44_nationwide_pdf {L : ImportLib} {fpNs : FpNamespace} {doc : Document} {imp : Import} (h : getTransactions L fpNs doc = .ok imp)
    {t : Transaction} (ht : t ∈ imp.transactions) : ∃ p q, t.postings = [p, q] ∧ Opposite p q ∧ Balanced t.postings := by
  obtain ⟨_, g, k, b, p, q, hm, hts, hp, hq⟩ := from_lines h ht
  have ho : Opposite p q := opposite_halves (ownPdfAmount b) hp hq
  refine ⟨p, q, hts.postings, ho, ?_⟩
  rw [hts.postings]
  exact balanced_pairs [(p, q)] fun x hx => by obtain rfl := List.mem_singleton.1 hx; exact ho

/-! ## C47 -/

theorem pdfFp_built (L : ImportLib) {ns : Str} (h : GoodNamespace ns) (b : TransactionBuilder) :
    Built (pdfFp L ns b).self ∧ Built (pdfFp L ns b).peer :=
  ⟨⟨_, _, _, _, L.sha1, [_, _, _, _, _], good_new nwpdf_chars 1 h, rfl⟩, ⟨_, _, _, _, L.sha1, [_, _, _, _, _], good_new nwpdf_chars 1 h, rfl⟩⟩

/-- The tags of the two postings of a transaction are words. -/
theorem pdf_words (L : ImportLib) {ns : Str} (h : GoodNamespace ns) (b : TransactionBuilder) :
    (∀ t ∈ [(pdfFp L ns b).self.legacyTag, "import-self".toList, "unknown-account".toList], Word t ∧ '\n' ∉ t) ∧
    ∀ t ∈ [(pdfFp L ns b).peer.legacyTag, "import-peer".toList, "unknown-account".toList], Word t ∧ '\n' ∉ t := by
  have hf := C42_legacy_tag (pdfFp_built L h b).1
  have hg := C42_legacy_tag (pdfFp_built L h b).2
  have hw := fixed_words
  simp only [List.forall_mem_cons, List.not_mem_nil, false_implies, implies_true, and_true] at hw ⊢
  exact ⟨⟨hf.2.2, ⟨hw.1.1, hw.1.2.1⟩, ⟨hw.2.2.1, hw.2.2.2.1⟩⟩, hg.2.2, ⟨hw.2.1.1, hw.2.1.2.1⟩, ⟨hw.2.2.1, hw.2.2.2.1⟩⟩

theorem bank_plain : ∀ e ∈ [("bank".toList, "Nationwide".toList)], Word e.1 ∧ Trimmed e.1 ∧ '\n' ∉ e.1 ∧ '\n' ∉ e.2 := by decide +kernel

/-- Each posting has exactly one fingerprint and otherwise only tags with fixed names. -/
theorem pdf_tags {L : ImportLib} {fpNs : FpNamespace} {doc : Document} {imp : Import} (h : getTransactions L fpNs doc = .ok imp)
    {t : Transaction} (ht : t ∈ imp.transactions) : t.postings ≠ [] ∧ ∀ p ∈ t.postings, (∃ f ∈ (Comment.fromOptComment p.comment).tags, IsFp f) ∧
      ∀ f ∈ (Comment.fromOptComment p.comment).tags, IsFp f ∨ f ∈ ["import-self".toList, "import-peer".toList, "unknown-account".toList] := by
  obtain ⟨hg, g, k, b, p, q, hm, hts, hp, hq⟩ := from_lines h ht
  have hb := pdfFp_built L hg b
  have hw := pdf_words L hg b
  rw [hts.postings]
  refine ⟨by simp, ?_⟩
  intro x hx
  rcases List.mem_cons.1 hx with rfl | hx
  · refine ⟨⟨_, hp.read_mem hw.1 List.mem_cons_self, (C42_legacy_tag hb.1).1⟩, fun f hf => ?_⟩
    rw [hp.read_iff hw.1 (seq_plain hg _ bank_plain)] at hf
    simp only [List.mem_cons, List.not_mem_nil, or_false] at hf ⊢
    rcases hf with rfl | rfl | rfl
    · exact .inl (C42_legacy_tag hb.1).1
    · exact .inr (.inl rfl)
    · exact .inr (.inr (.inr rfl))
  · obtain rfl := List.mem_singleton.1 hx
    refine ⟨⟨_, hq.read_mem hw.2 List.mem_cons_self, (C42_legacy_tag hb.2).1⟩, fun f hf => ?_⟩
    rw [hq.read_iff hw.2 bank_plain] at hf
    simp only [List.mem_cons, List.not_mem_nil, or_false] at hf ⊢
    rcases hf with rfl | rfl | rfl
    · exact .inl (C42_legacy_tag hb.2).1
    · exact .inr (.inr (.inl rfl))
    · exact .inr (.inr (.inr rfl))

/-- C47, Nationwide PDF: when the comment of any posting is read again there is a fingerprint in it. -/
theorem C47_nationwide_pdf {L : ImportLib} {fpNs : FpNamespace} {doc : Document} {imp : Import} (h : getTransactions L fpNs doc = .ok imp)
    {t : Transaction} (ht : t ∈ imp.transactions) {p : Posting} (hp : p ∈ t.postings) : ∃ f ∈ (Comment.fromOptComment p.comment).tags, IsFp f :=
  ((pdf_tags h ht).2 p hp).1

open Book in
/-- C47, Nationwide PDF: an imported document is merged into an empty journal without an error and with nothing handed back, if its
fingerprints are distinct, and only then. -/
theorem C47_nationwide_pdf_merge {L : ImportLib} {fpNs : FpNamespace} {doc : Document} {imp : Import}
    (h : getTransactions L fpNs doc = .ok imp) (ho : HashOrder) :
    (Merger.new.merge ho imp.postings).1 = .ok [] ↔ DistinctFingerprints imp.transactions := by
  constructor
  · intro hm
    by_contra hne
    obtain ⟨e, he⟩ : ∃ e, ((run []).merge ho imp.postings).1 = .error e :=
      (C11_bad_inputs [] ho imp.postings).2 (.inr (.inr (.inl fun hd => hne (distinct_iff.2 hd))))
    change (Merger.new.merge ho imp.postings).1 = _ at he
    rw [hm] at he
    cases he
  · intro hd
    refine fresh_merge ho ?_ ?_ (distinct_iff.1 hd) ?_
    · intro t ht p hp c hc
      obtain ⟨t', ht', p', hp', rfl⟩ := import_post ht hp
      rcases ((pdf_tags h ht').2 p' hp').2 c hc with h | h
      · exact fp_not_cand h
      · exact fixed_not_cand c h
    · intro t ht p hp
      obtain ⟨t', ht', p', hp', rfl⟩ := import_post ht hp
      exact C47_nationwide_pdf h ht' hp'
    · intro t ht
      obtain ⟨t', ht', rfl⟩ := List.mem_map.1 ht
      show t'.postings.map _ ≠ []
      rw [Ne, List.map_eq_nil_iff]
      exact (pdf_tags h ht').1

/-! ## Examples -/

theorem of_run {x : Except ImportErr Import} {P : Import → Prop} [DecidablePred P]
    (h : (match x with | .ok i => decide (P i) | .error _ => false) = true) : ∃ imp, x = .ok imp ∧ P imp := by
  cases x with
  | error e => cases h
  | ok i => exact ⟨i, rfl, of_decide_eq_true h⟩

set_option maxRecDepth 100000 in
/-- A statement of two pages: three transactions. The texts of both lines are joined, the effective date and the balance are those in the
last lines; the footer and the line with the year are left out. The result is merged. -/
example : ∃ imp, getTransactions Ex.plainLib (.fixed "acc".toList) (Ex.pdfDoc Ex.pdfPage1 Ex.pdfPage2) = .ok imp ∧
    imp.transactions.map (fun t => (t.date, t.effectiveDate, t.description)) =
      [(⟨2019, 1, 1⟩, none, "Coffee Shop".toList), (⟨2019, 1, 1⟩, some ⟨2019, 1, 2⟩, "Coffee Shop".toList), (⟨2019, 1, 2⟩, none, "Salary".toList)] ∧
    imp.transactions.map (fun t => t.postings.map fun p => (p.account, p.amount.map (·.amount))) =
      [[("assets:unknown".toList, some ⟨⟨true, 300, 2⟩, gbp⟩), ("expenses:unknown".toList, some ⟨⟨false, 300, 2⟩, gbp⟩)],
       [("assets:unknown".toList, some ⟨⟨true, 300, 2⟩, gbp⟩), ("expenses:unknown".toList, some ⟨⟨false, 300, 2⟩, gbp⟩)],
       [("assets:unknown".toList, some ⟨⟨false, 100000, 2⟩, gbp⟩), ("income:unknown".toList, some ⟨⟨true, 100000, 2⟩, gbp⟩)]] ∧
    imp.transactions.map (fun t => t.postings.map fun p => p.balance) =
      [[some (.amount ⟨⟨false, 109700, 2⟩, gbp⟩), none], [some (.amount ⟨⟨false, 109400, 2⟩, gbp⟩), none],
       [some (.amount ⟨⟨false, 209400, 2⟩, gbp⟩), none]] ∧
    (Merger.new.merge HashOrder.rev imp.postings).1 = .ok [] := of_run (by decide +kernel)

set_option maxRecDepth 100000 in
/-- If a transaction goes over the end of a page, the numbers start again on the next page even if the date is the same. Two equal payments
on a day then have the same fingerprints, and what was imported cannot be merged, whatever the hash function. -/
theorem C51_page_break : ∃ imp, getTransactions Ex.plainLib (.fixed "acc".toList) (Ex.pdfDoc Ex.pdfBreak1 Ex.pdfBreak2) = .ok imp ∧
    Function.Injective Ex.plainLib.sha1 ∧ imp.transactions.map (fun t => (t.date, t.description)) =
      [(⟨2019, 1, 1⟩, "Coffee Shop".toList), (⟨2019, 1, 1⟩, "Coffee Shop".toList)] ∧
    ∀ ho, (Merger.new.merge ho imp.postings).1 ≠ .ok [] := by
  obtain ⟨imp, h, h1, h2⟩ := of_run (x := getTransactions Ex.plainLib (.fixed "acc".toList) (Ex.pdfDoc Ex.pdfBreak1 Ex.pdfBreak2))
    (P := fun imp => imp.transactions.map (fun t => (t.date, t.description)) =
      [(⟨2019, 1, 1⟩, "Coffee Shop".toList), (⟨2019, 1, 1⟩, "Coffee Shop".toList)] ∧ (Merger.new.merge HashOrder.rev imp.postings).1 ≠ .ok [])
    (by decide +kernel)
  refine ⟨imp, h, fun _ _ h => h, h1, fun ho e => h2 ?_⟩
  rw [C47_nationwide_pdf_merge h] at e ⊢
  exact e

set_option maxRecDepth 100000 in
/-- With amounts for both payment and receipt in a line, with a negative amount, without a date or with a bad balance nothing is imported. -/
example : ∀ page2 ∈ [[Ex.pdfRow 110 [(0, "2019")], Ex.pdfRow 120 [(0, "02"), (20, "Jan"), (100, "Salary"), (400, "3.00"), (500, "3.00")]],
      [Ex.pdfRow 110 [(0, "2019")], Ex.pdfRow 120 [(0, "02"), (20, "Jan"), (100, "Salary"), (500, "-3.00")]],
      [Ex.pdfRow 110 [(0, "2019")], Ex.pdfRow 120 [(100, "Salary"), (500, "3.00")]],
      [Ex.pdfRow 110 [(0, "2019")], Ex.pdfRow 120 [(0, "02"), (20, "Jan"), (100, "Salary"), (500, "3.00"), (600, "none")]]],
    (getTransactions Ex.plainLib (.fixed "acc".toList) (Ex.pdfDoc Ex.pdfPage1 page2)).isOk = false := by decide +kernel

/-- The name of an account in a document has no good characters only. -/
theorem account_bad {L : ImportLib} {doc : Document} {account : Str} (h : AccountOf L doc account) : ¬ GoodNamespace account := by
  obtain ⟨_, row, _, _, _, w0, w1, w2, w3, rest, a, b, c, d, e, f, n, _, _, _, h2, _, _, _, rfl⟩ := h
  intro hg
  have hm : '-' ∈ w2.text ++ " ".toList ++ n := by rw [h2]; simp
  exact absurd (hg _ hm) (by unfold PartChar; decide)

/-- C56, and a finding: with the option to take the name of the account as the namespace, a document with any transaction is never
imported, as the name of the account always has characters that namespaces must not have. -/
theorem C56_account_name_pdf {L : ImportLib} {doc : Document} {imp : Import} (h : getTransactions L .accountName doc = .ok imp) :
    imp.transactions = [] := by
  cases ht : imp.transactions with
  | nil => rfl
  | cons t ts =>
    have hm : t ∈ imp.transactions := by rw [ht]; exact List.mem_cons_self
    obtain ⟨account, lines, lead, groups, ks, ha, hn, _⟩ := C51_transactions h
    have hg := (from_lines h hm).1
    cases hn
    exact absurd hg (account_bad ha)

set_option maxRecDepth 100000 in
/-- A statement without transactions is imported with this option, the one with three is not. -/
example : (∃ imp, getTransactions Ex.plainLib .accountName (Ex.pdfDoc [] []) = .ok imp ∧ imp.transactions = []) ∧
    (getTransactions Ex.plainLib .accountName (Ex.pdfDoc Ex.pdfPage1 Ex.pdfPage2)).isOk = false :=
  ⟨of_run (by decide +kernel), by decide +kernel⟩

end NationwidePdf
end Verif
