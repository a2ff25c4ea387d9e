import Verif.Props.BankCsv
import Verif.Props.DaysPaypal
import Verif.Props.PdfDistinct

/-!
# C94 for the PDF statements of Nationwide
-/

namespace Verif
open Spec Spec.Book

namespace NationwidePdf
open Nationwide NationwideCsv Tesseract

/-- How much the lines of a group say that was added to the account. -/
def Moves (L : ImportLib) (g : LineGroup) (x : Rat) : Prop :=
  ∃ s a, PdfMoney L s a ∧ ((g.start.payment = some s ∧ g.start.receipt = none ∧ x = -value a.quantity) ∨
    (g.start.payment = none ∧ g.start.receipt = some s ∧ x = value a.quantity))

/-- The balances on a statement are right: before the first group of lines there was `b` in the account. Only some groups have a balance, and
what counts is the one in the last line that has one. -/
inductive AddUp (L : ImportLib) : Rat → List LineGroup → Prop
  | nil (b) : AddUp L b []
  | cons {b x g gs} : Moves L g x → (∀ s a, (g.lines.filterMap (·.balance)).getLast? = some s → PdfMoney L s a → value a.quantity = b + x) →
      AddUp L (b + x) gs → AddUp L b (g :: gs)

/-- The groups of lines are in the order of their dates. -/
def GroupsInOrder (gs : List LineGroup) : Prop :=
  gs.Pairwise fun g g' => ∀ d d', g.start.impliedDate = some d → g'.start.impliedDate = some d' → (compare d d').isLE

theorem forall₂_getLast? {α β : Type} {R : α → β → Prop} {xs : List α} {ys : List β} (h : List.Forall₂ R xs ys) {y : β}
    (hy : ys.getLast? = some y) : ∃ x, xs.getLast? = some x ∧ R x y := by
  induction h generalizing y with
  | nil => cases hy
  | @cons a b xs ys hab hrest ih =>
    cases hrest with
    | nil =>
      cases hy
      exact ⟨a, rfl, hab⟩
    | cons h1 h2 =>
      rw [List.getLast?_cons_cons] at hy ⊢
      exact ih hy

theorem pdf_posts {L : ImportLib} {ns : Str} {g : LineGroup} {k : Nat} {t : Transaction} (h : PdfSays L ns g k t) {x : Rat} (hx : Moves L g x) :
    ∃ p, postsOf ownAccount [TransactionPostings.ofTransaction t] = [p] ∧
      (∃ a, p.amount = some ⟨a, none, none⟩ ∧ a.commodity = gbp ∧ value a.quantity = x) ∧
      (p.balance = none ∨ ∃ s a, (g.lines.filterMap (·.balance)).getLast? = some s ∧ PdfMoney L s a ∧ p.balance = some (.amount a)) := by
  obtain ⟨b, p, q, hm, ht, hp, hq⟩ := h
  refine ⟨(PostingInternal.ofPosting p).raw, ?_, ⟨ownPdfAmount b, hp.amount, ?_⟩, ?_⟩
  · have : ∀ x : Posting, (PostingInternal.ofPosting x).raw.account = x.account := fun x => rfl
    unfold postsOf allPosts TransactionPostings.ofTransaction
    rw [List.flatMap_singleton, ht.postings]
    simp only [List.map_cons, List.map_nil]
    rw [List.filter_cons_of_pos (by rw [this, hp.account]; exact decide_eq_true rfl), List.filter_cons_of_neg, List.filter_nil]
    rw [this, hq.account]
    split_ifs <;> decide +kernel
  · obtain ⟨s, a, ha, hx⟩ := hx
    have hc : a.commodity = gbp := by obtain ⟨_, _, rfl⟩ := ha; rfl
    unfold ownPdfAmount
    rcases hm.amount with ⟨e1, e2, s', e3, e4⟩ | ⟨e1, e2, s', e3, e4⟩ <;> rcases hx with ⟨f1, f2, f3⟩ | ⟨f1, f2, f3⟩
    · rw [f1] at e3
      cases e3
      rw [e2, f3, pdfMoney_unique e4 ha]
      exact ⟨hc, value_negate _⟩
    · rw [f2] at e1
      cases e1
    · rw [f1] at e1
      cases e1
    · rw [f2] at e3
      cases e3
      rw [e2, f3, pdfMoney_unique e4 ha]
      exact ⟨hc, rfl⟩
  · obtain ⟨bs, h1, h2⟩ := hm.balance
    have hb : (PostingInternal.ofPosting p).raw.balance = p.balance := rfl
    rw [hb, hp.balance, h2]
    cases e : bs.getLast? with
    | none => exact .inl rfl
    | some a =>
      obtain ⟨s, hs, ha⟩ := forall₂_getLast? h1 e
      exact .inr ⟨s, a, hs, ha, rfl⟩

/-- The transactions of a statement, by the groups of its lines. -/
theorem pdf_forall₂ {L : ImportLib} {fpNs : FpNamespace} {doc : Document} {imp : Import} {lines lead : List TransactionLine}
    {groups : List LineGroup} (h : getTransactions L fpNs doc = .ok imp) (hl : LinesOf L doc lines) (hs : Splits lines lead groups) :
    List.Forall₂ (fun g t => ∃ ns k, PdfSays L ns g k t) groups imp.transactions := by
  obtain ⟨account, lines', lead', groups', ks, _, _, hl', hs', hk, hlen, hc⟩ := C51_transactions h
  obtain rfl := (C51_groups L doc).1 _ _ hl hl'
  obtain ⟨_, _, _, hu⟩ := (C51_groups L doc).2.1 lines
  obtain ⟨rfl, rfl⟩ := hu _ _ hs
  obtain ⟨rfl, rfl⟩ := hu _ _ hs'
  rw [List.forall₂_iff_get]
  refine ⟨hlen.symm, fun i h1 h2 => ?_⟩
  have hkl := hk.1
  exact ⟨_, _, hc i _ ks[i] _ (List.getElem?_eq_getElem h1) (List.getElem?_eq_getElem (by omega)) (List.getElem?_eq_getElem h2)⟩

theorem balancesHold_groups {L : ImportLib} {gs : List LineGroup} {ts : List Transaction}
    (h : List.Forall₂ (fun g t => ∃ ns k, PdfSays L ns g k t) gs ts) : ∀ start : Str → Rat, AddUp L (start gbp.name) gs →
      BalancesHold start (postsOf ownAccount (ts.map TransactionPostings.ofTransaction)) := by
  induction h with
  | nil => exact fun start _ => balancesHold_nil start
  | @cons g t gs ts hg _ ih =>
    intro start ha
    obtain ⟨ns, k, hg⟩ := hg
    cases ha with
    | @cons _ x _ _ hx hb hrest =>
      obtain ⟨p, h1, ⟨a, h2, h3, h4⟩, h5⟩ := pdf_posts hg hx
      have ht : total gbp.name [p] = x := by
        unfold total
        simp only [List.map_cons, List.map_nil, h2, List.sum_cons, List.sum_nil, h3, if_true, h4, add_zero]
      rw [List.map_cons, ← List.singleton_append, postsOf_append, h1, List.singleton_append, balancesHold_cons]
      refine ⟨?_, ih _ ?_⟩
      · rcases h5 with h5 | ⟨s, b, hs, hm, h5⟩
        · rw [h5]
          trivial
        · rw [h5]
          have hv := hb s b hs hm
          obtain ⟨q, hq, rfl⟩ := hm
          show start gbp.name + total gbp.name [p] = _
          rw [ht]
          exact hv.symm
      · show AddUp L (start gbp.name + total gbp.name [p]) gs
        rw [ht]
        exact hrest

/-- C94: if the balances on the statement are right, then what the imported transactions say about the balance of the account holds. -/
theorem C94_pdf {L : ImportLib} {fpNs : FpNamespace} {doc : Document} {imp : Import} {lines lead : List TransactionLine}
    {groups : List LineGroup} (h : getTransactions L fpNs doc = .ok imp) (hl : LinesOf L doc lines) (hs : Splits lines lead groups)
    (start : Str → Rat) (ha : AddUp L (start gbp.name) groups) : BalancesHold start (postsOf ownAccount imp.postings) :=
  balancesHold_groups (pdf_forall₂ h hl hs) start ha

theorem groups_chronological {L : ImportLib} {gs : List LineGroup} {ts : List Transaction}
    (h : List.Forall₂ (fun g t => ∃ ns k, PdfSays L ns g k t) gs ts) (ho : GroupsInOrder gs) :
    Chronological (ts.map TransactionPostings.ofTransaction) := by
  induction h with
  | nil => exact List.Pairwise.nil
  | @cons g t gs ts hg hgs ih =>
    obtain ⟨h1, h2⟩ := List.pairwise_cons.1 ho
    refine List.pairwise_cons.2 ⟨?_, ih h2⟩
    intro x hx
    obtain ⟨u, hu, rfl⟩ := List.mem_map.1 hx
    obtain ⟨g', hg', _, _, b', _, _, hm', ht', _⟩ := forall₂_right hgs hu
    obtain ⟨_, _, b, _, _, hm, ht, _⟩ := hg
    have := h1 g' hg' _ _ hm.date hm'.date
    rw [← ht.date, ← ht'.date] at this
    exact this

/-- A statement: the document, the groups of its lines, and what is imported from it. -/
structure Statement (L : ImportLib) (fpNs : FpNamespace) (doc : Document) (groups : List LineGroup) (imp : Import) : Prop where
  imported : getTransactions L fpNs doc = .ok imp
  groups : ∃ lines lead, LinesOf L doc lines ∧ Splits lines lead groups
  distinct : DistinctFingerprints imp.transactions

/-- C94 for PDF statements: the statements of an account are merged into a new journal, one after the other. If no posting of one can be taken for one
of another, if they are in the order of their dates and if their balances are right, then the journal has their transactions in the same order
and what it says about the balance holds, after each of its transactions. -/
theorem C94_statements {L : ImportLib} {fpNs : FpNamespace} {sts : List (Document × List LineGroup × Import)}
    (h : ∀ x ∈ sts, Statement L fpNs x.1 x.2.1 x.2.2) (hu : (sts.map fun x => x.2.2.postings).Pairwise Unlike)
    (ho : GroupsInOrder (sts.flatMap fun x => x.2.1)) (start : Str → Rat) (ha : AddUp L (start gbp.name) (sts.flatMap fun x => x.2.1))
    (orders : HashOrder) :
    journalOf (sts.map fun x => (orders, x.2.2.postings)) = some (sts.flatMap fun x => x.2.2.postings) ∧
      BalancesHold start (postsOf ownAccount (sts.flatMap fun x => x.2.2.postings)) := by
  have hf : List.Forall₂ (fun g t => ∃ ns k, PdfSays L ns g k t) (sts.flatMap fun x => x.2.1) (sts.flatMap fun x => x.2.2.transactions) := by
    clear hu ho ha
    induction sts with
    | nil => exact .nil
    | cons x sts ih =>
      rw [List.flatMap_cons, List.flatMap_cons]
      obtain ⟨h1, ⟨lines, lead, h2, h3⟩, _⟩ := h x List.mem_cons_self
      exact List.rel_append (pdf_forall₂ h1 h2 h3) (ih fun y hy => h y (List.mem_cons_of_mem _ hy))
  have he : (sts.flatMap fun x => x.2.2.postings) = (sts.flatMap fun x => x.2.2.transactions).map TransactionPostings.ofTransaction := by
    rw [List.map_flatMap]
    rfl
  have hc : Chronological (sts.flatMap fun x => x.2.2.postings) := by
    rw [he]
    exact groups_chronological hf ho
  refine ⟨?_, by rw [he]; exact balancesHold_groups hf start ha⟩
  have hi : inputs (sts.map fun x => (orders, x.2.2.postings)) = sts.map fun x => x.2.2.postings := by
    unfold inputs
    rw [List.map_map]
    rfl
  rw [journalOf_unlike (by rw [hi]; exact hu), hi]
  refine ⟨?_, ?_⟩
  · intro g hg
    obtain ⟨x, hx, rfl⟩ := List.mem_map.1 hg
    obtain ⟨h1, _, h3⟩ := h x hx
    obtain ⟨j, hj, _⟩ := PaypalCsv.journalOf_single ((C47_nationwide_pdf_merge h1 .sorted).2 h3)
    exact ((journalOf_unlike (calls := [(.sorted, x.2.2.postings)]) (List.pairwise_singleton _ _) j).1 hj).1 _ List.mem_cons_self
  · rw [← List.flatMap_def]
    exact (List.mergeSort_of_pairwise hc).symm

/-! ### An example -/

/-- A page of the next statement: two payments on a day, with a balance only after the second. -/
def Ex.pdfNext : List Tesseract.Line :=
  [Ex.pdfRow 110 [(0, "2019"), (100, "Balance"), (600, "2,094.00")],
   Ex.pdfRow 120 [(0, "03"), (20, "Jan"), (100, "Rent"), (400, "500.00")],
   Ex.pdfRow 130 [(100, "Gas"), (400, "44.00"), (600, "1,550.00")]]

/-- The lines of a document. -/
def linesIn (doc : Document) : List TransactionLine :=
  ((doc.pages.flatMap findTables).map fun t => match readLines Ex.plainLib t.1 t.2 with | .ok ls => ls | .error _ => []).flatMap (upTo none)

theorem linesIn_read {doc : Document} (h : ∀ t ∈ doc.pages.flatMap findTables, (readLines Ex.plainLib t.1 t.2).isOk = true) :
    LinesOf Ex.plainLib doc (linesIn doc) := by
  refine linesOf_read (forall₂_of_map _ ?_)
  intro t ht
  have := h t ht
  cases e : readLines Ex.plainLib t.1 t.2 with
  | ok ls => rfl
  | error e' => rw [e] at this; cases this

/-- The amount that a text denotes. -/
def pdfValue (s : Str) : Option Rat := (Ex.plainLib.decimal (s.filter (· ≠ ','))).map value

/-- A way to check balances. -/
def addsUp : List LineGroup → Rat → Bool
  | [], _ => true
  | g :: gs, b =>
    match (match g.start.payment, g.start.receipt with
      | some s, none => (pdfValue s).map fun v => -v
      | none, some s => pdfValue s
      | _, _ => none) with
    | none => false
    | some x => decide ((g.lines.filterMap (·.balance)).getLast?.bind pdfValue = some (b + x) ∨
        (g.lines.filterMap (·.balance)).getLast? = none) && addsUp gs (b + x)

theorem pdfValue_money {s : Str} {v : Rat} (h : pdfValue s = some v) : ∃ a, PdfMoney Ex.plainLib s a ∧ value a.quantity = v := by
  obtain ⟨q, h1, h2⟩ := Option.map_eq_some_iff.1 h
  exact ⟨⟨q, gbp⟩, ⟨q, h1, rfl⟩, h2⟩

theorem addUp_check : ∀ {gs : List LineGroup} {b : Rat}, addsUp gs b = true → AddUp Ex.plainLib b gs := by
  intro gs
  induction gs with
  | nil => exact fun {b} _ => .nil b
  | cons g gs ih =>
    intro b h
    unfold addsUp at h
    split at h
    · cases h
    rename_i x hx
    rw [Bool.and_eq_true] at h
    obtain ⟨h1, h2⟩ := h
    refine .cons (x := x) ?_ ?_ (ih h2)
    · split at hx
      · rename_i s e1 e2
        obtain ⟨v, hv, rfl⟩ := Option.map_eq_some_iff.1 hx
        obtain ⟨a, ha, rfl⟩ := pdfValue_money hv
        exact ⟨s, a, ha, .inl ⟨e1, e2, rfl⟩⟩
      · rename_i s e1 e2
        obtain ⟨a, ha, rfl⟩ := pdfValue_money hx
        exact ⟨s, a, ha, .inr ⟨e1, e2, rfl⟩⟩
      · cases hx
    · intro s a hs hm
      rcases of_decide_eq_true h1 with h1 | h1
      · rw [hs] at h1
        obtain ⟨a', ha', e⟩ := pdfValue_money h1
        rw [pdfMoney_unique hm ha', e]
      · rw [hs] at h1
        cases h1

set_option maxRecDepth 100000 in
/-- The hypotheses of `C94_statements` are met by two statements with five transactions: there are 1100 pounds in the account before. -/
example : ∃ imp imp', getTransactions Ex.plainLib (.fixed "acc".toList) (Ex.pdfDoc Ex.pdfPage1 Ex.pdfPage2) = .ok imp ∧
    getTransactions Ex.plainLib (.fixed "acc".toList) (Ex.pdfDoc Ex.pdfNext []) = .ok imp' ∧
    ((imp.postings ++ imp'.postings).map fun t => t.posts.map fun p => p.raw.balance) =
      [[some (.amount ⟨⟨false, 109700, 2⟩, gbp⟩), none], [some (.amount ⟨⟨false, 109400, 2⟩, gbp⟩), none],
       [some (.amount ⟨⟨false, 209400, 2⟩, gbp⟩), none], [none, none], [some (.amount ⟨⟨false, 155000, 2⟩, gbp⟩), none]] ∧
    journalOf [(.rev, imp.postings), (.rev, imp'.postings)] = some (imp.postings ++ imp'.postings) ∧
    BalancesHold (fun c => if c = gbp.name then 1100 else 0) (postsOf ownAccount (imp.postings ++ imp'.postings)) := by
  have key : (match getTransactions Ex.plainLib (.fixed "acc".toList) (Ex.pdfDoc Ex.pdfPage1 Ex.pdfPage2),
      getTransactions Ex.plainLib (.fixed "acc".toList) (Ex.pdfDoc Ex.pdfNext []) with
    | .ok imp, .ok imp' => decide (((imp.postings ++ imp'.postings).map fun t => t.posts.map fun p => p.raw.balance) =
      [[some (.amount ⟨⟨false, 109700, 2⟩, gbp⟩), none], [some (.amount ⟨⟨false, 109400, 2⟩, gbp⟩), none],
       [some (.amount ⟨⟨false, 209400, 2⟩, gbp⟩), none], [none, none], [some (.amount ⟨⟨false, 155000, 2⟩, gbp⟩), none]] ∧
      (Merger.new.merge HashOrder.rev imp.postings).1 = .ok [] ∧ (Merger.new.merge HashOrder.rev imp'.postings).1 = .ok [] ∧
      Unlike imp.postings imp'.postings)
    | _, _ => false) = true := by decide +kernel
  split at key
  swap
  · cases key
  rename_i imp imp' e e'
  obtain ⟨k1, k2, k3, k4⟩ := of_decide_eq_true key
  have hl := linesIn_read (doc := Ex.pdfDoc Ex.pdfPage1 Ex.pdfPage2) (by decide +kernel)
  have hl' := linesIn_read (doc := Ex.pdfDoc Ex.pdfNext []) (by decide +kernel)
  have hs : ∀ x ∈ [(Ex.pdfDoc Ex.pdfPage1 Ex.pdfPage2, (splitLines (linesIn (Ex.pdfDoc Ex.pdfPage1 Ex.pdfPage2))).2, imp),
      (Ex.pdfDoc Ex.pdfNext [], (splitLines (linesIn (Ex.pdfDoc Ex.pdfNext []))).2, imp')],
      Statement Ex.plainLib (.fixed "acc".toList) x.1 x.2.1 x.2.2 := by
    intro x hx
    simp only [List.mem_cons, List.not_mem_nil, or_false] at hx
    rcases hx with rfl | rfl
    · exact ⟨e, ⟨_, _, hl, splitLines_splits _⟩, (C47_nationwide_pdf_merge e .rev).1 k2⟩
    · exact ⟨e', ⟨_, _, hl', splitLines_splits _⟩, (C47_nationwide_pdf_merge e' .rev).1 k3⟩
  obtain ⟨a1, a2⟩ := C94_statements hs (List.pairwise_pair.2 k4)
    (by
      have : ((splitLines (linesIn (Ex.pdfDoc Ex.pdfPage1 Ex.pdfPage2))).2 ++ (splitLines (linesIn (Ex.pdfDoc Ex.pdfNext []))).2).Pairwise
          fun g g' => (compare (g.start.impliedDate.getD ⟨0, 1, 1⟩) (g'.start.impliedDate.getD ⟨0, 1, 1⟩)).isLE = true := by decide +kernel
      unfold GroupsInOrder
      simp only [List.flatMap_cons, List.flatMap_nil, List.append_nil]
      refine this.imp fun {g g'} h d d' hd hd' => ?_
      rw [hd, hd'] at h
      exact h)
    (fun c => if c = gbp.name then 1100 else 0)
    (by
      rw [if_pos (show gbp.name = gbp.name from rfl)]
      simp only [List.flatMap_cons, List.flatMap_nil, List.append_nil]
      exact addUp_check (by decide +kernel)) .rev
  simp only [List.flatMap_cons, List.flatMap_nil, List.append_nil] at a1 a2
  exact ⟨imp, imp', e, e', k1, a1, a2⟩

end NationwidePdf
end Verif
