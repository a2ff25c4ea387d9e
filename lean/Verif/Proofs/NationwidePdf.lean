import Verif.Spec.NationwidePdf
import Verif.Proofs.NationwideCsv
import Verif.Proofs.Runs

/-!
# How lines of PDF statements become transactions
-/

namespace Verif
open Spec
namespace NationwidePdf
open NationwideCsv

/-! ## Single lines -/

theorem parseAmount_iff (L : ImportLib) (s : Str) (a : Amount) : parseAmount L s = .ok a ↔ PdfMoney L s a := by
  have hs : (if s.contains ',' then s.filter (· != ',') else s) = s.filter (· ≠ ',') := by
    split
    · congr 1; funext c; by_cases h : c = ',' <;> simp [h]
    · rename_i h
      rw [eq_comm, List.filter_eq_self]
      intro c hc
      have : c ≠ ',' := by rintro rfl; exact h (List.contains_iff_mem.2 hc)
      simpa using this
  unfold parseAmount PdfMoney
  rw [hs]
  split
  · rename_i h
    refine iff_of_false (by intro h; cases h) ?_
    rintro ⟨q, e, _⟩
    rw [h] at e; cases e
  · rename_i q h
    rw [h]
    constructor
    · intro h; cases h; exact ⟨q, rfl, rfl⟩
    · rintro ⟨q', e, rfl⟩; cases e; rfl

/-- A line starts a transaction that is number `k` of its date. -/
structure Begins (L : ImportLib) (line : TransactionLine) (k : Int) (b : TransactionBuilder) : Prop where
  date : line.impliedDate = some b.date
  number : b.dateCounter = k
  amount : (line.receipt = none ∧ b.type_ = .payment ∧ ∃ s, line.payment = some s ∧ PdfMoney L s b.amount) ∨
    (line.payment = none ∧ b.type_ = .receipt ∧ ∃ s, line.receipt = some s ∧ PdfMoney L s b.amount)
  positive : b.amount.quantity.neg = false
  description : b.description = line.detail
  effective : b.effectiveDate = none
  balance : b.balance = none

/-- A line may tell the balance. -/
def Balances (L : ImportLib) (line : TransactionLine) (b b' : TransactionBuilder) : Prop :=
  (line.balance = none ∧ b' = b) ∨ ∃ s a, line.balance = some s ∧ PdfMoney L s a ∧ b' = { b with balance := some a }

/-- A line continues a transaction. -/
def Extends (L : ImportLib) (line : TransactionLine) (b b' : TransactionBuilder) : Prop :=
  (line.detail = [] ∧ b' = b) ∨ (TellsDate line ∧ ∃ d, L.dateEffective line.detail = some d ∧ b' = { b with effectiveDate := some d }) ∨
    (line.detail ≠ [] ∧ ¬ TellsDate line ∧ b' = { b with description := b.description ++ [' '] ++ line.detail })

theorem tellsDate_ne {line : TransactionLine} (h : TellsDate line) : line.detail ≠ [] := by
  obtain ⟨u, e⟩ := h
  rw [← e]
  intro h
  have := congrArg List.length h
  rw [List.length_append] at this
  exact absurd this (by show ¬ 15 + _ = 0; omega)

theorem startsWith_iff (l : TransactionLine) : l.detail.startsWith effectivePrefix = true ↔ TellsDate l := by
  unfold Str.startsWith TellsDate
  rw [List.isPrefixOf_iff_prefix]
  rfl

theorem extend_iff (L : ImportLib) (line : TransactionLine) (b b' : TransactionBuilder) :
    b.extend L line.detail = .ok b' ↔ Extends L line b b' := by
  unfold TransactionBuilder.extend Extends
  by_cases h0 : line.detail = []
  · rw [if_pos (by rw [h0]; rfl)]
    constructor
    · intro h; cases h; exact .inl ⟨h0, rfl⟩
    · rintro (⟨_, rfl⟩ | ⟨h, _⟩ | ⟨h, _⟩)
      · rfl
      · exact absurd h0 (tellsDate_ne h)
      · exact absurd h0 h
  · rw [if_neg (by rw [List.isEmpty_iff]; exact h0)]
    by_cases h1 : TellsDate line
    · rw [if_pos ((startsWith_iff line).2 h1)]
      split
      · rename_i hd
        refine iff_of_false (by intro h; cases h) ?_
        rintro (⟨h, _⟩ | ⟨_, d, e, _⟩ | ⟨_, h, _⟩)
        · exact h0 h
        · rw [hd] at e; cases e
        · exact h h1
      · rename_i d hd
        constructor
        · intro h; cases h; exact .inr (.inl ⟨h1, d, hd, rfl⟩)
        · rintro (⟨h, _⟩ | ⟨_, d', e, rfl⟩ | ⟨_, h, _⟩)
          · exact absurd h h0
          · rw [hd] at e; cases e; rfl
          · exact absurd h1 h
    · rw [if_neg (by rw [startsWith_iff]; exact h1)]
      constructor
      · intro h; cases h; exact .inr (.inr ⟨h0, h1, rfl⟩)
      · rintro (⟨h, _⟩ | ⟨h, _⟩ | ⟨_, _, rfl⟩)
        · exact absurd h h0
        · exact absurd h h1
        · rfl

theorem finishLine_iff (L : ImportLib) (line : TransactionLine) (acc : Acc) (b : TransactionBuilder) (hb : acc.curTrn = some b) (acc' : Acc) :
    acc.finishLine L line = .ok acc' ↔ ∃ b', Balances L line b b' ∧ acc' = { acc with curTrn := some b', prevDate := line.impliedDate } := by
  unfold Acc.finishLine Balances
  rw [hb]
  cases hl : line.balance with
  | none =>
    dsimp only
    constructor
    · intro h; cases h; exact ⟨b, .inl ⟨rfl, rfl⟩, by rw [← hb]⟩
    · rintro ⟨b', ⟨_, rfl⟩ | ⟨s, a, h, _⟩, rfl⟩
      · rw [← hb]
      · cases h
  | some s =>
    simp only
    cases hp : parseAmount L s with
    | error e =>
      refine iff_of_false (by intro h; cases h) ?_
      rintro ⟨b', ⟨h, _⟩ | ⟨s', a, h, hm, _⟩, _⟩
      · cases h
      · cases h
        rw [(parseAmount_iff ..).2 hm] at hp
        cases hp
    | ok a =>
      constructor
      · intro h; cases h; exact ⟨_, .inr ⟨s, a, rfl, (parseAmount_iff ..).1 hp, rfl⟩, rfl⟩
      · rintro ⟨b', ⟨h, _⟩ | ⟨s', a', h, hm, rfl⟩, rfl⟩
        · cases h
        · cases h
          rw [(parseAmount_iff ..).2 hm] at hp
          cases hp
          rfl

/-- The number of a transaction that starts with a line. -/
def Acc.nextNumber (acc : Acc) (line : TransactionLine) : Int := if line.impliedDate ≠ acc.prevDate then 0 else acc.dateCounter + 1

theorem flush_same {L : ImportLib} {ns : Str} {acc acc' : Acc} (h : acc.flush L ns = .ok acc') :
    acc'.prevDate = acc.prevDate ∧ acc'.dateCounter = acc.dateCounter ∧ acc'.curTrn = none := by
  unfold Acc.flush at h
  split at h
  · rename_i hc; cases h; exact ⟨rfl, rfl, hc⟩
  · split at h
    · cases h
    · cases h; exact ⟨rfl, rfl, rfl⟩

theorem begin_iff {L : ImportLib} {ns : Str} {acc : Acc} {line : TransactionLine} {s : Str} {ty : TransactionType} {acc' : Acc} :
    acc.begin L ns line s ty = .ok acc' ↔ ∃ acc1 a d, acc.flush L ns = .ok acc1 ∧ PdfMoney L s a ∧ line.impliedDate = some d ∧
      a.quantity.neg = false ∧ acc' = { acc1 with
        curTrn := some ⟨d, acc.nextNumber line, a, ty, none, line.detail, none⟩
        dateCounter := acc.nextNumber line } := by
  unfold Acc.begin
  cases hf : acc.flush L ns with
  | error e => exact iff_of_false (by intro h; cases h) (by rintro ⟨_, _, _, h, _⟩; cases h)
  | ok acc1 =>
    obtain ⟨e1, e2, _⟩ := flush_same hf
    simp only
    cases hp : parseAmount L s with
    | error e =>
      refine iff_of_false (by intro h; cases h) ?_
      rintro ⟨_, a, _, _, hm, _⟩
      rw [(parseAmount_iff ..).2 hm] at hp; cases hp
    | ok a =>
      simp only
      unfold TransactionBuilder.new
      cases hd : line.impliedDate with
      | none => exact iff_of_false (by intro h; cases h) (by rintro ⟨_, _, _, _, _, h, _⟩; cases h)
      | some d =>
        simp only
        by_cases hn : a.quantity.neg = true
        · rw [if_pos hn]
          refine iff_of_false (by intro h; cases h) ?_
          rintro ⟨_, a', _, _, hm, _, h, _⟩
          rw [(parseAmount_iff ..).2 hm] at hp
          cases hp
          rw [h] at hn; cases hn
        · rw [if_neg hn]
          have hk : (if some d ≠ acc1.prevDate then (0 : Int) else acc1.dateCounter + 1) = acc.nextNumber line := by
            unfold Acc.nextNumber; rw [hd, e1, e2]
          simp only [hk]
          constructor
          · intro h; cases h
            exact ⟨acc1, a, d, rfl, (parseAmount_iff ..).1 hp, rfl, by simpa using hn, rfl⟩
          · rintro ⟨_, a', d', h, hm, hd', _, rfl⟩
            cases h
            cases hd'
            rw [(parseAmount_iff ..).2 hm] at hp
            cases hp
            rfl

/-- A line with an amount ends the transaction before and starts a new one. -/
theorem feed_start {L : ImportLib} {ns : Str} {acc : Acc} {line : TransactionLine} (hs : Starts line) {acc' : Acc} :
    acc.feedLine L ns line = .ok acc' ↔ ∃ acc1 b0 b1, acc.flush L ns = .ok acc1 ∧ Begins L line (acc.nextNumber line) b0 ∧
      Balances L line b0 b1 ∧ acc' = ⟨some b1, line.impliedDate, acc.nextNumber line, acc1.trns⟩ := by
  have hgen : ∀ (s : Str) (ty : TransactionType), ((line.payment = some s ∧ line.receipt = none ∧ ty = .payment) ∨
      (line.payment = none ∧ line.receipt = some s ∧ ty = .receipt)) →
      ((match acc.begin L ns line s ty with
        | .error e => Except.error e
        | .ok acc => acc.finishLine L line) = .ok acc' ↔ ∃ acc1 b0 b1, acc.flush L ns = .ok acc1 ∧ Begins L line (acc.nextNumber line) b0 ∧
      Balances L line b0 b1 ∧ acc' = ⟨some b1, line.impliedDate, acc.nextNumber line, acc1.trns⟩) := by
    intro s ty hty
    constructor
    · intro h
      split at h
      · cases h
      · rename_i acc2 h2
        obtain ⟨acc1, a, d, h3, h4, h5, h6, rfl⟩ := begin_iff.1 h2
        obtain ⟨b', h7, rfl⟩ := (finishLine_iff L line _ _ rfl acc').1 h
        refine ⟨acc1, _, b', h3, ⟨h5, rfl, ?_, h6, rfl, rfl, rfl⟩, h7, rfl⟩
        rcases hty with ⟨e1, e2, rfl⟩ | ⟨e1, e2, rfl⟩
        · exact .inl ⟨e2, rfl, s, e1, h4⟩
        · exact .inr ⟨e1, rfl, s, e2, h4⟩
    · rintro ⟨acc1, b0, b1, h1, h2, h3, rfl⟩
      have hb : b0 = ⟨b0.date, acc.nextNumber line, b0.amount, ty, none, line.detail, none⟩ := by
        have := h2.number; have := h2.description; have := h2.effective; have := h2.balance
        have hty' : b0.type_ = ty := by
          rcases h2.amount with ⟨e, e', s', e'', _⟩ | ⟨e, e', s', e'', _⟩ <;> rcases hty with ⟨e1, e2, rfl⟩ | ⟨e1, e2, rfl⟩
          · exact e'
          · rw [e] at e2; cases e2
          · rw [e] at e1; cases e1
          · exact e'
        cases b0
        simp_all
      have hm : PdfMoney L s b0.amount := by
        rcases h2.amount with ⟨e, e', s', e'', hm⟩ | ⟨e, e', s', e'', hm⟩ <;> rcases hty with ⟨e1, e2, _⟩ | ⟨e1, e2, _⟩
        · rw [e1] at e''; cases e''; exact hm
        · rw [e] at e2; cases e2
        · rw [e] at e1; cases e1
        · rw [e2] at e''; cases e''; exact hm
      rw [begin_iff.2 ⟨acc1, b0.amount, b0.date, h1, hm, h2.date, h2.positive, rfl⟩]
      simp only
      exact (finishLine_iff L line _ _ rfl _).2 ⟨b1, by rw [← hb]; exact h3, rfl⟩
  unfold Acc.feedLine
  cases hp : line.payment with
  | none =>
    cases hr : line.receipt with
    | none => exact absurd hs (by simp [Starts, hp, hr])
    | some s => exact hgen s .receipt (.inr ⟨hp, hr, rfl⟩)
  | some s =>
    cases hr : line.receipt with
    | none => exact hgen s .payment (.inl ⟨hp, hr, rfl⟩)
    | some s' =>
      refine iff_of_false (by intro h; cases h) ?_
      rintro ⟨_, b0, _, _, h, _⟩
      rcases h.amount with ⟨e, _⟩ | ⟨e, _⟩
      · rw [hr] at e; cases e
      · rw [hp] at e; cases e

/-- A line without an amount continues the current transaction. -/
theorem feed_more {L : ImportLib} {ns : Str} {acc : Acc} {line : TransactionLine} (hs : ¬ Starts line) {b : TransactionBuilder}
    (hb : acc.curTrn = some b) {acc' : Acc} :
    acc.feedLine L ns line = .ok acc' ↔ ∃ b1 b2, Extends L line b b1 ∧ Balances L line b1 b2 ∧
      acc' = { acc with curTrn := some b2, prevDate := line.impliedDate } := by
  simp only [Starts, not_or, not_not] at hs
  unfold Acc.feedLine
  rw [hs.1, hs.2, hb]
  simp only
  constructor
  · intro h
    split at h
    · cases h
    · rename_i b1 h1
      obtain ⟨b2, h2, rfl⟩ := (finishLine_iff L line _ _ rfl acc').1 h
      exact ⟨b1, b2, (extend_iff ..).1 h1, h2, rfl⟩
  · rintro ⟨b1, b2, h1, h2, rfl⟩
    rw [(extend_iff ..).2 h1]
    exact (finishLine_iff L line _ _ rfl _).2 ⟨b2, h2, rfl⟩

/-- A line without an amount before the first transaction is ignored. -/
theorem feed_lead {L : ImportLib} {ns : Str} {acc : Acc} {line : TransactionLine} (hs : ¬ Starts line) (hb : acc.curTrn = none) :
    acc.feedLine L ns line = .ok acc := by
  simp only [Starts, not_or, not_not] at hs
  unfold Acc.feedLine
  rw [hs.1, hs.2, hb]

/-! ## Groups of lines -/

/-- Feed lines one by one. -/
def feedAll (L : ImportLib) (ns : Str) : Acc → List TransactionLine → Except ImportErr Acc
  | acc, [] => .ok acc
  | acc, l :: ls =>
    match acc.feedLine L ns l with
    | .error e => .error e
    | .ok acc => feedAll L ns acc ls

theorem feedAll_cons {L : ImportLib} {ns : Str} {acc : Acc} {l : TransactionLine} {ls : List TransactionLine} {acc' : Acc} :
    feedAll L ns acc (l :: ls) = .ok acc' ↔ ∃ acc1, acc.feedLine L ns l = .ok acc1 ∧ feedAll L ns acc1 ls = .ok acc' := by
  rw [feedAll]
  split
  · rename_i h
    refine iff_of_false (by intro h; cases h) ?_
    rintro ⟨_, h', _⟩
    rw [h] at h'; cases h'
  · rename_i acc1 h
    constructor
    · intro h'; exact ⟨acc1, h, h'⟩
    · rintro ⟨acc2, e, h'⟩; rw [h] at e; cases e; exact h'

theorem feedAll_append {L : ImportLib} {ns : Str} {acc : Acc} {xs ys : List TransactionLine} {acc' : Acc} :
    feedAll L ns acc (xs ++ ys) = .ok acc' ↔ ∃ acc1, feedAll L ns acc xs = .ok acc1 ∧ feedAll L ns acc1 ys = .ok acc' := by
  induction xs generalizing acc with
  | nil =>
    constructor
    · intro h; exact ⟨acc, rfl, h⟩
    · rintro ⟨_, h, h'⟩; cases h; exact h'
  | cons x xs ih =>
    rw [List.cons_append, feedAll_cons]
    constructor
    · rintro ⟨a1, h1, h2⟩
      obtain ⟨a2, h3, h4⟩ := ih.1 h2
      exact ⟨a2, feedAll_cons.2 ⟨a1, h1, h3⟩, h4⟩
    · rintro ⟨a2, h, h4⟩
      obtain ⟨a1, h1, h3⟩ := feedAll_cons.1 h
      exact ⟨a1, h1, ih.2 ⟨a2, h3, h4⟩⟩

theorem feedAll_lead {L : ImportLib} {ns : Str} {acc : Acc} {lead : List TransactionLine} (h : ∀ l ∈ lead, ¬ Starts l)
    (hb : acc.curTrn = none) : feedAll L ns acc lead = .ok acc := by
  induction lead with
  | nil => rfl
  | cons l lead ih =>
    exact feedAll_cons.2 ⟨acc, feed_lead (h l List.mem_cons_self) hb, ih fun x hx => h x (List.mem_cons_of_mem _ hx)⟩

/-- Lines continue a transaction. -/
def Continues (L : ImportLib) : List TransactionLine → TransactionBuilder → TransactionBuilder → Prop
  | [], b, b' => b' = b
  | l :: ls, b, b' => ∃ b1 b2, Extends L l b b1 ∧ Balances L l b1 b2 ∧ Continues L ls b2 b'

/-- The date of the last line, if there is one. -/
def lastDate (d : Option Date) (ls : List TransactionLine) : Option Date := ls.foldl (fun _ l => l.impliedDate) d

theorem feedAll_more {L : ImportLib} {ns : Str} {more : List TransactionLine} (h : ∀ l ∈ more, ¬ Starts l) {acc : Acc}
    {b : TransactionBuilder} (hb : acc.curTrn = some b) {acc' : Acc} :
    feedAll L ns acc more = .ok acc' ↔ ∃ b', Continues L more b b' ∧
      acc' = { acc with curTrn := some b', prevDate := lastDate acc.prevDate more } := by
  induction more generalizing acc b with
  | nil =>
    constructor
    · intro h; cases h; exact ⟨b, rfl, by rw [← hb]; rfl⟩
    · rintro ⟨b', rfl, rfl⟩
      show Except.ok acc = Except.ok { acc with curTrn := some b', prevDate := acc.prevDate }
      rw [← hb]
  | cons l ls ih =>
    rw [feedAll_cons]
    constructor
    · rintro ⟨acc1, h1, h2⟩
      obtain ⟨b1, b2, h3, h4, rfl⟩ := (feed_more (h l List.mem_cons_self) hb).1 h1
      obtain ⟨b', h5, rfl⟩ := (ih (fun x hx => h x (List.mem_cons_of_mem _ hx)) rfl).1 h2
      exact ⟨b', ⟨b1, b2, h3, h4, h5⟩, rfl⟩
    · rintro ⟨b', ⟨b1, b2, h3, h4, h5⟩, rfl⟩
      exact ⟨_, (feed_more (h l List.mem_cons_self) hb).2 ⟨b1, b2, h3, h4, rfl⟩,
        (ih (fun x hx => h x (List.mem_cons_of_mem _ hx)) rfl).2 ⟨b', h5, rfl⟩⟩

theorem lastDate_cons (s : TransactionLine) (more : List TransactionLine) :
    lastDate s.impliedDate more = ((s :: more).getLast (by simp)).impliedDate := by
  induction more generalizing s with
  | nil => rfl
  | cons x xs ih => rw [List.getLast_cons (by simp)]; exact ih x

theorem lastDate_group (g : LineGroup) : lastDate g.start.impliedDate g.more = g.lastDate := lastDate_cons ..

theorem forall2_append {α β : Type} {P : α → β → Prop} {xs ys : List α} {zs : List β} :
    List.Forall₂ P (xs ++ ys) zs ↔ ∃ us vs, zs = us ++ vs ∧ List.Forall₂ P xs us ∧ List.Forall₂ P ys vs := by
  induction xs generalizing zs with
  | nil =>
    constructor
    · intro h; exact ⟨[], zs, rfl, .nil, h⟩
    · rintro ⟨us, vs, rfl, h1, h2⟩; cases h1; exact h2
  | cons x xs ih =>
    constructor
    · intro h
      cases h with
      | cons h1 h2 =>
        obtain ⟨us, vs, rfl, h3, h4⟩ := ih.1 h2
        exact ⟨_ :: us, vs, rfl, .cons h1 h3, h4⟩
    · rintro ⟨us, vs, rfl, h1, h2⟩
      cases h1 with
      | cons h1 h3 => exact .cons h1 (ih.2 ⟨_, vs, rfl, h3, h2⟩)

/-- What the lines after the first say. -/
theorem continues_iff (L : ImportLib) (more : List TransactionLine) (b b' : TransactionBuilder) :
    Continues L more b b' ↔ b'.date = b.date ∧ b'.dateCounter = b.dateCounter ∧ b'.amount = b.amount ∧ b'.type_ = b.type_ ∧
      b'.description = b.description ++ ((more.filter fun l => l.detail ≠ [] ∧ ¬ TellsDate l).flatMap fun l => ' ' :: l.detail) ∧
      (∃ ds, List.Forall₂ (fun l d => L.dateEffective l.detail = some d) (more.filter fun l => TellsDate l) ds ∧
        b'.effectiveDate = ds.getLast?.or b.effectiveDate) ∧
      (∃ bs, List.Forall₂ (PdfMoney L) (more.filterMap (·.balance)) bs ∧ b'.balance = bs.getLast?.or b.balance) := by
  induction more generalizing b with
  | nil =>
    constructor
    · rintro rfl
      exact ⟨rfl, rfl, rfl, rfl, by simp, ⟨[], .nil, rfl⟩, [], .nil, rfl⟩
    · rintro ⟨h1, h2, h3, h4, h5, ⟨ds, hds, h6⟩, bs, hbs, h7⟩
      cases hds
      cases hbs
      cases b; cases b'
      simp_all [Continues]
  | cons l ls ih =>
    have hE : ∀ b1, Extends L l b b1 ↔ b1.date = b.date ∧ b1.dateCounter = b.dateCounter ∧ b1.amount = b.amount ∧ b1.type_ = b.type_ ∧
        b1.balance = b.balance ∧
        b1.description = b.description ++ (([l].filter fun l => l.detail ≠ [] ∧ ¬ TellsDate l).flatMap fun l => ' ' :: l.detail) ∧
        ∃ ds, List.Forall₂ (fun l d => L.dateEffective l.detail = some d) ([l].filter fun l => TellsDate l) ds ∧
          b1.effectiveDate = ds.getLast?.or b.effectiveDate := by
      intro b1
      unfold Extends
      by_cases h0 : l.detail = []
      · have h1 : ¬ TellsDate l := fun h => tellsDate_ne h h0
        rw [List.filter_cons_of_neg (by simp [h0]), List.filter_cons_of_neg (by simp [h1])]
        constructor
        · rintro (⟨_, rfl⟩ | ⟨h, _⟩ | ⟨h, _⟩)
          · exact ⟨rfl, rfl, rfl, rfl, rfl, by simp, [], .nil, rfl⟩
          · exact absurd h h1
          · exact absurd h0 h
        · rintro ⟨e1, e2, e3, e4, e5, e6, ds, hds, e7⟩
          cases hds
          refine .inl ⟨h0, ?_⟩
          cases b; cases b1
          simp_all
      · by_cases h1 : TellsDate l
        · rw [List.filter_cons_of_neg (by simp [h1]), List.filter_cons_of_pos (by simp [h1])]
          constructor
          · rintro (⟨h, _⟩ | ⟨_, d, hd, rfl⟩ | ⟨_, h, _⟩)
            · exact absurd h h0
            · exact ⟨rfl, rfl, rfl, rfl, rfl, by simp, [d], .cons hd .nil, rfl⟩
            · exact absurd h1 h
          · rintro ⟨e1, e2, e3, e4, e5, e6, ds, hds, e7⟩
            cases hds with
            | cons hd hds =>
              cases hds
              refine .inr (.inl ⟨h1, _, hd, ?_⟩)
              cases b; cases b1
              simp_all
        · rw [List.filter_cons_of_pos (by simp [h0, h1]), List.filter_cons_of_neg (by simp [h1])]
          constructor
          · rintro (⟨h, _⟩ | ⟨h, _⟩ | ⟨_, _, rfl⟩)
            · exact absurd h h0
            · exact absurd h h1
            · exact ⟨rfl, rfl, rfl, rfl, rfl, by simp, [], .nil, rfl⟩
          · rintro ⟨e1, e2, e3, e4, e5, e6, ds, hds, e7⟩
            cases hds
            refine .inr (.inr ⟨h0, h1, ?_⟩)
            cases b; cases b1
            simp_all
    have hB : ∀ b1 b2, Balances L l b1 b2 ↔ b2.date = b1.date ∧ b2.dateCounter = b1.dateCounter ∧ b2.amount = b1.amount ∧ b2.type_ = b1.type_ ∧
        b2.description = b1.description ∧ b2.effectiveDate = b1.effectiveDate ∧
        ∃ bs, List.Forall₂ (PdfMoney L) ([l].filterMap (·.balance)) bs ∧ b2.balance = bs.getLast?.or b1.balance := by
      intro b1 b2
      unfold Balances
      cases hl : l.balance with
      | none =>
        rw [List.filterMap_cons_none hl]
        constructor
        · rintro (⟨_, rfl⟩ | ⟨_, _, h, _⟩)
          · exact ⟨rfl, rfl, rfl, rfl, rfl, rfl, [], .nil, rfl⟩
          · cases h
        · rintro ⟨e1, e2, e3, e4, e5, e6, bs, hbs, e7⟩
          cases hbs
          refine .inl ⟨rfl, ?_⟩
          cases b1; cases b2
          simp_all
      | some s =>
        rw [List.filterMap_cons_some hl]
        constructor
        · rintro (⟨h, _⟩ | ⟨s', a, h, hm, rfl⟩)
          · cases h
          · cases h
            exact ⟨rfl, rfl, rfl, rfl, rfl, rfl, [a], .cons hm .nil, rfl⟩
        · rintro ⟨e1, e2, e3, e4, e5, e6, bs, hbs, e7⟩
          cases hbs with
          | cons hm hbs =>
            cases hbs
            refine .inr ⟨s, _, rfl, hm, ?_⟩
            cases b1; cases b2
            simp_all
    have e0 : l :: ls = [l] ++ ls := rfl
    rw [e0, List.filter_append, List.filter_append, List.filterMap_append, List.flatMap_append]
    constructor
    · rintro ⟨b1, b2, h1, h2, h3⟩
      obtain ⟨e1, e2, e3, e4, e5, e6, ds, hds, e7⟩ := (hE b1).1 h1
      obtain ⟨f1, f2, f3, f4, f5, f6, bs, hbs, f7⟩ := (hB b1 b2).1 h2
      obtain ⟨g1, g2, g3, g4, g5, ⟨ds', hds', g6⟩, bs', hbs', g7⟩ := (ih b2).1 h3
      refine ⟨by rw [g1, f1, e1], by rw [g2, f2, e2], by rw [g3, f3, e3], by rw [g4, f4, e4], by rw [g5, f5, e6, List.append_assoc],
        ⟨ds ++ ds', forall2_append.2 ⟨_, _, rfl, hds, hds'⟩, ?_⟩, bs ++ bs', forall2_append.2 ⟨_, _, rfl, hbs, hbs'⟩, ?_⟩
      · rw [g6, f6, e7, List.getLast?_append, Option.or_assoc]
      · rw [g7, f7, e5, List.getLast?_append, Option.or_assoc]
    · rintro ⟨g1, g2, g3, g4, g5, ⟨dss, hdss, g6⟩, bss, hbss, g7⟩
      obtain ⟨ds, ds', rfl, hds, hds'⟩ := forall2_append.1 hdss
      obtain ⟨bs, bs', rfl, hbs, hbs'⟩ := forall2_append.1 hbss
      rw [List.getLast?_append, Option.or_assoc] at g6 g7
      rw [← List.append_assoc] at g5
      exact ⟨⟨b.date, b.dateCounter, b.amount, b.type_, ds.getLast?.or b.effectiveDate, _, b.balance⟩,
        ⟨b.date, b.dateCounter, b.amount, b.type_, ds.getLast?.or b.effectiveDate, _, bs.getLast?.or b.balance⟩,
        (hE _).2 ⟨rfl, rfl, rfl, rfl, rfl, rfl, ds, hds, rfl⟩, (hB _ _).2 ⟨rfl, rfl, rfl, rfl, rfl, rfl, bs, hbs, rfl⟩,
        (ih _).2 ⟨g1, g2, g3, g4, g5, ⟨ds', hds', g6⟩, bs', hbs', g7⟩⟩

theorem join_cons (x : Str) (xs : List Str) : Str.join [' '] (x :: xs) = x ++ xs.flatMap fun y => ' ' :: y := by
  induction xs generalizing x with
  | nil => simp [Str.join]
  | cons y ys ih => rw [Str.join, ih, List.flatMap_cons]; simp

/-- The lines of a group make a transaction. -/
theorem makes_iff (L : ImportLib) (g : LineGroup) (k : Int) (b : TransactionBuilder) :
    Makes L g k b ↔ ∃ b0 b1, Begins L g.start k b0 ∧ Balances L g.start b0 b1 ∧ Continues L g.more b1 b := by
  have hj : Str.join [' '] (g.start.detail :: (g.more.filter fun l => l.detail ≠ [] ∧ ¬ TellsDate l).map (·.detail)) =
      g.start.detail ++ ((g.more.filter fun l => l.detail ≠ [] ∧ ¬ TellsDate l).flatMap fun l => ' ' :: l.detail) := by
    rw [join_cons, List.flatMap_map]
  constructor
  · intro h
    obtain ⟨ds, hds, e1⟩ := h.effective
    obtain ⟨bs, hbs, e2⟩ := h.balance
    have e0 : g.lines = [g.start] ++ g.more := rfl
    rw [e0, List.filterMap_append] at hbs
    obtain ⟨bs1, bs2, rfl, hb1, hb2⟩ := forall2_append.1 hbs
    rw [List.getLast?_append] at e2
    refine ⟨⟨b.date, k, b.amount, b.type_, none, g.start.detail, none⟩, ⟨b.date, k, b.amount, b.type_, none, g.start.detail, bs1.getLast?⟩,
      ⟨h.date, rfl, h.amount, h.positive, rfl, rfl, rfl⟩, ?_, ?_⟩
    · unfold Balances
      cases hl : g.start.balance with
      | none =>
        rw [List.filterMap_cons_none hl] at hb1
        cases hb1
        exact .inl ⟨rfl, rfl⟩
      | some s =>
        rw [List.filterMap_cons_some hl, List.filterMap_nil] at hb1
        cases hb1 with
        | cons hm hbt =>
          cases hbt
          exact .inr ⟨s, _, rfl, hm, rfl⟩
    · refine (continues_iff ..).2 ⟨rfl, h.number, rfl, rfl, ?_, ⟨ds, hds, ?_⟩, bs2, hb2, e2⟩
      · rw [h.description, hj]
      · rw [e1]; simp
  · rintro ⟨b0, b1, h0, h1, h2⟩
    obtain ⟨g1, g2, g3, g4, g5, ⟨ds, hds, g6⟩, bs, hbs, g7⟩ := (continues_iff ..).1 h2
    have hsame : b1.date = b0.date ∧ b1.dateCounter = b0.dateCounter ∧ b1.amount = b0.amount ∧ b1.type_ = b0.type_ ∧
        b1.description = b0.description ∧ b1.effectiveDate = b0.effectiveDate := by
      rcases h1 with ⟨_, rfl⟩ | ⟨_, _, _, _, rfl⟩ <;> exact ⟨rfl, rfl, rfl, rfl, rfl, rfl⟩
    obtain ⟨f1, f2, f3, f4, f5, f6⟩ := hsame
    refine ⟨by rw [g1, f1]; exact h0.date, by rw [g2, f2]; exact h0.number, by rw [g3, f3, g4, f4]; exact h0.amount,
      by rw [g3, f3]; exact h0.positive, by rw [g5, f5, hj, h0.description], ⟨ds, hds, by rw [g6, f6, h0.effective]; simp⟩, ?_⟩
    have e0 : g.lines = [g.start] ++ g.more := rfl
    rw [e0, List.filterMap_append]
    rcases h1 with ⟨hn, rfl⟩ | ⟨s, a, hs, hm, rfl⟩
    · refine ⟨bs, ?_, by rw [g7, h0.balance]; simp⟩
      rw [List.filterMap_cons_none hn]
      exact hbs
    · refine ⟨a :: bs, ?_, ?_⟩
      · rw [List.filterMap_cons_some hs]
        exact .cons hm hbs
      · rw [g7, List.getLast?_cons]
        cases bs.getLast? <;> rfl

/-- A group of lines after the lines of other groups. -/
theorem feed_group {L : ImportLib} {ns : Str} {g : LineGroup} (hs : Starts g.start) (hm : ∀ l ∈ g.more, ¬ Starts l) {acc acc' : Acc} :
    feedAll L ns acc g.lines = .ok acc' ↔ ∃ acc1 b, acc.flush L ns = .ok acc1 ∧ Makes L g (acc.nextNumber g.start) b ∧
      acc' = ⟨some b, g.lastDate, acc.nextNumber g.start, acc1.trns⟩ := by
  unfold LineGroup.lines
  rw [feedAll_cons]
  constructor
  · rintro ⟨acc1, h1, h2⟩
    obtain ⟨acc2, b0, b1, h3, h4, h5, rfl⟩ := (feed_start hs).1 h1
    obtain ⟨b, h6, rfl⟩ := (feedAll_more hm rfl).1 h2
    refine ⟨acc2, b, h3, (makes_iff ..).2 ⟨b0, b1, h4, h5, h6⟩, ?_⟩
    rw [← lastDate_group]
  · rintro ⟨acc1, b, h1, h2, rfl⟩
    obtain ⟨b0, b1, h3, h4, h5⟩ := (makes_iff ..).1 h2
    refine ⟨_, (feed_start hs).2 ⟨acc1, b0, b1, h1, h3, h4, rfl⟩, (feedAll_more hm rfl).2 ⟨b, h5, ?_⟩⟩
    rw [← lastDate_group]

/-! ## Statements -/

theorem nwpdf_chars : ∀ c ∈ "nwpdf".toList, PartChar c := by decide +kernel

/-- The two postings of a transaction. -/
theorem build_says {L : ImportLib} {ns : Str} (hg : GoodNamespace ns) (b : TransactionBuilder) (k : Nat) (hk : b.dateCounter = k) :
    ∃ t p q, b.build L ns = .ok t ∧ TransactionSays t b.date b.effectiveDate b.description [p, q] ∧
    Says L.order p ownAccount (ownPdfAmount b) b.balance none
      [(pdfFp L ns b).self.legacyTag, "import-self".toList, "unknown-account".toList]
      [("seq".toList, numbered ns (k + 1)), ("bank".toList, "Nationwide".toList)] ∧
    Says L.order q (if (ownPdfAmount b).quantity.neg then expensesAccount else incomeAccount) (negateAmount (ownPdfAmount b)) none none
      [(pdfFp L ns b).peer.legacyTag, "import-peer".toList, "unknown-account".toList] [("bank".toList, "Nationwide".toList)] := by
  have hb := (CommentSays.empty.value Tags.bank Nationwide.bankName).tag Tags.unknownAccount
  have hp := ((hb.value Tags.seq (seqValue ns b.dateCounter)).tag Tags.importSelf).tag (pdfFp L ns b).self.legacyTag
  have hq := (hb.tag Tags.importPeer).tag (pdfFp L ns b).peer.legacyTag
  rw [hk, seqValue_eq] at hp
  refine ⟨_, _, _, ?_, mkTransaction_says .., mkPosting_says L b.halves.self b.balance none hp, mkPosting_says L b.halves.peer none none hq⟩
  unfold TransactionBuilder.build
  rw [newBuilder_good nwpdf_chars 1 hg]
  rw [hk, seqValue_eq]
  rfl

theorem build_bad {L : ImportLib} {ns : Str} (hg : ¬ GoodNamespace ns) (b : TransactionBuilder) : ∃ e, b.build L ns = .error e := by
  obtain ⟨e, he⟩ := newBuilder_bad "nwpdf".toList 1 hg
  unfold TransactionBuilder.build
  rw [he]
  exact ⟨e, rfl⟩

theorem flush_iff {L : ImportLib} {ns : Str} {acc : Acc} {b : TransactionBuilder} (hb : acc.curTrn = some b) {acc' : Acc} :
    acc.flush L ns = .ok acc' ↔ ∃ t, b.build L ns = .ok t ∧ acc' = { acc with curTrn := none, trns := acc.trns ++ [t] } := by
  unfold Acc.flush
  rw [hb]
  simp only
  split
  · rename_i h
    refine iff_of_false (by intro h; cases h) ?_
    rintro ⟨t, e, _⟩
    rw [h] at e; cases e
  · rename_i t h
    constructor
    · intro e; cases e; exact ⟨t, h, rfl⟩
    · rintro ⟨t', e, rfl⟩; rw [h] at e; cases e; rfl

/-- Groups of lines make transactions; the line before has the date `prev` and the transaction before has the number `c`. -/
def MakesAll (L : ImportLib) : Option Date → Int → List LineGroup → List TransactionBuilder → Prop
  | _, _, [], [] => True
  | prev, c, g :: gs, b :: bs =>
    Makes L g (if g.start.impliedDate ≠ prev then 0 else c + 1) b ∧
      MakesAll L g.lastDate (if g.start.impliedDate ≠ prev then 0 else c + 1) gs bs
  | _, _, _, _ => False

theorem feed_groups {L : ImportLib} {ns : Str} {groups : List LineGroup} (hs : ∀ g ∈ groups, Starts g.start)
    (hm : ∀ g ∈ groups, ∀ l ∈ g.more, ¬ Starts l) {acc : Acc} {out : List Transaction} :
    (∃ acc1 acc2, feedAll L ns acc (groups.flatMap LineGroup.lines) = .ok acc1 ∧ acc1.flush L ns = .ok acc2 ∧ acc2.trns = out) ↔
      ∃ acc1 bs ts, acc.flush L ns = .ok acc1 ∧ MakesAll L acc.prevDate acc.dateCounter groups bs ∧
        List.Forall₂ (fun b t => b.build L ns = .ok t) bs ts ∧ out = acc1.trns ++ ts := by
  induction groups generalizing acc with
  | nil =>
    constructor
    · rintro ⟨acc1, acc2, h1, h2, rfl⟩
      cases h1
      exact ⟨acc2, [], [], h2, trivial, .nil, by simp⟩
    · rintro ⟨acc1, bs, ts, h1, h2, h3, rfl⟩
      cases bs with
      | nil => cases h3; exact ⟨acc, acc1, rfl, h1, by simp⟩
      | cons b bs => exact h2.elim
  | cons g gs ih =>
    specialize @ih (fun x hx => hs x (List.mem_cons_of_mem _ hx)) (fun x hx => hm x (List.mem_cons_of_mem _ hx))
    have hg : ∀ acc acc', feedAll L ns acc g.lines = .ok acc' ↔ _ := fun acc acc' =>
      feed_group (hs g List.mem_cons_self) (hm g List.mem_cons_self)
    rw [List.flatMap_cons]
    constructor
    · rintro ⟨acc1, acc2, h1, h2, rfl⟩
      obtain ⟨acc3, h3, h4⟩ := feedAll_append.1 h1
      obtain ⟨acc4, b, h5, h6, rfl⟩ := (hg _ _).1 h3
      obtain ⟨acc5, bs, ts, h7, h8, h9, h10⟩ := ih.1 ⟨acc1, acc2, h4, h2, rfl⟩
      obtain ⟨t, ht, rfl⟩ := (flush_iff rfl).1 h7
      refine ⟨acc4, b :: bs, t :: ts, h5, ⟨h6, h8⟩, .cons ht h9, ?_⟩
      rw [h10]; simp
    · rintro ⟨acc4, bs, ts, h5, h6, h7, rfl⟩
      cases bs with
      | nil => exact h6.elim
      | cons b bs =>
        cases h7 with
        | cons ht h9 =>
          obtain ⟨h6, h8⟩ := h6
          obtain ⟨acc1, acc2, h4, h2, e⟩ := (ih (acc := ⟨some b, g.lastDate, acc.nextNumber g.start, acc4.trns⟩)).2
            ⟨_, bs, _, (flush_iff rfl).2 ⟨_, ht, rfl⟩, h8, h9, (List.append_assoc _ [_] _).symm⟩
          exact ⟨acc1, acc2, feedAll_append.2 ⟨_, (hg _ _).2 ⟨acc4, b, h5, h6, rfl⟩, h4⟩, h2, e⟩

/-! ## Splitting lines into groups -/

/-- The lines before the first amount, and the groups. -/
def splitLines : List TransactionLine → List TransactionLine × List LineGroup
  | [] => ([], [])
  | l :: ls =>
    let r := splitLines ls
    if Starts l then ([], ⟨l, r.1⟩ :: r.2) else (l :: r.1, r.2)

theorem splitLines_splits (lines : List TransactionLine) : Splits lines (splitLines lines).1 (splitLines lines).2 := by
  induction lines with
  | nil => exact ⟨rfl, by simp [splitLines], by simp [splitLines], by simp [splitLines]⟩
  | cons l ls ih =>
    rw [splitLines]
    split
    · rename_i h
      refine ⟨?_, by simp, ?_, ?_⟩
      · show l :: ls = l :: ((splitLines ls).1 ++ (splitLines ls).2.flatMap LineGroup.lines)
        rw [← ih.lines]
      · intro g hg
        rcases List.mem_cons.1 hg with rfl | hg
        · exact h
        · exact ih.start g hg
      · intro g hg
        rcases List.mem_cons.1 hg with rfl | hg
        · exact ih.lead
        · exact ih.more g hg
    · rename_i h
      refine ⟨?_, ?_, ih.start, ih.more⟩
      · rw [List.cons_append, ← ih.lines]
      · intro x hx
        rcases List.mem_cons.1 hx with rfl | hx
        · exact h
        · exact ih.lead x hx

theorem splitLines_lead {xs ys : List TransactionLine} (h : ∀ l ∈ xs, ¬ Starts l) :
    splitLines (xs ++ ys) = (xs ++ (splitLines ys).1, (splitLines ys).2) := by
  induction xs with
  | nil => rfl
  | cons x xs ih =>
    rw [List.cons_append, splitLines]
    rw [if_neg (h x List.mem_cons_self), ih fun l hl => h l (List.mem_cons_of_mem _ hl)]
    rfl

theorem splitLines_groups {gs : List LineGroup} (hs : ∀ g ∈ gs, Starts g.start) (hm : ∀ g ∈ gs, ∀ l ∈ g.more, ¬ Starts l) :
    splitLines (gs.flatMap LineGroup.lines) = ([], gs) := by
  induction gs with
  | nil => rfl
  | cons g gs ih =>
    rw [List.flatMap_cons]
    show splitLines (g.start :: (g.more ++ _)) = _
    rw [splitLines]
    rw [if_pos (hs g List.mem_cons_self), splitLines_lead (hm g List.mem_cons_self),
      ih (fun x hx => hs x (List.mem_cons_of_mem _ hx)) (fun x hx => hm x (List.mem_cons_of_mem _ hx)), List.append_nil]

theorem Splits_unique {lines lead : List TransactionLine} {gs : List LineGroup} (h : Splits lines lead gs) : splitLines lines = (lead, gs) := by
  rw [h.lines, splitLines_lead h.lead, splitLines_groups h.start h.more, List.append_nil]

/-! ## Numbers -/

/-- The numbers of the transactions after a line with the date `prev` and a transaction with the number `c`. -/
def numbersFrom (prev : Option Date) (c : Nat) : List LineGroup → List Nat
  | [] => []
  | g :: gs =>
    let k := if g.start.impliedDate = prev then c + 1 else 0
    k :: numbersFrom g.lastDate k gs

/-- The numbers of the transactions. -/
def numbers : List LineGroup → List Nat
  | [] => []
  | g :: gs => 0 :: numbersFrom g.lastDate 0 gs

theorem numbersFrom_length (prev : Option Date) (c : Nat) (gs : List LineGroup) : (numbersFrom prev c gs).length = gs.length := by
  induction gs generalizing prev c with
  | nil => rfl
  | cons g gs ih => simp only [numbersFrom, List.length_cons, ih]

theorem numbersFrom_get (prev : Option Date) (c : Nat) (gs : List LineGroup) (i : Nat) (g : LineGroup) (k : Nat) (hg : gs[i]? = some g)
    (hk : (numbersFrom prev c gs)[i]? = some k) : k = match (generalizing := false) i with
      | 0 => if g.start.impliedDate = prev then c + 1 else 0
      | j + 1 => if (gs[j]?).map LineGroup.lastDate = some g.start.impliedDate then ((numbersFrom prev c gs)[j]?).getD 0 + 1 else 0 := by
  induction gs generalizing prev c i with
  | nil => cases hg
  | cons g' gs ih =>
    cases i with
    | zero =>
      cases hg
      exact (Option.some.inj hk).symm
    | succ j =>
      refine (ih _ _ j hg hk).trans ?_
      cases j with
      | zero =>
        show (if g.start.impliedDate = g'.lastDate then _ else 0) = if some g'.lastDate = some g.start.impliedDate then _ else 0
        rw [ite_congr (propext (eq_comm.trans Option.some_inj.symm)) (fun _ => rfl) (fun _ => rfl)]
        rfl
      | succ j => rfl

theorem numbers_numbers (gs : List LineGroup) : Numbers gs (numbers gs) := by
  cases gs with
  | nil => exact ⟨rfl, by intro i g k h; cases h⟩
  | cons g gs =>
    refine ⟨by simp only [numbers, List.length_cons, numbersFrom_length], fun i g' k hg hk => ?_⟩
    cases i with
    | zero => exact (Option.some.inj hk).symm
    | succ j =>
      rw [numbersFrom_get _ _ gs j g' k hg hk]
      cases j with
      | zero =>
        show (if g'.start.impliedDate = g.lastDate then _ else 0) = if some g.lastDate = some g'.start.impliedDate then _ else 0
        rw [ite_congr (propext (eq_comm.trans Option.some_inj.symm)) (fun _ => rfl) (fun _ => rfl)]
        rfl
      | succ j => rfl

theorem Numbers_unique {gs : List LineGroup} {ks ks' : List Nat} (h : Numbers gs ks) (h' : Numbers gs ks') : ks = ks' := by
  have hn : ∀ i : Nat, ks[i]? = ks'[i]? := by
    intro i
    induction i with
    | zero =>
      cases hg : gs[0]? with
      | none =>
        rw [List.getElem?_eq_none_iff] at hg
        rw [List.getElem?_eq_none (by rw [h.1]; exact hg), List.getElem?_eq_none (by rw [h'.1]; exact hg)]
      | some g =>
        have hl := (List.getElem?_eq_some_iff.1 hg).1
        have e1 := List.getElem?_eq_getElem (l := ks) (i := 0) (by rw [h.1]; exact hl)
        have e2 := List.getElem?_eq_getElem (l := ks') (i := 0) (by rw [h'.1]; exact hl)
        have f1 := h.2 0 g _ hg e1
        have f2 := h'.2 0 g _ hg e2
        rw [e1, e2, f1, f2]
    | succ j ih =>
      cases hg : gs[j + 1]? with
      | none =>
        rw [List.getElem?_eq_none_iff] at hg
        rw [List.getElem?_eq_none (by rw [h.1]; exact hg), List.getElem?_eq_none (by rw [h'.1]; exact hg)]
      | some g =>
        have hl := (List.getElem?_eq_some_iff.1 hg).1
        have e1 := List.getElem?_eq_getElem (l := ks) (i := j + 1) (by rw [h.1]; exact hl)
        have e2 := List.getElem?_eq_getElem (l := ks') (i := j + 1) (by rw [h'.1]; exact hl)
        have f1 := h.2 (j + 1) g _ hg e1
        have f2 := h'.2 (j + 1) g _ hg e2
        rw [e1, e2, f1, f2]
        simp only [ih]
  exact List.ext_getElem? hn

theorem makesAll_iff {L : ImportLib} {prev : Option Date} {c : Nat} {gs : List LineGroup} {bs : List TransactionBuilder} :
    MakesAll L prev c gs bs ↔ bs.length = gs.length ∧ ∀ i (h : i < gs.length) (h' : i < bs.length) (h'' : i < (numbersFrom prev c gs).length),
      Makes L gs[i] ((numbersFrom prev c gs)[i] : Nat) bs[i] := by
  induction gs generalizing prev c bs with
  | nil =>
    cases bs with
    | nil => exact iff_of_true trivial ⟨rfl, by intro i h; cases h⟩
    | cons b bs => exact iff_of_false id (by rintro ⟨h, _⟩; cases h)
  | cons g gs ih =>
    cases bs with
    | nil => exact iff_of_false id (by rintro ⟨h, _⟩; cases h)
    | cons b bs =>
      have hk : (if g.start.impliedDate ≠ prev then (0 : Int) else (c : Int) + 1) = ((if g.start.impliedDate = prev then c + 1 else 0 : Nat) : Int) := by
        by_cases h : g.start.impliedDate = prev
        · rw [if_neg (by simpa using h), if_pos h]; push_cast; rfl
        · rw [if_pos h, if_neg h]; rfl
      unfold MakesAll
      rw [hk, ih]
      constructor
      · rintro ⟨h1, h2, h3⟩
        refine ⟨by simp [h2], fun i h h' h'' => ?_⟩
        cases i with
        | zero => exact h1
        | succ i => exact h3 i (Nat.lt_of_succ_lt_succ h) (Nat.lt_of_succ_lt_succ h') (Nat.lt_of_succ_lt_succ h'')
      · rintro ⟨h1, h2⟩
        refine ⟨h2 0 (Nat.succ_pos _) (Nat.succ_pos _) (Nat.succ_pos _), Nat.succ.inj h1, fun i h h' h'' => ?_⟩
        exact h2 (i + 1) (Nat.succ_lt_succ h) (Nat.succ_lt_succ h') (Nat.succ_lt_succ h'')

/-- From the beginning of a statement. -/
theorem makesAll_new {L : ImportLib} {gs : List LineGroup} {bs : List TransactionBuilder} :
    MakesAll L none 0 gs bs ↔ bs.length = gs.length ∧ ∀ i (h : i < gs.length) (h' : i < bs.length) (h'' : i < (numbers gs).length),
      Makes L gs[i] ((numbers gs)[i] : Nat) bs[i] := by
  cases gs with
  | nil => exact makesAll_iff (c := 0)
  | cons g gs =>
    have hf := makesAll_iff (L := L) (prev := none) (c := 0) (gs := g :: gs) (bs := bs)
    change MakesAll L none 0 (g :: gs) bs ↔ _ at hf
    by_cases hd : g.start.impliedDate = none
    · refine iff_of_false ?_ ?_
      · rw [hf]
        rintro ⟨h1, h2⟩
        have := (h2 0 (Nat.succ_pos _) (by rw [h1]; exact Nat.succ_pos _) (by rw [numbersFrom_length]; exact Nat.succ_pos _)).date
        exact absurd (this.symm.trans hd) (by simp)
      · rintro ⟨h1, h2⟩
        have := (h2 0 (Nat.succ_pos _) (by rw [h1]; exact Nat.succ_pos _) (Nat.succ_pos _)).date
        exact absurd (this.symm.trans hd) (by simp)
    · rw [hf]
      have : numbersFrom none 0 (g :: gs) = numbers (g :: gs) := by
        unfold numbersFrom numbers
        simp only
        rw [if_neg hd]
      simp only [this]

end NationwidePdf
end Verif
