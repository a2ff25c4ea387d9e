import Verif.Props.NationwideCsv
import Mathlib.Data.List.Forall2
import Mathlib.Tactic.Linarith
import Mathlib.Tactic.NormNum

/-!
# Which postings of a Nationwide CSV file share fingerprints (C46)
-/

namespace Verif
open Spec
namespace NationwideCsv
open Nationwide

/-! ## What is claimed -/

/-- No fingerprint is in the comments of two different postings. -/
def DistinctFingerprints (ts : List Transaction) : Prop :=
  ∀ (i j a b : Nat) (t u : Transaction) (p q : Posting) (f : Str), ts[i]? = some t → ts[j]? = some u → t.postings[a]? = some p →
    u.postings[b]? = some q → IsFp f → f ∈ (Comment.fromOptComment p.comment).tags → f ∈ (Comment.fromOptComment q.comment).tags →
    i = j ∧ a = b

/-- A hash function has different values for these texts. -/
def NoCollision (sha1 : Bytes → Bytes) (texts : Bytes → Prop) : Prop := ∀ x y, texts x → texts y → sha1 x = sha1 y → x = y

/-- Equal elements are next to each other. -/
def Together {α : Type} (l : List α) : Prop :=
  ∀ (i j k : Nat) (x : α), i ≤ j → j ≤ k → l[i]? = some x → l[k]? = some x → l[j]? = some x

/-- The fields of a file have no newline in them and their lengths fit into 64 bits. -/
def PlainFields (records : List (Option Row)) : Prop := ∀ row, some row ∈ records → ∀ f ∈ row, FitsStr f ∧ '\n' ∉ f

/-- Dates are those of the library for dates. -/
def PlainDates (L : ImportLib) : Prop := ∀ s d, L.dateDayMonYear s = some d → FitsDate d

/-- The records of the rows. -/
def Records {T : Type} (read : Row → T → Prop) (rows : List (Option Row)) (rs : List T) : Prop :=
  List.Forall₂ (fun o r => ∃ row, o = some row ∧ read row r) rows rs

/-- What is hashed for the rows of a file of five columns. -/
def fiveTexts (rs : List RecordFive) (x : Bytes) : Prop :=
  ∃ (i : Nat) (h : i < rs.length) (s : Side), x = rs[i].text (sinceChange (rs.map RecordFive.date) i) s

/-- What is hashed for the rows of a file of six columns. -/
def sixTexts (legacy : Bool) (rs : List RecordSix) (x : Bytes) : Prop :=
  ∃ (i : Nat) (h : i < rs.length) (s : Side), x = rs[i].text (sinceChange (rs.map RecordSix.date) i) s ∨
    (legacy = true ∧ ∃ amt, OwnAmount rs[i].paidIn rs[i].paidOut amt ∧ x = rs[i].legacyText (sinceChange (rs.map RecordSix.date) i) amt s)

/-! ## The number of a row -/

theorem sinceChange_some {α : Type} [DecidableEq α] {l : List α} {i : Nat} {x : α} (h : l[i]? = some x) :
    sinceChange l i = ((l.take i).reverse.takeWhile (· = x)).length := by
  unfold sinceChange; rw [h]

theorem sinceChange_succ {α : Type} [DecidableEq α] {l : List α} {i : Nat} {x : α} (h : l[i]? = some x) (h' : l[i + 1]? = some x) :
    sinceChange l (i + 1) = sinceChange l i + 1 := by
  rw [sinceChange_some h, sinceChange_some h', List.take_add_one, h]
  simp

theorem sinceChange_add {α : Type} [DecidableEq α] {l : List α} {i : Nat} {x : α} (n : Nat) (h : ∀ m, m ≤ n → l[i + m]? = some x) :
    sinceChange l (i + n) = sinceChange l i + n := by
  induction n with
  | zero => rfl
  | succ n ih =>
    rw [← Nat.add_assoc, sinceChange_succ (x := x) (h n (by omega)) (h (n + 1) (by omega)), ih fun m hm => h m (by omega)]
    rfl

theorem together_unique {α : Type} [DecidableEq α] {l : List α} (hl : Together l) {i j : Nat} {x : α} (hi : l[i]? = some x) (hj : l[j]? = some x)
    (h : sinceChange l i = sinceChange l j) : i = j := by
  rcases Nat.le_total i j with hij | hij
  · obtain ⟨n, rfl⟩ := Nat.exists_eq_add_of_le hij
    rw [sinceChange_add (x := x) n fun m hm => hl i (i + m) (i + n) x (by omega) (by omega) hi hj] at h
    omega
  · obtain ⟨n, rfl⟩ := Nat.exists_eq_add_of_le hij
    rw [sinceChange_add (x := x) n fun m hm => hl j (j + m) (j + n) x (by omega) (by omega) hj hi] at h
    omega

theorem sinceChange_le {α : Type} [DecidableEq α] (l : List α) (i : Nat) : sinceChange l i ≤ l.length := by
  unfold sinceChange
  split
  · refine (List.takeWhile_sublist _).length_le.trans ?_
    rw [List.length_reverse]
    exact List.length_take_le' ..
  · omega

/-! ## Everything fits -/

theorem gbpValue_fits {L : ImportLib} {s : Str} {a : Amount} (h : gbpValue L s = some a) : FitsAmount a := by
  unfold gbpValue at h
  split at h
  · cases h
  · simp only at h
    split at h
    · split at h
      · rename_i hlt
        cases h
        refine ⟨⟨?_, ?_⟩, ?_⟩
        · exact lt_of_lt_of_le hlt (by decide)
        · show 2 ≤ 28
          decide
        · show FitsStr gbp.name
          decide +kernel
      · cases h
    · cases h

theorem money_fits {L : ImportLib} {s : Str} {m : Option Amount} (h : Money L s m) : FitsOpt FitsAmount m := by
  rcases h with ⟨_, rfl⟩ | ⟨_, a, h, rfl⟩
  · intro a ha; cases ha
  · intro a' ha; cases ha; exact gbpValue_fits h

theorem mant_eq {a b : Decimal} (hs : a.scale = b.scale) (h : value a = -value b) : a.mant = b.mant := by
  unfold value at h
  rw [hs] at h
  have h10 : (10 : Rat) ^ b.scale ≠ 0 := pow_ne_zero _ (by norm_num)
  rw [← neg_div, div_left_inj' h10] at h
  have hz : ∀ x y : Nat, (x : Rat) = -(y : Rat) → x = y := by
    intro x y e
    have : ((x + y : Nat) : Rat) = 0 := by push_cast; linarith
    have : x + y = 0 := by exact_mod_cast this
    omega
  split at h <;> split at h
  · exact hz _ _ (by linarith)
  · exact_mod_cast neg_inj.1 h
  · rw [neg_neg] at h; exact_mod_cast h
  · exact hz _ _ h

theorem own_fits {i o : Option Amount} (hi : FitsOpt FitsAmount i) (ho : FitsOpt FitsAmount o) {a : Amount} (h : OwnAmount i o a) :
    FitsAmount a := by
  rcases h with ⟨h, _⟩ | ⟨_, b, h, hv, hc, hs, _⟩
  · exact hi a h
  · obtain ⟨⟨h1, h2⟩, h3⟩ := ho b h
    exact ⟨⟨by rw [mant_eq hs hv]; exact h1, by rw [hs]; exact h2⟩, by rw [hc]; exact h3⟩

theorem own_unique {i o : Option Amount} {a b : Amount} (ha : OwnAmount i o a) (hb : OwnAmount i o b) : a = b := by
  rcases ha with ⟨ha, ho⟩ | ⟨hi, c, hc, hv, hm, hs, hn⟩ <;> rcases hb with ⟨hb, ho'⟩ | ⟨hi', c', hc', hv', hm', hs', hn'⟩
  · exact Option.some.inj (ha.symm.trans hb)
  · rw [ha] at hi'; cases hi'
  · rw [hb] at hi; cases hi
  · rw [hc] at hc'
    cases hc'
    obtain ⟨⟨n, m, e⟩, com⟩ := a
    obtain ⟨⟨n', m', e'⟩, com'⟩ := b
    have h1 := (mant_eq hs hv).trans (mant_eq hs' hv').symm
    have h2 := hs.trans hs'.symm
    have h3 := hn.trans hn'.symm
    have h4 := hm.trans hm'.symm
    simp only at h1 h2 h3 h4
    subst h1 h2 h3 h4
    rfl

theorem fiveRow_fits {L : ImportLib} (hd : PlainDates L) {row : Row} (hr : ∀ f ∈ row, FitsStr f ∧ '\n' ∉ f) {r : RecordFive}
    (h : FiveRow L row r) : r.Fits ∧ '\n' ∉ r.transactions ∧ '\n' ∉ r.location := by
  obtain ⟨date, out, inn, rest, rfl, h1, h2, h3⟩ := h
  have ht := hr r.transactions (by simp)
  have hl := hr r.location (by simp)
  exact ⟨⟨hd _ _ h1, ht.1, hl.1, money_fits h2, money_fits h3⟩, ht.2, hl.2⟩

theorem sixRow_fits {L : ImportLib} (hd : PlainDates L) {row : Row} (hr : ∀ f ∈ row, FitsStr f ∧ '\n' ∉ f) {r : RecordSix}
    (h : SixRow L row r) : r.Fits ∧ '\n' ∉ r.type_ := by
  obtain ⟨date, out, inn, bal, rest, rfl, h1, h2, h3, h4⟩ := h
  have ht := hr r.type_ (by simp)
  have hl := hr r.description (by simp)
  exact ⟨⟨hd _ _ h1, ht.1, hl.1, money_fits h2, money_fits h3, gbpValue_fits h4⟩, ht.2⟩

/-! ## The fingerprints of a posting -/

theorem good_no_newline {ns : Str} (h : GoodNamespace ns) : '\n' ∉ ns := fun hm => absurd (h _ hm) (by decide)

theorem numbered_no_newline {ns : Str} (h : GoodNamespace ns) (n : Nat) : '\n' ∉ numbered ns n := by
  unfold numbered
  simp only [List.mem_append, not_or]
  refine ⟨⟨good_no_newline h, by decide⟩, fun hm => ?_⟩
  have := Nat.isDigit_of_mem_toDigits (by decide) (by decide) hm
  revert this
  decide

theorem value_names : ∀ k ∈ ["location".toList, "transactions".toList, "bank".toList, "account".toList, "trn_type".toList, "seq".toList],
    Word k ∧ Trimmed k ∧ '\n' ∉ k := by decide +kernel

theorem five_values_plain {account : Str} (ha : '\n' ∉ account) {r : RecordFive} (h1 : '\n' ∉ r.transactions) (h2 : '\n' ∉ r.location) :
    ∀ e ∈ fiveValues account r, Word e.1 ∧ Trimmed e.1 ∧ '\n' ∉ e.1 ∧ '\n' ∉ e.2 := by
  have hn := value_names
  have hb : '\n' ∉ "Nationwide".toList := by decide +kernel
  simp only [List.forall_mem_cons, List.not_mem_nil, false_implies, implies_true, and_true] at hn
  obtain ⟨n1, n2, n3, n4, n5, n6⟩ := hn
  intro e he
  unfold fiveValues at he
  rw [List.mem_append] at he
  rcases he with he | he
  · split at he
    · cases he
    · obtain rfl := List.mem_singleton.1 he
      exact ⟨n1.1, n1.2.1, n1.2.2, h2⟩
  · simp only [List.mem_cons, List.not_mem_nil, or_false] at he
    rcases he with rfl | rfl | rfl
    · exact ⟨n2.1, n2.2.1, n2.2.2, h1⟩
    · exact ⟨n3.1, n3.2.1, n3.2.2, hb⟩
    · exact ⟨n4.1, n4.2.1, n4.2.2, ha⟩

theorem six_values_plain {account : Str} (ha : '\n' ∉ account) {r : RecordSix} (h1 : '\n' ∉ r.type_) :
    ∀ e ∈ sixValues account r, Word e.1 ∧ Trimmed e.1 ∧ '\n' ∉ e.1 ∧ '\n' ∉ e.2 := by
  have hn := value_names
  have hb : '\n' ∉ "Nationwide".toList := by decide +kernel
  simp only [List.forall_mem_cons, List.not_mem_nil, false_implies, implies_true, and_true] at hn
  obtain ⟨n1, n2, n3, n4, n5, n6⟩ := hn
  intro e he
  unfold sixValues at he
  simp only [List.mem_cons, List.not_mem_nil, or_false] at he
  rcases he with rfl | rfl | rfl
  · exact ⟨n5.1, n5.2.1, n5.2.2, h1⟩
  · exact ⟨n3.1, n3.2.1, n3.2.2, hb⟩
  · exact ⟨n4.1, n4.2.1, n4.2.2, ha⟩

theorem seq_plain {ns : Str} (h : GoodNamespace ns) (n : Nat) {vs : List (Str × Str)}
    (hv : ∀ e ∈ vs, Word e.1 ∧ Trimmed e.1 ∧ '\n' ∉ e.1 ∧ '\n' ∉ e.2) :
    ∀ e ∈ ("seq".toList, numbered ns n) :: vs, Word e.1 ∧ Trimmed e.1 ∧ '\n' ∉ e.1 ∧ '\n' ∉ e.2 := by
  have hn := value_names _ (show "seq".toList ∈ _ by simp)
  intro e he
  rcases List.mem_cons.1 he with rfl | he
  · exact ⟨hn.1, hn.2.1, hn.2.2, numbered_no_newline h n⟩
  · exact hv e he

/-- The number of a side. -/
def Side.index (s : Side) : Nat := s.pick 0 1

theorem index_inj {s s' : Side} (h : Side.index s = Side.index s') : s = s' := by
  cases s <;> cases s' <;> first | rfl | (exfalso; revert h; decide)

theorem two_postings {p q x : Posting} {a : Nat} (h : [p, q][a]? = some x) : ∃ s : Side, a = Side.index s ∧ x = s.pick p q := by
  match a, h with
  | 0, h => cases h; exact ⟨.self, rfl, rfl⟩
  | 1, h => cases h; exact ⟨.peer, rfl, rfl⟩

theorem five_read {L : ImportLib} {ns account : Str} {r : RecordFive} {k : Nat} {t : Transaction} (h : FiveSays L ns account r k t)
    (hg : GoodNamespace ns) (ha : '\n' ∉ account) (h1 : '\n' ∉ r.transactions) (h2 : '\n' ∉ r.location) {a : Nat} {x : Posting}
    (hx : t.postings[a]? = some x) : ∃ s : Side, a = Side.index s ∧ ∀ f, IsFp f →
      (f ∈ (Comment.fromOptComment x.comment).tags ↔ f = (s.pick (fiveFp L r ns k).self (fiveFp L r ns k).peer).tag) := by
  obtain ⟨amt, p, q, _, hts, hp, hq⟩ := h
  rw [hts.postings] at hx
  obtain ⟨s, rfl, rfl⟩ := two_postings hx
  refine ⟨s, rfl, fun f hf => ?_⟩
  have hw := five_words L r hg k
  have hv := five_values_plain ha h1 h2
  have hfix := fixed_words
  simp only [List.forall_mem_cons, List.not_mem_nil, false_implies, implies_true, and_true] at hfix
  cases s
  · show f ∈ (Comment.fromOptComment p.comment).tags ↔ f = (fiveFp L r ns k).self.tag
    rw [hp.read_iff hw.1 (seq_plain hg _ hv)]
    simp only [List.mem_cons, List.not_mem_nil, or_false]
    constructor
    · rintro (rfl | h | rfl)
      · exact absurd hf hfix.1.2.2
      · exact h
      · exact absurd hf hfix.2.2.2.2
    · exact fun h => Or.inr (Or.inl h)
  · show f ∈ (Comment.fromOptComment q.comment).tags ↔ f = (fiveFp L r ns k).peer.tag
    rw [hq.read_iff hw.2 hv]
    simp only [List.mem_cons, List.not_mem_nil, or_false]
    constructor
    · rintro (rfl | h | rfl)
      · exact absurd hf hfix.2.1.2.2
      · exact h
      · exact absurd hf hfix.2.2.2.2
    · exact fun h => Or.inr (Or.inl h)

theorem six_read {L : ImportLib} {ns account : Str} {legacy : Bool} {r : RecordSix} {k : Nat} {t : Transaction}
    (h : SixSays L ns account legacy r k t)
    (hg : GoodNamespace ns) (ha : '\n' ∉ account) (h1 : '\n' ∉ r.type_) {a : Nat} {x : Posting}
    (hx : t.postings[a]? = some x) : ∃ (s : Side) (amt : Amount), a = Side.index s ∧ OwnAmount r.paidIn r.paidOut amt ∧ ∀ f, IsFp f →
      (f ∈ (Comment.fromOptComment x.comment).tags ↔ f = (s.pick (sixFp L r ns k).self (sixFp L r ns k).peer).tag ∨
        (legacy = true ∧ f = (s.pick (sixLegacyFp L r ns k (selfAndPeerAccountAmount amt ownAccount)).self
          (sixLegacyFp L r ns k (selfAndPeerAccountAmount amt ownAccount)).peer).legacyTag)) := by
  obtain ⟨amt, p, q, ho, hts, hp, hq⟩ := h
  rw [hts.postings] at hx
  obtain ⟨s, rfl, rfl⟩ := two_postings hx
  refine ⟨s, amt, rfl, ho, fun f hf => ?_⟩
  have hw := six_words L r hg k legacy (selfAndPeerAccountAmount amt ownAccount)
  have hv := six_values_plain ha h1
  have hfix := fixed_words
  simp only [List.forall_mem_cons, List.not_mem_nil, false_implies, implies_true, and_true] at hfix
  have e1 : f ≠ "import-self".toList := fun e => hfix.1.2.2 (e ▸ hf)
  have e2 : f ≠ "import-peer".toList := fun e => hfix.2.1.2.2 (e ▸ hf)
  have e3 : f ≠ "unknown-account".toList := fun e => hfix.2.2.2.2 (e ▸ hf)
  cases s
  · show f ∈ (Comment.fromOptComment p.comment).tags ↔ f = (sixFp L r ns k).self.tag ∨ (_ ∧ f = (sixLegacyFp L r ns k _).self.legacyTag)
    rw [hp.read_iff hw.1 (seq_plain hg _ hv)]
    generalize (sixFp L r ns k).self.tag = v
    generalize (sixLegacyFp L r ns k (selfAndPeerAccountAmount amt ownAccount)).self.legacyTag = w
    cases legacy <;> simp only [Bool.false_eq_true, if_false, if_true, false_and, true_and, or_false, List.nil_append, List.cons_append,
      List.mem_cons, List.not_mem_nil, e1, e3, false_or]
    exact or_comm
  · show f ∈ (Comment.fromOptComment q.comment).tags ↔ f = (sixFp L r ns k).peer.tag ∨ (_ ∧ f = (sixLegacyFp L r ns k _).peer.legacyTag)
    rw [hq.read_iff hw.2 hv]
    generalize (sixFp L r ns k).peer.tag = v
    generalize (sixLegacyFp L r ns k (selfAndPeerAccountAmount amt ownAccount)).peer.legacyTag = w
    cases legacy <;> simp only [Bool.false_eq_true, if_false, if_true, false_and, true_and, or_false, List.nil_append, List.cons_append,
      List.mem_cons, List.not_mem_nil, e2, e3, false_or]
    exact or_comm

/-! ## C46 -/

theorem records_get {T : Type} {read : Row → T → Prop} {rows : List (Option Row)} {rs rs' : List T} (h : Records read rows rs)
    (hf : ∀ row r r', read row r → read row r' → r = r') (hl : rs'.length = rows.length)
    (h' : ∀ i (hi : i < rs'.length), ∃ row, rows[i]? = some (some row) ∧ read row rs'[i]) : rs' = rs := by
  apply List.ext_getElem
  · rw [hl, h.length_eq]
  · intro i h1 h2
    obtain ⟨row, e, hr⟩ := h' i h1
    have := (List.forall₂_iff_get.1 h).2 i (by omega) h2
    obtain ⟨row', e', hr'⟩ := this
    rw [List.getElem?_eq_getElem (by omega)] at e
    rw [List.get_eq_getElem, Option.some.inj e] at e'
    cases e'
    exact hf _ _ _ hr hr'

theorem fiveFp_value (L : ImportLib) (r : RecordFive) {ns : Str} (h : GoodNamespace ns) (k : Int) (s : Side) :
    (s.pick (fiveFp L r ns k).self (fiveFp L r ns k).peer).value = Base64.encode (L.sha1 (r.text k s)) :=
  C40_nationwide_five.1 L r ns k _ (fiveV1_good L r h k) s

theorem sixFp_value (L : ImportLib) (r : RecordSix) {ns : Str} (h : GoodNamespace ns) (k : Int) (s : Side) :
    (s.pick (sixFp L r ns k).self (sixFp L r ns k).peer).value = Base64.encode (L.sha1 (r.text k s)) :=
  C40_nationwide_six.1 L r ns k _ (sixV1_good L r h k) s

theorem sixLegacyFp_value (L : ImportLib) (r : RecordSix) {ns : Str} (h : GoodNamespace ns) (k : Int) (amt : Amount) (s : Side) :
    (s.pick (sixLegacyFp L r ns k (selfAndPeerAccountAmount amt ownAccount)).self
      (sixLegacyFp L r ns k (selfAndPeerAccountAmount amt ownAccount)).peer).value = Base64.encode (L.sha1 (r.legacyText k amt s)) :=
  C40_nationwide_six_legacy.1 L r ns k amt _ (sixLegacy_good L r h k _) s

theorem pick_built {f g : Fingerprint} (h : Built f ∧ Built g) (s : Side) : Built (s.pick f g) := by
  cases s
  · exact h.1
  · exact h.2

theorem shape_plain {L : ImportLib} {records : List (Option Row)} {account : Str} {columns : Row} {rows : List (Option Row)}
    (h : FileShape L records account columns rows) (hp : PlainFields records) :
    '\n' ∉ account ∧ ∀ row, some row ∈ rows → ∀ f ∈ row, FitsStr f ∧ '\n' ∉ f := by
  obtain ⟨r0, b, r1, a, r2, rfl, _⟩ := h
  refine ⟨(hp _ List.mem_cons_self account (by simp)).2, fun row hr => hp row ?_⟩
  simp [hr]

theorem fits_count {n m : Nat} (h : m ≤ n) (hn : n < 2 ^ 31) : FitsI32 (m : Int) := by
  unfold FitsI32
  omega

theorem good_of_row {L : ImportLib} {fpNs : FpNamespace} {legacy : Bool} {records : List (Option Row)} {imp : Import} {account : Str}
    {columns : Row} {rows : List (Option Row)} (h : getTransactions L fpNs legacy records = .ok imp)
    (hs : FileShape L records account columns rows) : rows = [] ∨ GoodNamespace imp.userFpNamespace := by
  obtain ⟨account', columns', rows', ns, hs', hn, hg, _⟩ := (C45_accepted L fpNs legacy records).1 ⟨imp, h⟩
  obtain ⟨account'', _, _, hs'', hn'', _⟩ := (getTransactions_iff ..).1 h
  obtain ⟨rfl, rfl, rfl⟩ := hs.unique hs'
  obtain ⟨rfl, rfl, rfl⟩ := hs.unique hs''
  rw [hn] at hn''
  cases hn''
  exact hg

/-- C46, five columns: provided that the hash function has no collision for the file, two different postings share a fingerprint
exactly if they are for two rows with the same contents that are preceded by the same number of rows of that date without another date
in between. -/
theorem C46_five {L : ImportLib} {fpNs : FpNamespace} {legacy : Bool} {records : List (Option Row)} {imp : Import} {account : Str}
    {rows : List (Option Row)} {rs : List RecordFive}
    (h : getTransactions L fpNs legacy records = .ok imp) (hs : FileShape L records account fiveColumns rows)
    (hrs : Records (FiveRow L) rows rs) (hp : PlainFields records) (hd : PlainDates L) (hlen : rows.length < 2 ^ 31)
    (hsha : NoCollision L.sha1 (fiveTexts rs)) :
    DistinctFingerprints imp.transactions ↔ ∀ (i j : Nat) (r : RecordFive), rs[i]? = some r → rs[j]? = some r →
      sinceChange (rs.map RecordFive.date) i = sinceChange (rs.map RecordFive.date) j → i = j := by
  obtain ⟨_, hl, rs', hl', hc⟩ := C45_five h hs
  obtain rfl : rs' = rs := records_get hrs (fun row r r' h1 h2 => by
    rw [← fiveRow_iff] at h1 h2; rw [h1] at h2; exact Option.some.inj h2) hl' fun i hi => (hc i hi).1
  obtain ⟨hacc, hrows⟩ := shape_plain hs hp
  have hgood : ∀ i, i < rs'.length → GoodNamespace imp.userFpNamespace := by
    intro i hi
    refine (good_of_row h hs).resolve_left ?_
    rintro rfl
    rw [hl'] at hi
    cases hi
  have hfit : ∀ i (hi : i < rs'.length), rs'[i].Fits ∧ '\n' ∉ rs'[i].transactions ∧ '\n' ∉ rs'[i].location := by
    intro i hi
    obtain ⟨row, e, hr⟩ := (hc i hi).1
    exact fiveRow_fits hd (hrows row (List.mem_of_getElem? e)) hr
  have hcount : ∀ i, FitsI32 (sinceChange (rs'.map RecordFive.date) i : Nat) := fun i =>
    fits_count (sinceChange_le _ i) (by rw [List.length_map, hl']; exact hlen)
  constructor
  · intro hdist i j r hi hj hcnt
    obtain ⟨hi', ei⟩ := List.getElem?_eq_some_iff.1 hi
    obtain ⟨hj', ej⟩ := List.getElem?_eq_some_iff.1 hj
    obtain ⟨t, et, ht⟩ := (hc i hi').2
    obtain ⟨u, eu, hu⟩ := (hc j hj').2
    obtain ⟨_, p, _, _, htp, _⟩ := id ht
    obtain ⟨_, q, _, _, huq, _⟩ := id hu
    have hp0 : t.postings[0]? = some p := by rw [htp.postings]; rfl
    have hq0 : u.postings[0]? = some q := by rw [huq.postings]; rfl
    obtain ⟨s, es, hrs⟩ := five_read ht (hgood i hi') hacc (hfit i hi').2.1 (hfit i hi').2.2 hp0
    obtain ⟨s', es', hrs'⟩ := five_read hu (hgood j hj') hacc (hfit j hj').2.1 (hfit j hj').2.2 hq0
    have hss : s = s' := index_inj (es.symm.trans es')
    subst hss
    have hbt := C42_tag (pick_built (fiveFp_built L rs'[i] (hgood i hi') (sinceChange (rs'.map RecordFive.date) i)) s)
    refine (hdist i j 0 0 t u p q _ et eu hp0 hq0 hbt.1 ((hrs _ hbt.1).2 rfl) ((hrs' _ hbt.1).2 ?_)).1
    rw [ei, ej, hcnt]
  · intro hinj i j a b t u p q f et eu hpa hqb hf hfp hfq
    have hi' : i < rs'.length := by
      rw [hl', ← hl]; exact (List.getElem?_eq_some_iff.1 et).1
    have hj' : j < rs'.length := by
      rw [hl', ← hl]; exact (List.getElem?_eq_some_iff.1 eu).1
    obtain ⟨t', et', ht⟩ := (hc i hi').2
    obtain ⟨u', eu', hu⟩ := (hc j hj').2
    rw [et] at et'; cases et'
    rw [eu] at eu'; cases eu'
    have hg := hgood i hi'
    obtain ⟨s, rfl, hrs⟩ := five_read ht hg hacc (hfit i hi').2.1 (hfit i hi').2.2 hpa
    obtain ⟨s', rfl, hrs'⟩ := five_read hu hg hacc (hfit j hj').2.1 (hfit j hj').2.2 hqb
    have e := ((hrs f hf).1 hfp).symm.trans ((hrs' f hf).1 hfq)
    have e := congrArg Fingerprint.value (C41_tag (pick_built (fiveFp_built L _ hg _) _) (pick_built (fiveFp_built L _ hg _) _) e)
    rw [fiveFp_value L _ hg, fiveFp_value L _ hg] at e
    have e := hsha _ _ ⟨i, hi', s, rfl⟩ ⟨j, hj', s', rfl⟩ (base64_inj e)
    obtain ⟨e1, e2, e3⟩ := C40_nationwide_five.2 _ _ _ _ _ _ (hfit i hi').1 (hfit j hj').1 (hcount i) (hcount j) e
    refine ⟨hinj i j rs'[i] (List.getElem?_eq_getElem hi') (by rw [List.getElem?_eq_getElem hj', e1]) (by exact_mod_cast e2), by rw [e3]⟩

/-- What two postings of a file of six columns share. -/
theorem six_shared {L : ImportLib} {fpNs : FpNamespace} {legacy : Bool} {records : List (Option Row)} {imp : Import} {account : Str}
    {rows : List (Option Row)} {rs : List RecordSix}
    (h : getTransactions L fpNs legacy records = .ok imp) (hs : FileShape L records account sixColumns rows)
    (hrs : Records (SixRow L) rows rs) (hp : PlainFields records) (hd : PlainDates L) (hlen : rows.length < 2 ^ 31)
    (hsha : NoCollision L.sha1 (sixTexts legacy rs)) {i j a b : Nat} {t u : Transaction} {p q : Posting} {f : Str}
    (et : imp.transactions[i]? = some t) (eu : imp.transactions[j]? = some u) (hpa : t.postings[a]? = some p) (hqb : u.postings[b]? = some q)
    (hf : IsFp f) (hfp : f ∈ (Comment.fromOptComment p.comment).tags) (hfq : f ∈ (Comment.fromOptComment q.comment).tags) :
    ∃ (hi : i < rs.length) (hj : j < rs.length), a = b ∧
      sinceChange (rs.map RecordSix.date) i = sinceChange (rs.map RecordSix.date) j ∧ (legacy = false → rs[i] = rs[j]) ∧
      rs[i].type_ = rs[j].type_ ∧ rs[i].date = rs[j].date ∧ rs[i].balance = rs[j].balance ∧
      ∃ amt, OwnAmount rs[i].paidIn rs[i].paidOut amt ∧ OwnAmount rs[j].paidIn rs[j].paidOut amt := by
  obtain ⟨_, hl, rs', hl', hc⟩ := C45_six h hs
  obtain rfl : rs' = rs := records_get hrs (fun row r r' h1 h2 => by
    rw [← sixRow_iff] at h1 h2; rw [h1] at h2; exact Option.some.inj h2) hl' fun i hi => (hc i hi).1
  obtain ⟨hacc, hrows⟩ := shape_plain hs hp
  have hfit : ∀ i (hi : i < rs'.length), rs'[i].Fits ∧ '\n' ∉ rs'[i].type_ := by
    intro i hi
    obtain ⟨row, e, hr⟩ := (hc i hi).1
    exact sixRow_fits hd (hrows row (List.mem_of_getElem? e)) hr
  have hcount : ∀ i, FitsI32 (sinceChange (rs'.map RecordSix.date) i : Nat) := fun i =>
    fits_count (sinceChange_le _ i) (by rw [List.length_map, hl']; exact hlen)
  have hi' : i < rs'.length := by
    rw [hl', ← hl]; exact (List.getElem?_eq_some_iff.1 et).1
  have hj' : j < rs'.length := by
    rw [hl', ← hl]; exact (List.getElem?_eq_some_iff.1 eu).1
  have hg : GoodNamespace imp.userFpNamespace := by
    refine (good_of_row h hs).resolve_left ?_
    rintro rfl
    rw [hl'] at hi'
    cases hi'
  obtain ⟨t', et', ht⟩ := (hc i hi').2
  obtain ⟨u', eu', hu⟩ := (hc j hj').2
  rw [et] at et'; cases et'
  rw [eu] at eu'; cases eu'
  obtain ⟨s, amt, rfl, ho, hrs⟩ := six_read ht hg hacc (hfit i hi').2 hpa
  obtain ⟨s', amt', rfl, ho', hrs'⟩ := six_read hu hg hacc (hfit j hj').2 hqb
  refine ⟨hi', hj', ?_⟩
  rcases (hrs f hf).1 hfp with e1 | ⟨l1, e1⟩ <;> rcases (hrs' f hf).1 hfq with e2 | ⟨l2, e2⟩
  · have e := e1.symm.trans e2
    have e := congrArg Fingerprint.value (C41_tag (pick_built (sixFp_built L _ hg _) _) (pick_built (sixFp_built L _ hg _) _) e)
    rw [sixFp_value L _ hg, sixFp_value L _ hg] at e
    have e := hsha _ _ ⟨i, hi', s, Or.inl rfl⟩ ⟨j, hj', s', Or.inl rfl⟩ (base64_inj e)
    obtain ⟨e1, e2, e3⟩ := C40_nationwide_six.2 _ _ _ _ _ _ (hfit i hi').1 (hfit j hj').1 (hcount i) (hcount j) e
    exact ⟨by rw [e3], by exact_mod_cast e2, fun _ => e1, by rw [e1], by rw [e1], by rw [e1], amt, ho, by rw [← e1]; exact ho⟩
  · exact absurd (e1.symm.trans e2) (C41_tag_ne_legacy (pick_built (sixLegacyFp_built L _ hg _ _) _))
  · exact absurd (e2.symm.trans e1) (C41_tag_ne_legacy (pick_built (sixLegacyFp_built L _ hg _ _) _))
  · have e := e1.symm.trans e2
    have e := (C41_legacy_tag (pick_built (sixLegacyFp_built L _ hg _ _) _) (pick_built (sixLegacyFp_built L _ hg _ _) _) e).2
    rw [sixLegacyFp_value L _ hg, sixLegacyFp_value L _ hg] at e
    have e := hsha _ _ ⟨i, hi', s, Or.inr ⟨l1, amt, ho, rfl⟩⟩ ⟨j, hj', s', Or.inr ⟨l1, amt', ho', rfl⟩⟩ (base64_inj e)
    have hA := own_fits (hfit i hi').1.2.2.2.2.1 (hfit i hi').1.2.2.2.1 ho
    have hB := own_fits (hfit j hj').1.2.2.2.2.1 (hfit j hj').1.2.2.2.1 ho'
    obtain ⟨e1, e2, e3, e4, e5, e6⟩ := C40_nationwide_six_legacy.2 _ _ _ _ _ _ _ _ (hfit i hi').1 (hfit j hj').1 (hcount i) (hcount j) hA hB e
    exact ⟨by rw [e6], by exact_mod_cast e4, fun hn => (Bool.noConfusion (hn.symm.trans l1)), e1, e2, e3, amt, ho, by rw [e5]; exact ho'⟩

/-- C46, six columns without legacy fingerprints: the same. -/
theorem C46_six {L : ImportLib} {fpNs : FpNamespace} {records : List (Option Row)} {imp : Import} {account : Str}
    {rows : List (Option Row)} {rs : List RecordSix}
    (h : getTransactions L fpNs false records = .ok imp) (hs : FileShape L records account sixColumns rows)
    (hrs : Records (SixRow L) rows rs) (hp : PlainFields records) (hd : PlainDates L) (hlen : rows.length < 2 ^ 31)
    (hsha : NoCollision L.sha1 (sixTexts false rs)) :
    DistinctFingerprints imp.transactions ↔ ∀ (i j : Nat) (r : RecordSix), rs[i]? = some r → rs[j]? = some r →
      sinceChange (rs.map RecordSix.date) i = sinceChange (rs.map RecordSix.date) j → i = j := by
  constructor
  · intro hdist i j r hi hj hcnt
    obtain ⟨_, hl, rs', hl', hc⟩ := C45_six h hs
    obtain rfl : rs' = rs := records_get hrs (fun row r r' h1 h2 => by
      rw [← sixRow_iff] at h1 h2; rw [h1] at h2; exact Option.some.inj h2) hl' fun i hi => (hc i hi).1
    obtain ⟨hacc, hrows⟩ := shape_plain hs hp
    obtain ⟨hi', ei⟩ := List.getElem?_eq_some_iff.1 hi
    obtain ⟨hj', ej⟩ := List.getElem?_eq_some_iff.1 hj
    have hg : GoodNamespace imp.userFpNamespace := by
      refine (good_of_row h hs).resolve_left ?_
      rintro rfl
      rw [hl'] at hi'
      cases hi'
    have hfit : ∀ i (hi : i < rs'.length), '\n' ∉ rs'[i].type_ := by
      intro i hi
      obtain ⟨row, e, hr⟩ := (hc i hi).1
      exact (sixRow_fits hd (hrows row (List.mem_of_getElem? e)) hr).2
    obtain ⟨t, et, ht⟩ := (hc i hi').2
    obtain ⟨u, eu, hu⟩ := (hc j hj').2
    obtain ⟨_, p, _, _, htp, _⟩ := id ht
    obtain ⟨_, q, _, _, huq, _⟩ := id hu
    have hp0 : t.postings[0]? = some p := by rw [htp.postings]; rfl
    have hq0 : u.postings[0]? = some q := by rw [huq.postings]; rfl
    obtain ⟨s, _, es, _, hrs⟩ := six_read ht hg hacc (hfit i hi') hp0
    obtain ⟨s', _, es', _, hrs'⟩ := six_read hu hg hacc (hfit j hj') hq0
    have hss : s = s' := index_inj (es.symm.trans es')
    subst hss
    have hbt := C42_tag (pick_built (sixFp_built L rs'[i] hg (sinceChange (rs'.map RecordSix.date) i)) s)
    refine (hdist i j 0 0 t u p q _ et eu hp0 hq0 hbt.1 ((hrs _ hbt.1).2 (Or.inl rfl)) ((hrs' _ hbt.1).2 (Or.inl ?_))).1
    rw [ei, ej, hcnt]
  · intro hinj i j a b t u p q f et eu hpa hqb hf hfp hfq
    obtain ⟨hi, hj, e1, e2, e3, _⟩ := six_shared h hs hrs hp hd hlen hsha et eu hpa hqb hf hfp hfq
    exact ⟨hinj i j rs[i] (List.getElem?_eq_getElem hi) (by rw [List.getElem?_eq_getElem hj, e3 rfl]) e2, e1⟩

/-- C46, six columns with legacy fingerprints: provided that the hash function has no collision for the file, two different postings
share a fingerprint exactly if they are for two rows with the same type, date, balance and signed amount that are preceded by the same
number of rows of that date without another date in between. Their descriptions may differ. -/
theorem C46_six_legacy {L : ImportLib} {fpNs : FpNamespace} {records : List (Option Row)} {imp : Import} {account : Str}
    {rows : List (Option Row)} {rs : List RecordSix}
    (h : getTransactions L fpNs true records = .ok imp) (hs : FileShape L records account sixColumns rows)
    (hrs : Records (SixRow L) rows rs) (hp : PlainFields records) (hd : PlainDates L) (hlen : rows.length < 2 ^ 31)
    (hsha : NoCollision L.sha1 (sixTexts true rs)) :
    DistinctFingerprints imp.transactions ↔ ∀ (i j : Nat) (r r' : RecordSix) (amt : Amount), rs[i]? = some r → rs[j]? = some r' →
      r.type_ = r'.type_ → r.date = r'.date → r.balance = r'.balance → OwnAmount r.paidIn r.paidOut amt →
      OwnAmount r'.paidIn r'.paidOut amt → sinceChange (rs.map RecordSix.date) i = sinceChange (rs.map RecordSix.date) j → i = j := by
  constructor
  · intro hdist i j r r' amt hi hj etype edate ebal hown hown' hcnt
    obtain ⟨_, hl, rs', hl', hc⟩ := C45_six h hs
    obtain rfl : rs' = rs := records_get hrs (fun row r r' h1 h2 => by
      rw [← sixRow_iff] at h1 h2; rw [h1] at h2; exact Option.some.inj h2) hl' fun i hi => (hc i hi).1
    obtain ⟨hacc, hrows⟩ := shape_plain hs hp
    obtain ⟨hi', rfl⟩ := List.getElem?_eq_some_iff.1 hi
    obtain ⟨hj', rfl⟩ := List.getElem?_eq_some_iff.1 hj
    have hg : GoodNamespace imp.userFpNamespace := by
      refine (good_of_row h hs).resolve_left ?_
      rintro rfl
      rw [hl'] at hi'
      cases hi'
    have hfit : ∀ i (hi : i < rs'.length), '\n' ∉ rs'[i].type_ := by
      intro i hi
      obtain ⟨row, e, hr⟩ := (hc i hi).1
      exact (sixRow_fits hd (hrows row (List.mem_of_getElem? e)) hr).2
    obtain ⟨t, et, ht⟩ := (hc i hi').2
    obtain ⟨u, eu, hu⟩ := (hc j hj').2
    obtain ⟨_, p, _, _, htp, _⟩ := id ht
    obtain ⟨_, q, _, _, huq, _⟩ := id hu
    have hp0 : t.postings[0]? = some p := by rw [htp.postings]; rfl
    have hq0 : u.postings[0]? = some q := by rw [huq.postings]; rfl
    obtain ⟨s, a, es, ho, hrs⟩ := six_read ht hg hacc (hfit i hi') hp0
    obtain ⟨s', a', es', ho', hrs'⟩ := six_read hu hg hacc (hfit j hj') hq0
    have hss : s = s' := index_inj (es.symm.trans es')
    subst hss
    obtain rfl := own_unique ho hown
    obtain rfl := own_unique ho' hown'
    have hfp := C42_legacy_tag (pick_built (sixLegacyFp_built L rs'[i] hg (sinceChange (rs'.map RecordSix.date) i)
      (selfAndPeerAccountAmount a' ownAccount)) s)
    refine (hdist i j 0 0 t u p q _ et eu hp0 hq0 hfp.1 ((hrs _ hfp.1).2 (Or.inr ⟨rfl, rfl⟩))
      ((hrs' _ hfp.1).2 (Or.inr ⟨rfl, ?_⟩))).1
    have : sixLegacyFp L rs'[i] imp.userFpNamespace (sinceChange (rs'.map RecordSix.date) i) =
        sixLegacyFp L rs'[j] imp.userFpNamespace (sinceChange (rs'.map RecordSix.date) j) := by
      funext hv
      unfold sixLegacyFp RecordSix.fillLegacy
      rw [etype, edate, ebal, hcnt]
    rw [this]
  · intro hinj i j a b t u p q f et eu hpa hqb hf hfp hfq
    obtain ⟨hi, hj, e1, e2, _, e3, e4, e5, amt, ho, ho'⟩ := six_shared h hs hrs hp hd hlen hsha et eu hpa hqb hf hfp hfq
    exact ⟨hinj i j _ _ amt (List.getElem?_eq_getElem hi) (List.getElem?_eq_getElem hj) e3 e4 e5 ho ho' e2, e1⟩

/-- C46, five columns: no two postings share a fingerprint if rows of the same date are next to each other, as in a statement in the
order of time. What is missing: without this condition the claim is false, see `C46_false`. -/
theorem C46_five_partial {L : ImportLib} {fpNs : FpNamespace} {legacy : Bool} {records : List (Option Row)} {imp : Import} {account : Str}
    {rows : List (Option Row)} {rs : List RecordFive}
    (h : getTransactions L fpNs legacy records = .ok imp) (hs : FileShape L records account fiveColumns rows)
    (hrs : Records (FiveRow L) rows rs) (hp : PlainFields records) (hd : PlainDates L) (hlen : rows.length < 2 ^ 31)
    (hsha : NoCollision L.sha1 (fiveTexts rs)) (ht : Together (rs.map RecordFive.date)) : DistinctFingerprints imp.transactions := by
  refine (C46_five h hs hrs hp hd hlen hsha).2 fun i j r hi hj hc => ?_
  exact together_unique ht (x := r.date) (by rw [List.getElem?_map, hi]; rfl) (by rw [List.getElem?_map, hj]; rfl) hc

/-- C46, six columns: the same, with and without legacy fingerprints. -/
theorem C46_six_partial {L : ImportLib} {fpNs : FpNamespace} {legacy : Bool} {records : List (Option Row)} {imp : Import} {account : Str}
    {rows : List (Option Row)} {rs : List RecordSix}
    (h : getTransactions L fpNs legacy records = .ok imp) (hs : FileShape L records account sixColumns rows)
    (hrs : Records (SixRow L) rows rs) (hp : PlainFields records) (hd : PlainDates L) (hlen : rows.length < 2 ^ 31)
    (hsha : NoCollision L.sha1 (sixTexts legacy rs)) (ht : Together (rs.map RecordSix.date)) : DistinctFingerprints imp.transactions := by
  intro i j a b t u p q f et eu hpa hqb hf hfp hfq
  obtain ⟨hi, hj, e1, e2, _, _, e3, _⟩ := six_shared h hs hrs hp hd hlen hsha et eu hpa hqb hf hfp hfq
  refine ⟨together_unique ht (x := rs[i].date) ?_ ?_ e2, e1⟩
  · rw [List.getElem?_map, List.getElem?_eq_getElem hi]; rfl
  · rw [List.getElem?_map, List.getElem?_eq_getElem hj, e3]; rfl

/-! ## Examples and a counterexample -/

theorem plain_dates : PlainDates Ex.plainLib := by
  intro s d h
  change Ex.dayMonYear? s = some d at h
  unfold Ex.dayMonYear? at h
  split at h
  · rename_i x y z _
    split at h
    · rename_i d' m y' _ hm _
      split at h
      · rename_i hle
        cases h
        refine ⟨?_, ?_, ?_⟩
        · unfold FitsI32
          have := hle.2
          simp only
          omega
        · unfold Ex.month? at hm
          split at hm
          · cases hm
            have : List.findIdx (fun x => decide (x = y)) Ex.monthNames ≤ Ex.monthNames.length := List.findIdx_le_length
            have hl : Ex.monthNames.length = 12 := rfl
            simp only
            omega
          · cases hm
        · have := hle.1
          simp only
          omega
      · cases h
    · cases h
  · cases h

theorem no_collision (texts : Bytes → Prop) : NoCollision Ex.plainLib.sha1 texts := fun _ _ _ _ h => h

/-- The rows of the file of the test with five columns. -/
def records5 : List RecordFive :=
  [⟨⟨2021, 9, 1⟩, "FOO CO".toList, "FOO.CO/THING#".toList, some ⟨⟨false, 123, 2⟩, gbp⟩, none⟩,
   ⟨⟨2021, 9, 2⟩, "DIRECT DEBIT PAYMENT".toList, [], none, some ⟨⟨false, 5000, 2⟩, gbp⟩⟩,
   ⟨⟨2021, 9, 3⟩, "BAR CO".toList, "THING#".toList, some ⟨⟨false, 432, 2⟩, gbp⟩, none⟩]

theorem records_of {T : Type} {read : Row → T → Prop} {ofRow : Row → Option T} (h : ∀ row r, ofRow row = some r ↔ read row r)
    {rows : List (Option Row)} {rs : List T} (e : rows.map (fun o => o.bind ofRow) = rs.map some) : Records read rows rs := by
  obtain ⟨h1, h2⟩ := map_bind_some.1 e
  refine List.forall₂_iff_get.2 ⟨h1, fun i hi hi' => ?_⟩
  obtain ⟨row, e1, e2⟩ := h2 i hi'
  refine ⟨row, ?_, (h _ _).1 e2⟩
  rw [List.getElem?_eq_getElem hi] at e1
  exact Option.some.inj e1

instance (records : List (Option Row)) : Decidable (∀ row, some row ∈ records → ∀ f ∈ row, FitsStr f ∧ '\n' ∉ f) :=
  decidable_of_iff (∀ o ∈ records, ∀ row ∈ o, ∀ f ∈ row, FitsStr f ∧ '\n' ∉ f)
    ⟨fun h row hr => h _ hr row rfl, fun h o ho row hr => h row (by rw [← Option.mem_def.1 hr]; exact ho)⟩

set_option maxRecDepth 100000 in
/-- The conditions of C46 hold for the files of the tests. -/
example : (∃ imp, getTransactions Ex.plainLib .generated false Ex.file5 = .ok imp) ∧
    FileShape Ex.plainLib Ex.file5 "My Account ****4321".toList fiveColumns (Ex.file5.drop 4) ∧
    Records (FiveRow Ex.plainLib) (Ex.file5.drop 4) records5 ∧ PlainFields Ex.file5 ∧ PlainDates Ex.plainLib ∧
    NoCollision Ex.plainLib.sha1 (fiveTexts records5) ∧ Together (records5.map RecordFive.date) := by
  refine ⟨?_, ⟨[], "£-123.45".toList, [], "£500.00".toList, [], rfl, by decide +kernel, by decide +kernel⟩, ?_, ?_, plain_dates, no_collision _, ?_⟩
  · have h : (getTransactions Ex.plainLib .generated false Ex.file5).isOk = true := by decide +kernel
    cases e : getTransactions Ex.plainLib .generated false Ex.file5 with
    | error x => rw [e] at h; cases h
    | ok imp => exact ⟨imp, rfl⟩
  · exact records_of (fun row r => fiveRow_iff Ex.plainLib row r) (by decide +kernel)
  · unfold PlainFields; decide +kernel
  · intro i j k x hij hjk hi hk
    have hi' := (List.getElem?_eq_some_iff.1 hi).1
    have hk' := (List.getElem?_eq_some_iff.1 hk).1
    change i < 3 at hi'
    change k < 3 at hk'
    have : i = k := by
      have h : ∀ i < 3, ∀ k < 3, (records5.map RecordFive.date)[i]? = (records5.map RecordFive.date)[k]? → i = k := by decide +kernel
      exact h i hi' k hk' (hi.trans hk.symm)
    obtain rfl : i = j := by omega
    exact hi

/-- The record of the rows that occur twice in the first example. -/
def coffee : RecordFive := ⟨⟨2021, 9, 1⟩, "COFFEE".toList, "SHOP".toList, some ⟨⟨false, 123, 2⟩, gbp⟩, none⟩

/-- The record of the rows that occur twice in the second example. -/
def payment : RecordSix :=
  ⟨⟨2019, 1, 1⟩, "Transfer".toList, "Bob".toList, none, some ⟨⟨false, 3000, 2⟩, gbp⟩, ⟨⟨false, 20000, 2⟩, gbp⟩⟩

set_option maxRecDepth 100000 in
/-- C46 does not hold for all files, even if there are no collisions at all and the fields are plain: two equal rows with the same date
and a row with another date in between have the same fingerprints. -/
theorem C46_false : ∃ L : ImportLib, Function.Injective L.sha1 ∧ PlainDates L ∧
    (∃ records imp account rows, getTransactions L .generated false records = .ok imp ∧ PlainFields records ∧
      FileShape L records account fiveColumns rows ∧ ¬ DistinctFingerprints imp.transactions) ∧
    (∃ records imp account rows, getTransactions L .generated false records = .ok imp ∧ PlainFields records ∧
      FileShape L records account sixColumns rows ∧ ¬ DistinctFingerprints imp.transactions) := by
  refine ⟨Ex.plainLib, fun _ _ h => h, plain_dates, ?_, ?_⟩
  · have h : (getTransactions Ex.plainLib .generated false Ex.mixed5).isOk = true := by decide +kernel
    cases e : getTransactions Ex.plainLib .generated false Ex.mixed5 with
    | error x => rw [e] at h; cases h
    | ok imp =>
      have hp : PlainFields Ex.mixed5 := by unfold PlainFields; decide +kernel
      have hs : FileShape Ex.plainLib Ex.mixed5 "My Account ****4321".toList fiveColumns (Ex.mixed5.drop 4) :=
        ⟨[], "£-123.45".toList, [], "£500.00".toList, [], rfl, by decide +kernel, by decide +kernel⟩
      refine ⟨_, imp, _, _, e, hp, hs, fun hd => ?_⟩
      have hr : Records (FiveRow Ex.plainLib) (Ex.mixed5.drop 4)
          [coffee, ⟨⟨2021, 9, 2⟩, "TEA".toList, "SHOP".toList, some ⟨⟨false, 150, 2⟩, gbp⟩, none⟩, coffee] :=
        records_of (fun row r => fiveRow_iff Ex.plainLib row r) (by decide +kernel)
      have := (C46_five e hs hr hp plain_dates (by decide) (no_collision _)).1 hd 0 2 coffee rfl rfl (by decide +kernel)
      cases this
  · have h : (getTransactions Ex.plainLib .generated false Ex.mixed6).isOk = true := by decide +kernel
    cases e : getTransactions Ex.plainLib .generated false Ex.mixed6 with
    | error x => rw [e] at h; cases h
    | ok imp =>
      have hp : PlainFields Ex.mixed6 := by unfold PlainFields; decide +kernel
      have hs : FileShape Ex.plainLib Ex.mixed6 "Current".toList sixColumns (Ex.mixed6.drop 4) :=
        ⟨[], "£150.00".toList, [], "£150.00".toList, [], rfl, by decide +kernel, by decide +kernel⟩
      refine ⟨_, imp, _, _, e, hp, hs, fun hd => ?_⟩
      have hr : Records (SixRow Ex.plainLib) (Ex.mixed6.drop 4)
          [payment, ⟨⟨2019, 1, 2⟩, "Transfer".toList, "Bob".toList, some ⟨⟨false, 3000, 2⟩, gbp⟩, none, ⟨⟨false, 17000, 2⟩, gbp⟩⟩, payment] :=
        records_of (fun row r => sixRow_iff Ex.plainLib row r) (by decide +kernel)
      have := (C46_six e hs hr hp plain_dates (by decide) (no_collision _)).1 hd 0 2 payment rfl rfl (by decide +kernel)
      cases this

/-- A file with two rows that differ only in their descriptions, and a row of another date in between. -/
def renamed : List (Option Row) := Ex.rows
  [["Account Name:", "Current"], ["Account Balance:", "£150.00"], ["Available Balance:", "£150.00"],
   ["Date", "Transaction type", "Description", "Paid out", "Paid in", "Balance"],
   ["01 Jan 2019", "Transfer", "Bob", "", "£30.00", "£200.00"],
   ["02 Jan 2019", "Transfer", "Bob", "£30.00", "", "£170.00"],
   ["01 Jan 2019", "Transfer", "Alice", "", "£30.00", "£200.00"]]

/-- The records of that file. -/
def renamedRecords : List RecordSix :=
  [payment, ⟨⟨2019, 1, 2⟩, "Transfer".toList, "Bob".toList, some ⟨⟨false, 3000, 2⟩, gbp⟩, none, ⟨⟨false, 17000, 2⟩, gbp⟩⟩,
   { payment with description := "Alice".toList }]

set_option maxRecDepth 100000 in
/-- Legacy fingerprints make a difference: the file is one whose postings have different fingerprints without them, and with them
there are two postings that share one. -/
theorem C46_legacy_differs : ∃ imp imp', getTransactions Ex.plainLib .generated false renamed = .ok imp ∧
    getTransactions Ex.plainLib .generated true renamed = .ok imp' ∧ DistinctFingerprints imp.transactions ∧
    ¬ DistinctFingerprints imp'.transactions := by
  have hp : PlainFields renamed := by unfold PlainFields; decide +kernel
  have hs : FileShape Ex.plainLib renamed "Current".toList sixColumns (renamed.drop 4) :=
    ⟨[], "£150.00".toList, [], "£150.00".toList, [], rfl, by decide +kernel, by decide +kernel⟩
  have hr : Records (SixRow Ex.plainLib) (renamed.drop 4) renamedRecords :=
    records_of (fun row r => sixRow_iff Ex.plainLib row r) (by decide +kernel)
  have h : (getTransactions Ex.plainLib .generated false renamed).isOk = true := by decide +kernel
  have h' : (getTransactions Ex.plainLib .generated true renamed).isOk = true := by decide +kernel
  cases e : getTransactions Ex.plainLib .generated false renamed with
  | error x => rw [e] at h; cases h
  | ok imp =>
    cases e' : getTransactions Ex.plainLib .generated true renamed with
    | error x => rw [e'] at h'; cases h'
    | ok imp' =>
      refine ⟨imp, imp', rfl, rfl, (C46_six e hs hr hp plain_dates (by decide) (no_collision _)).2 ?_, fun hd => ?_⟩
      · intro i j r hi hj _
        have hi' := (List.getElem?_eq_some_iff.1 hi).1
        have hj' := (List.getElem?_eq_some_iff.1 hj).1
        have key : ∀ i < 3, ∀ j < 3, renamedRecords[i]? = renamedRecords[j]? → i = j := by decide +kernel
        exact key i hi' j hj' (hi.trans hj.symm)
      · have := (C46_six_legacy e' hs hr hp plain_dates (by decide) (no_collision _)).1 hd 0 2 payment
          { payment with description := "Alice".toList } ⟨⟨false, 3000, 2⟩, gbp⟩ rfl rfl rfl rfl rfl (Or.inl ⟨rfl, rfl⟩) (Or.inl ⟨rfl, rfl⟩)
          (by decide +kernel)
        cases this

end NationwideCsv
end Verif
