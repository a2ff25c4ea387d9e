import Verif.Proofs.Runs
import Verif.Props.NationwideCsv

/-!
# Properties of the importer of PayPal CSV files (C44, C47, C50)
-/

namespace Verif
open Spec
namespace PaypalCsv
open NationwideCsv

/-! ## What is claimed -/

/-- The field of a row below the header with a name. -/
def At (headers row : Row) (name s : Str) : Prop := ∃ i : Nat, headers[i]? = some name ∧ row[i]? = some s

/-- A row says this. -/
structure Reads (L : ImportLib) (headers row : Row) (v : RawRecord) : Prop where
  length : headers.length = row.length
  once : ∀ n ∈ fieldNames, ∀ i j : Nat, headers[i]? = some n → headers[j]? = some n → i = j
  date : ∃ s, At headers row "Date".toList s ∧ L.dateSlashes s = some v.date
  time : ∃ s, At headers row "Time".toList s ∧ L.timeColons s = some v.time
  timeZone : At headers row "Time zone".toList v.timeZone
  name : ∀ s, v.name = some s ↔ At headers row "Name".toList s ∧ s ≠ []
  type_ : At headers row "Type".toList v.type_
  status : (At headers row "Status".toList "Completed".toList ∧ v.status = .cleared) ∨
    (At headers row "Status".toList "Pending".toList ∧ v.status = .pending)
  currency : At headers row "Currency".toList v.currency
  amount : ∃ s, At headers row "Amount".toList s ∧ L.decimalField s = some v.amount
  receiptId : ∀ s, v.receiptId = some s ↔ At headers row "Receipt ID".toList s ∧ s ≠ []
  balance : ∃ s, At headers row "Balance".toList s ∧ L.decimalField s = some v.balance

/-- When a record happened; nothing if its time zone is not in the table. -/
def when (tz : TzAbbr.DB) (v : RawRecord) : Option Instant := (TzAbbr.abbrToTz tz v.timeZone).map (instant v.date v.time)

/-- An amount in the currency of a record. -/
def RawRecord.money (v : RawRecord) (d : Decimal) : Amount := ⟨d, ⟨v.currency, .left⟩⟩

/-- The two fingerprints of record number `i` of a transaction. -/
def fingerprints (L : ImportLib) (ns : Str) (v : RawRecord) (i : Nat) : FingerprintHalves :=
  selfAndPeerFingerprints L.sha1 ((v.fill (v.money v.amount) (v.money v.balance) ⟨[], "ppcsv".toList, 1, ns⟩).with_ (Enc.usize i))

/-- The values of the other posting. -/
def peerValues (v : RawRecord) : List (Str × Str) :=
  (match v.name with | some n => [("trn_name".toList, n)] | none => []) ++ [("trn_type".toList, v.type_)]

/-- The values of the own posting. -/
def selfValues (v : RawRecord) : List (Str × Str) :=
  match v.receiptId with | some n => [("receipt_id".toList, n)] | none => []

/-- The two postings of record number `i` of a transaction. -/
structure PairSays (L : ImportLib) (ns : Str) (legacy : Bool) (v : RawRecord) (i : Nat) (p q : Posting) : Prop where
  self : Says L.order p ownAccount (v.money v.amount) (some (v.money v.balance)) (some v.status)
    ((fingerprints L ns v i).self.tag :: (if legacy then [(fingerprints L ns v i).self.legacyTag] else []) ++
      ["unknown-account".toList, "import-self".toList]) (selfValues v)
  peer : Says L.order q (peerAccount (v.money v.amount)) (negateAmount (v.money v.amount)) none (some v.status)
    ((if legacy then [(fingerprints L ns v i).peer.legacyTag] else []) ++ ["unknown-account".toList, "import-peer".toList]) (peerValues v)

/-- The transaction of a group of records that happened at the same time. -/
def GroupSays (L : ImportLib) (tz : TzAbbr.DB) (ns : Str) (legacy : Bool) (g : List RawRecord) (t : Transaction) : Prop :=
  ∃ (dt : Instant) (description : Str) (before after : List RawRecord) (v : RawRecord) (pairs : List (Posting × Posting)),
    (∀ v ∈ g, when tz v = some dt) ∧
    g = before ++ v :: after ∧ (∀ w ∈ before, w.name = none) ∧ v.name = some description ∧
    TransactionSays t (L.localDate dt) none description (pairs.flatMap fun x => [x.1, x.2]) ∧
    pairs.length = g.length ∧
    ∀ (i : Nat) (h : i < g.length) (h' : i < pairs.length), PairSays L ns legacy g[i] i pairs[i].1 pairs[i].2

/-! ## Rows -/

theorem field_some {headers row : Row} {n : Str} (hu : ∀ i j : Nat, headers[i]? = some n → headers[j]? = some n → i = j)
    (s : Str) : field headers row n = some s ↔ At headers row n s := by
  unfold field At
  induction headers generalizing row with
  | nil => simp
  | cons h hs ih =>
    cases row with
    | nil => simp
    | cons x xs =>
      rw [List.zip_cons_cons, List.lookup_cons]
      by_cases he : n = h
      · subst he
        rw [beq_self_eq_true]
        constructor
        · intro e; cases e; exact ⟨0, rfl, rfl⟩
        · rintro ⟨i, h1, h2⟩
          cases hu i 0 h1 rfl
          cases h2; rfl
      · rw [beq_eq_false_iff_ne.2 he]
        simp only
        rw [ih (fun i j hi hj => Nat.succ.inj (hu (i + 1) (j + 1) hi hj))]
        constructor
        · rintro ⟨i, h1, h2⟩; exact ⟨i + 1, h1, h2⟩
        · rintro ⟨i, h1, h2⟩
          cases i with
          | zero => cases h1; exact absurd rfl he
          | succ i => exact ⟨i, h1, h2⟩

theorem count_le_one_iff {l : List Str} {n : Str} : ¬ 1 < l.count n ↔ ∀ i j : Nat, l[i]? = some n → l[j]? = some n → i = j := by
  induction l with
  | nil => simp
  | cons h t ih =>
    by_cases he : h = n
    · subst he
      rw [List.count_cons_self]
      have h0 : ¬ 1 < t.count h + 1 ↔ h ∉ t := by rw [← List.count_eq_zero]; omega
      rw [h0]
      constructor
      · intro hn i j hi hj
        have hz : ∀ i : Nat, (h :: t)[i]? = some h → i = 0 := by
          intro i hi
          cases i with
          | zero => rfl
          | succ i => exact absurd (List.mem_of_getElem? (show t[i]? = some h from hi)) hn
        rw [hz i hi, hz j hj]
      · intro hu hm
        obtain ⟨i, hi, e⟩ := List.getElem_of_mem hm
        have := hu (i + 1) 0 (by rw [List.getElem?_cons_succ, List.getElem?_eq_getElem hi, e]) rfl
        cases this
    · rw [List.count_cons_of_ne he, ih]
      constructor
      · intro hu i j hi hj
        cases i with
        | zero => cases hi; exact absurd rfl he
        | succ i =>
          cases j with
          | zero => cases hj; exact absurd rfl he
          | succ j => rw [hu i j hi hj]
      · intro hu i j hi hj
        exact Nat.succ.inj (hu (i + 1) (j + 1) hi hj)

theorem optField_some {headers row : Row} {n : Str} (hu : ∀ i j : Nat, headers[i]? = some n → headers[j]? = some n → i = j)
    (s : Str) : optField headers row n = some s ↔ At headers row n s ∧ s ≠ [] := by
  rw [← field_some hu]
  unfold optField
  cases field headers row n with
  | none => simp
  | some x =>
    simp only [Option.some.injEq]
    split
    · rename_i h; subst h; simp
    · rename_i h
      constructor
      · intro e; cases e; exact ⟨rfl, h⟩
      · rintro ⟨rfl, _⟩; rfl

theorem statusOf_some (s : Str) (x : Status) : statusOf s = some x ↔
    (s = "Completed".toList ∧ x = .cleared) ∨ (s = "Pending".toList ∧ x = .pending) := by
  unfold statusOf
  have hne : "Pending".toList ≠ "Completed".toList := by decide +kernel
  split
  · rename_i h
    subst h
    constructor
    · intro e; cases e; exact Or.inl ⟨rfl, rfl⟩
    · rintro (⟨_, rfl⟩ | ⟨h, _⟩)
      · rfl
      · exact absurd h.symm hne
  · rename_i h
    split
    · rename_i h2
      subst h2
      constructor
      · intro e; cases e; exact Or.inr ⟨rfl, rfl⟩
      · rintro (⟨h', _⟩ | ⟨_, rfl⟩)
        · exact absurd h' h
        · rfl
    · rename_i h2
      refine iff_of_false (by simp) ?_
      rintro (⟨h', _⟩ | ⟨h', _⟩)
      · exact h h'
      · exact h2 h'

theorem reads_iff (L : ImportLib) (headers row : Row) (v : RawRecord) : RawRecord.ofRow L headers row = some v ↔ Reads L headers row v := by
  unfold RawRecord.ofRow
  have hmem : ∀ n ∈ ["Date".toList, "Time".toList, "Time zone".toList, "Name".toList, "Type".toList, "Status".toList, "Currency".toList,
    "Amount".toList, "Receipt ID".toList, "Balance".toList], n ∈ fieldNames := fun n h => h
  split
  · rename_i h
    refine iff_of_false (by simp) fun hr => ?_
    rcases h with h | ⟨n, hn, hc⟩
    · exact h hr.length
    · exact absurd hc (count_le_one_iff.2 (hr.once n hn))
  · rename_i h
    rw [not_or, not_not] at h
    obtain ⟨hl, hc⟩ := h
    have hu : ∀ n ∈ fieldNames, ∀ i j : Nat, headers[i]? = some n → headers[j]? = some n → i = j := by
      intro n hn
      exact count_le_one_iff.1 fun h => hc ⟨n, hn, h⟩
    simp only [List.forall_mem_cons, List.not_mem_nil, false_implies, implies_true, and_true] at hmem
    obtain ⟨m1, m2, m3, m4, m5, m6, m7, m8, m9, m10⟩ := hmem
    simp only [Option.bind_eq_bind, Option.bind_eq_some_iff, field_some (hu _ m1), field_some (hu _ m2), field_some (hu _ m3),
      field_some (hu _ m5), field_some (hu _ m6), field_some (hu _ m7), field_some (hu _ m8), field_some (hu _ m10)]
    constructor
    · rintro ⟨d, ⟨sd, hd1, hd2⟩, t, ⟨st, ht1, ht2⟩, z, hz, ty, hty, x, ⟨sx, hx1, hx2⟩, c, hc, a, ⟨sa, ha1, ha2⟩, b, ⟨sb, hb1, hb2⟩, e⟩
      cases e
      refine ⟨hl, hu, ⟨sd, hd1, hd2⟩, ⟨st, ht1, ht2⟩, hz, optField_some (hu _ m4), hty, ?_, hc, ⟨sa, ha1, ha2⟩, optField_some (hu _ m9),
        ⟨sb, hb1, hb2⟩⟩
      rcases (statusOf_some _ _).1 hx2 with ⟨rfl, rfl⟩ | ⟨rfl, rfl⟩
      · exact Or.inl ⟨hx1, rfl⟩
      · exact Or.inr ⟨hx1, rfl⟩
    · intro hr
      have hn : optField headers row "Name".toList = v.name := Option.ext fun s => by
        rw [optField_some (hu _ m4), hr.name]
      have hi : optField headers row "Receipt ID".toList = v.receiptId := Option.ext fun s => by
        rw [optField_some (hu _ m9), hr.receiptId]
      have hs : ∃ s, At headers row "Status".toList s ∧ statusOf s = some v.status := by
        rcases hr.status with ⟨h1, h2⟩ | ⟨h1, h2⟩
        · exact ⟨_, h1, (statusOf_some _ _).2 (Or.inl ⟨rfl, h2⟩)⟩
        · exact ⟨_, h1, (statusOf_some _ _).2 (Or.inr ⟨rfl, h2⟩)⟩
      exact ⟨_, hr.date, _, hr.time, _, hr.timeZone, _, hr.type_, _, hs, _, hr.currency, _, hr.amount, _, hr.balance, by rw [hn, hi]⟩

/-! ## Records -/

theorem ppcsv_chars : ∀ c ∈ "ppcsv".toList, PartChar c := by decide +kernel

/-- The record of a row. -/
def recordOf (tz : TzAbbr.DB) (ns : Str) (v : RawRecord) : Record :=
  ⟨instant v.date v.time ((TzAbbr.abbrToTz tz v.timeZone).getD 0), v.name, v.type_, v.status, v.money v.amount, v.money v.balance, v.receiptId,
    v.fill (v.money v.amount) (v.money v.balance) ⟨[], "ppcsv".toList, 1, ns⟩⟩

theorem ofRaw_iff (v : RawRecord) (tz : TzAbbr.DB) (ns : Str) (r : Record) :
    Record.ofRaw v tz ns = .ok r ↔ GoodNamespace ns ∧ when tz v ≠ none ∧ r = recordOf tz ns v := by
  unfold Record.ofRaw when recordOf
  by_cases hg : GoodNamespace ns
  · rw [newBuilder_good ppcsv_chars 1 hg]
    cases TzAbbr.abbrToTz tz v.timeZone with
    | none => exact iff_of_false (by intro h; cases h) fun h => h.2.1 rfl
    | some o =>
      constructor
      · intro h; cases h; exact ⟨hg, by simp, rfl⟩
      · rintro ⟨_, _, rfl⟩; rfl
  · obtain ⟨e, he⟩ := newBuilder_bad "ppcsv".toList 1 hg
    rw [he]
    exact iff_of_false (by intro h; cases h) fun h => hg h.1

theorem deserializeRow_iff (L : ImportLib) (headers : Row) (tz : TzAbbr.DB) (ns : Str) (o : Option Row) (r : Record) :
    deserializeRow L headers tz ns o = .ok r ↔ ∃ row v, o = some row ∧ Reads L headers row v ∧ GoodNamespace ns ∧ when tz v ≠ none ∧
      r = recordOf tz ns v := by
  unfold deserializeRow
  cases o with
  | none => exact iff_of_false (by intro h; cases h) (by rintro ⟨_, _, h, _⟩; cases h)
  | some row =>
    simp only
    cases hr : RawRecord.ofRow L headers row with
    | none =>
      refine iff_of_false (by intro h; cases h) ?_
      rintro ⟨row', v, h1, h2, _⟩
      cases h1
      rw [← reads_iff, hr] at h2
      cases h2
    | some v =>
      simp only
      rw [ofRaw_iff]
      constructor
      · intro h; exact ⟨row, v, rfl, (reads_iff ..).1 hr, h⟩
      · rintro ⟨row', v', h1, h2, h⟩
        cases h1
        rw [← reads_iff, hr] at h2
        cases h2
        exact h

/-! ## Postings -/

theorem pair_says (L : ImportLib) (tz : TzAbbr.DB) (ns : Str) (legacy : Bool) (v : RawRecord) (i : Nat) :
    PairSays L ns legacy v i
      (formPostings L legacy { recordOf tz ns v with partialFp := (recordOf tz ns v).partialFp.with_ (Enc.usize i) }).1
      (formPostings L legacy { recordOf tz ns v with partialFp := (recordOf tz ns v).partialFp.with_ (Enc.usize i) }).2 := by
  have hs := ((((CommentSays.empty.tag Tags.importSelf).tag Tags.unknownAccount).optionTag
    (if legacy then some (fingerprints L ns v i).self.legacyTag else none)).optionValue receiptIdTag v.receiptId).tag
    (fingerprints L ns v i).self.tag
  have hp := (((CommentSays.empty.tag Tags.importPeer).tag Tags.unknownAccount).optionTag
    (if legacy then some (fingerprints L ns v i).peer.legacyTag else none)).value transactionTypeTag v.type_
  constructor
  · have hv : (v.receiptId.map fun x => (receiptIdTag, x)).toList ++ [] = selfValues v := by
      unfold selfValues; cases v.receiptId <;> rfl
    rw [hv] at hs
    have ht : ∀ x, (if legacy then some x else none : Option Str).toList = if legacy then [x] else [] := by
      intro x; cases legacy <;> rfl
    rw [ht] at hs
    exact mkPosting_says L _ (some (v.money v.balance)) (some v.status) hs
  · have ht : ∀ x, (if legacy then some x else none : Option Str).toList = if legacy then [x] else [] := by
      intro x; cases legacy <;> rfl
    rw [ht] at hp
    unfold peerValues formPostings
    simp only
    cases hn : v.name with
    | none =>
      have hn' : (recordOf tz ns v).name = none := hn
      rw [hn']
      exact mkPosting_says L _ none (some v.status) hp
    | some n =>
      have hn' : (recordOf tz ns v).name = some n := hn
      rw [hn']
      exact mkPosting_says L _ none (some v.status) (hp.value transactionNameTag n)

theorem postingsLoop_says (L : ImportLib) (tz : TzAbbr.DB) (ns : Str) (legacy : Bool) (n : Nat) (g : List RawRecord) :
    ∃ pairs : List (Posting × Posting), postingsLoop L legacy n (g.map (recordOf tz ns)) = pairs.flatMap (fun x => [x.1, x.2]) ∧
      pairs.length = g.length ∧
      ∀ (i : Nat) (h : i < g.length) (h' : i < pairs.length), PairSays L ns legacy g[i] (n + i) pairs[i].1 pairs[i].2 := by
  induction g generalizing n with
  | nil => exact ⟨[], rfl, rfl, fun i h => absurd h (Nat.not_lt_zero _)⟩
  | cons v g ih =>
    obtain ⟨pairs, h1, h2, h3⟩ := ih (n + 1)
    refine ⟨formPostings L legacy { recordOf tz ns v with partialFp := (recordOf tz ns v).partialFp.with_ (Enc.usize n) } :: pairs, ?_, ?_, ?_⟩
    · rw [List.map_cons, postingsLoop, h1]
      rfl
    · rw [List.length_cons, List.length_cons, h2]
    · intro i h h'
      cases i with
      | zero => exact pair_says L tz ns legacy v n
      | succ i =>
        have := h3 i (by simpa using h) (by simpa using h')
        rw [Nat.add_right_comm] at this
        exact this

theorem findSome_name (g : List RawRecord) (tz : TzAbbr.DB) (ns : Str) (d : Str) : (g.map (recordOf tz ns)).findSome? Record.name = some d ↔
    ∃ before v after, g = before ++ v :: after ∧ (∀ w ∈ before, w.name = none) ∧ v.name = some d := by
  induction g with
  | nil => simp
  | cons v g ih =>
    rw [List.map_cons, List.findSome?_cons]
    cases hn : v.name with
    | some n =>
      have hn' : (recordOf tz ns v).name = some n := hn
      rw [hn']
      constructor
      · intro h; cases h; exact ⟨[], v, g, rfl, by simp, hn⟩
      · rintro ⟨before, w, after, h1, h2, h3⟩
        cases before with
        | nil => cases h1; rw [hn] at h3; exact h3
        | cons b before => cases h1; rw [h2 _ List.mem_cons_self] at hn; cases hn
    | none =>
      have hn' : (recordOf tz ns v).name = none := hn
      rw [hn']
      simp only
      rw [ih]
      constructor
      · rintro ⟨before, w, after, h1, h2, h3⟩
        refine ⟨v :: before, w, after, by rw [h1]; rfl, fun x hx => ?_, h3⟩
        rcases List.mem_cons.1 hx with rfl | hx
        · exact hn
        · exact h2 x hx
      · rintro ⟨before, w, after, h1, h2, h3⟩
        cases before with
        | nil => cases h1; rw [hn] at h3; cases h3
        | cons b before => cases h1; exact ⟨before, w, after, rfl, fun x hx => h2 x (List.mem_cons_of_mem _ hx), h3⟩

theorem findSome_none (g : List RawRecord) (tz : TzAbbr.DB) (ns : Str) : (g.map (recordOf tz ns)).findSome? Record.name = none ↔
    ∀ v ∈ g, v.name = none := by
  rw [List.findSome?_eq_none_iff]
  simp only [List.mem_map, forall_exists_index, and_imp, forall_apply_eq_imp_iff₂]
  rfl

/-! ## Groups -/

theorem chunks_eq (tz : TzAbbr.DB) (ns : Str) (vs : List RawRecord) : chunks (vs.map (recordOf tz ns)) =
    (runsOf (fun v => (recordOf tz ns v).datetime) vs).map fun g =>
      ((g.head?.map fun v => (recordOf tz ns v).datetime).getD (0, 0), g.map (recordOf tz ns)) := by
  induction vs with
  | nil => rfl
  | cons v vs ih =>
    rw [List.map_cons, chunks, ih, runsOf]
    have hr := runsOf_runs (fun v => (recordOf tz ns v).datetime) vs
    cases hg : runsOf (fun v => (recordOf tz ns v).datetime) vs with
    | nil => rfl
    | cons g rest =>
      rw [hg] at hr
      obtain ⟨x, g', rfl, _⟩ := hr.head
      simp only [List.map_cons, List.head?_cons, Option.map_some, Option.getD_some]
      split <;> rfl

theorem when_some {tz : TzAbbr.DB} {v : RawRecord} (ns : Str) (h : when tz v ≠ none) : when tz v = some (recordOf tz ns v).datetime := by
  unfold when at h ⊢
  unfold recordOf
  cases ht : TzAbbr.abbrToTz tz v.timeZone with
  | none => rw [ht] at h; exact absurd rfl h
  | some o => rfl

theorem runs_when {tz : TzAbbr.DB} {vs : List RawRecord} (ns : Str) (h : ∀ v ∈ vs, when tz v ≠ none) {gs : List (List RawRecord)}
    (hr : Runs (fun v => (recordOf tz ns v).datetime) vs gs) : Runs (when tz) vs gs := by
  have hm : ∀ g ∈ gs, ∀ v ∈ g, when tz v = some (recordOf tz ns v).datetime := by
    intro g hg v hv
    exact when_some ns (h v (by rw [← hr.flatten]; exact List.mem_flatten.2 ⟨g, hg, hv⟩))
  refine ⟨hr.flatten, hr.nonempty, fun g hg x hx y hy => ?_, fun i g g' e e' x hx y hy => ?_⟩
  · rw [hm g hg x hx, hm g hg y hy, hr.same g hg x hx y hy]
  · rw [hm g (List.mem_of_getElem? e) x hx, hm g' (List.mem_of_getElem? e') y hy]
    exact fun e2 => hr.differ i g g' e e' x hx y hy (Option.some.inj e2)

/-- Transactions are made of runs of records, each with a name in it. -/
theorem readTransactions_iff (L : ImportLib) (headers : Row) (tz : TzAbbr.DB) (ns : Str) (legacy : Bool) (rows : List (Option Row))
    (ts : List Transaction) : readTransactions L headers tz ns legacy rows = .ok ts ↔
      ∃ vs gs, List.Forall₂ (fun o v => ∃ row, o = some row ∧ Reads L headers row v) rows vs ∧ (rows = [] ∨ GoodNamespace ns) ∧
        (∀ v ∈ vs, when tz v ≠ none) ∧ Runs (fun v => (recordOf tz ns v).datetime) vs gs ∧
        List.Forall₂ (fun g t => formTransaction L legacy ((g.head?.map fun v => (recordOf tz ns v).datetime).getD (0, 0))
          (g.map (recordOf tz ns)) = .ok t) gs ts := by
  have hrec : ∀ rs, rows.mapM (deserializeRow L headers tz ns) = .ok rs ↔ ∃ vs, rs = vs.map (recordOf tz ns) ∧
      List.Forall₂ (fun o v => ∃ row, o = some row ∧ Reads L headers row v) rows vs ∧ (rows = [] ∨ GoodNamespace ns) ∧
        (∀ v ∈ vs, when tz v ≠ none) := by
    intro rs
    rw [mapM_ok]
    constructor
    · intro h
      induction h with
      | nil => exact ⟨[], rfl, .nil, Or.inl rfl, by simp⟩
      | cons h1 _ ih =>
        obtain ⟨row, v, e1, e2, e3, e4, e5⟩ := (deserializeRow_iff ..).1 h1
        obtain ⟨vs, rfl, i1, _, i3⟩ := ih
        refine ⟨v :: vs, by rw [e5]; rfl, .cons ⟨row, e1, e2⟩ i1, Or.inr e3, fun w hw => ?_⟩
        rcases List.mem_cons.1 hw with rfl | hw
        · exact e4
        · exact i3 w hw
    · rintro ⟨vs, rfl, h1, h2, h3⟩
      induction h1 with
      | nil => exact .nil
      | cons h1 _ ih =>
        obtain ⟨row, e1, e2⟩ := h1
        refine .cons ((deserializeRow_iff ..).2 ⟨row, _, e1, e2, h2.resolve_left (by simp), h3 _ List.mem_cons_self, rfl⟩) ?_
        exact ih (Or.inr (h2.resolve_left (by simp))) fun v hv => h3 v (List.mem_cons_of_mem _ hv)
  have hstep : readTransactions L headers tz ns legacy rows = .ok ts ↔ ∃ rs, rows.mapM (deserializeRow L headers tz ns) = .ok rs ∧
      ((chunks rs).mapM fun g => formTransaction L legacy g.1 g.2) = .ok ts := by
    unfold readTransactions
    cases rows.mapM (deserializeRow L headers tz ns) with
    | error e => exact iff_of_false (by intro h; cases h) (by rintro ⟨_, h, _⟩; cases h)
    | ok rs =>
      constructor
      · intro h; exact ⟨rs, rfl, h⟩
      · rintro ⟨_, h1, h2⟩; cases h1; exact h2
  rw [hstep]
  constructor
  · rintro ⟨rs, h1, h2⟩
    obtain ⟨vs, rfl, h3, h4, h5⟩ := (hrec _).1 h1
    rw [chunks_eq, mapM_ok, List.forall₂_map_left_iff] at h2
    exact ⟨vs, _, h3, h4, h5, runsOf_runs _ vs, h2⟩
  · rintro ⟨vs, gs, h3, h4, h5, h6, h7⟩
    refine ⟨_, (hrec _).2 ⟨vs, rfl, h3, h4, h5⟩, ?_⟩
    rw [chunks_eq, mapM_ok, List.forall₂_map_left_iff, (runsOf_runs _ vs).unique h6]
    exact h7

theorem getTransactions_iff (L : ImportLib) (ns : Str) (legacy : Bool) (headers : Option Row) (rows : List (Option Row))
    (tzRecords : List (Option TzAbbr.Record)) (imp : Import) : getTransactions L ns legacy headers rows tzRecords = .ok imp ↔
      ∃ hs tz, headers = some hs ∧ TzAbbr.fromRecords tzRecords = .ok tz ∧ imp.userFpNamespace = ns ∧
        readTransactions L hs tz ns legacy rows = .ok imp.transactions := by
  unfold getTransactions
  cases headers with
  | none => exact iff_of_false (by intro h; cases h) (by rintro ⟨_, _, h, _⟩; cases h)
  | some hs =>
    simp only
    cases TzAbbr.fromRecords tzRecords with
    | error e => exact iff_of_false (by intro h; cases h) (by rintro ⟨_, _, _, h, _⟩; cases h)
    | ok tz =>
      simp only
      cases hr : readTransactions L hs tz ns legacy rows with
      | error e =>
        refine iff_of_false (by intro h; cases h) ?_
        rintro ⟨_, _, h1, h2, _, h3⟩
        cases h1; cases h2
        rw [hr] at h3
        cases h3
      | ok ts =>
        constructor
        · intro h; cases h; exact ⟨hs, tz, rfl, rfl, rfl, hr⟩
        · rintro ⟨_, _, h1, h2, h3, h4⟩
          cases h1; cases h2
          rw [hr] at h4
          cases h4
          subst h3
          rfl

/-! ## C50: groups of records -/

/-- C50: the records of the rows are divided into the longest runs of records that happened at the same time; every run makes one
transaction, in order, with two postings for each record and the first name in the run as description. -/
theorem C50_groups {L : ImportLib} {ns : Str} {legacy : Bool} {hs : Row} {rows : List (Option Row)}
    {tzRecords : List (Option TzAbbr.Record)} {tz : TzAbbr.DB} {imp : Import}
    (h : getTransactions L ns legacy (some hs) rows tzRecords = .ok imp) (htz : TzAbbr.fromRecords tzRecords = .ok tz) :
    imp.userFpNamespace = ns ∧ ∃ vs gs, List.Forall₂ (fun o v => ∃ row, o = some row ∧ Reads L hs row v) rows vs ∧
      Runs (when tz) vs gs ∧ List.Forall₂ (GroupSays L tz ns legacy) gs imp.transactions := by
  obtain ⟨hs', tz', e1, e2, e3, h⟩ := (getTransactions_iff ..).1 h
  cases e1
  rw [htz] at e2
  cases e2
  obtain ⟨vs, gs, h1, h2, h3, h4, h5⟩ := (readTransactions_iff ..).1 h
  have hw := runs_when ns h3 h4
  refine ⟨e3, vs, gs, h1, hw, ?_⟩
  refine List.forall₂_iff_get.2 ⟨h5.length_eq, fun i hi hi' => ?_⟩
  have hf := (List.forall₂_iff_get.1 h5).2 i hi hi'
  have hm : gs.get ⟨i, hi⟩ ∈ gs := List.get_mem _ _
  generalize gs.get ⟨i, hi⟩ = g at hf hm
  generalize imp.transactions.get ⟨i, hi'⟩ = t at hf
  have hne := hw.nonempty g hm
  obtain ⟨x, g', rfl⟩ := List.exists_cons_of_ne_nil hne
  have hx : ∀ v ∈ x :: g', when tz v = some (recordOf tz ns x).datetime := by
    intro v hv
    rw [hw.same _ hm v hv x List.mem_cons_self]
    exact when_some ns (h3 x (by rw [← hw.flatten]; exact List.mem_flatten.2 ⟨_, hm, List.mem_cons_self⟩))
  unfold formTransaction at hf
  split at hf
  · cases hf
  · rename_i d hd
    cases hf
    obtain ⟨before, v, after, e1, e2, e3⟩ := (findSome_name ..).1 hd
    obtain ⟨pairs, p1, p2, p3⟩ := postingsLoop_says L tz ns legacy 0 (x :: g')
    rw [p1]
    refine ⟨(recordOf tz ns x).datetime, d, before, after, v, pairs, hx, e1, e2, e3, mkTransaction_says .., p2, fun i h h' => ?_⟩
    have := p3 i h h'
    rwa [Nat.zero_add] at this

/-- C50: a file is imported exactly if it and the table of time zones can be read, the time zones of all records are in the table, the
namespace is good unless there are no records, and there is a name in every run. -/
theorem C50_accepted (L : ImportLib) (ns : Str) (legacy : Bool) (headers : Option Row) (rows : List (Option Row))
    (tzRecords : List (Option TzAbbr.Record)) : (∃ imp, getTransactions L ns legacy headers rows tzRecords = .ok imp) ↔
      ∃ hs tz vs gs, headers = some hs ∧ TzAbbr.fromRecords tzRecords = .ok tz ∧
        List.Forall₂ (fun o v => ∃ row, o = some row ∧ Reads L hs row v) rows vs ∧ (rows = [] ∨ GoodNamespace ns) ∧
        (∀ v ∈ vs, when tz v ≠ none) ∧ Runs (when tz) vs gs ∧ ∀ g ∈ gs, ∃ v ∈ g, v.name ≠ none := by
  constructor
  · rintro ⟨imp, h⟩
    obtain ⟨hs, tz, e1, e2, e3, h⟩ := (getTransactions_iff ..).1 h
    obtain ⟨vs, gs, h1, h2, h3, h4, h5⟩ := (readTransactions_iff ..).1 h
    refine ⟨hs, tz, vs, gs, e1, e2, h1, h2, h3, runs_when ns h3 h4, fun g hg => ?_⟩
    obtain ⟨i, hi, e⟩ := List.getElem_of_mem hg
    have hf := (List.forall₂_iff_get.1 h5).2 i hi (by rw [← h5.length_eq]; exact hi)
    rw [List.get_eq_getElem, e] at hf
    unfold formTransaction at hf
    split at hf
    · cases hf
    · rename_i d hd
      obtain ⟨before, v, after, e1, e2, e3⟩ := (findSome_name ..).1 hd
      exact ⟨v, by rw [e1]; simp, by rw [e3]; simp⟩
  · rintro ⟨hs, tz, vs, gs, e1, e2, h1, h2, h3, h4, h5⟩
    have hr := runs_when ns h3 (runsOf_runs (fun v => (recordOf tz ns v).datetime) vs)
    obtain rfl := h4.unique hr
    have : ∃ ts, List.Forall₂ (fun g t => formTransaction L legacy ((g.head?.map fun v => (recordOf tz ns v).datetime).getD (0, 0))
          (g.map (recordOf tz ns)) = .ok t) (runsOf (fun v => (recordOf tz ns v).datetime) vs) ts := by
      generalize runsOf (fun v => (recordOf tz ns v).datetime) vs = gs at h5
      clear h4 hr
      induction gs with
      | nil => exact ⟨[], .nil⟩
      | cons g gs ih =>
        obtain ⟨ts, hts⟩ := ih fun g hg => h5 g (List.mem_cons_of_mem _ hg)
        obtain ⟨v, hv, hn⟩ := h5 g List.mem_cons_self
        cases hd : (g.map (recordOf tz ns)).findSome? Record.name with
        | none => exact absurd ((findSome_none ..).1 hd v hv) hn
        | some d =>
          refine ⟨mkTransaction (L.localDate ((g.head?.map fun v => (recordOf tz ns v).datetime).getD (0, 0))) none d
            (postingsLoop L legacy 0 (g.map (recordOf tz ns))) :: ts, .cons ?_ hts⟩
          unfold formTransaction
          rw [hd]
    obtain ⟨ts, hts⟩ := this
    exact ⟨⟨ns, ts⟩, (getTransactions_iff ..).2 ⟨hs, tz, e1, e2, rfl, (readTransactions_iff ..).2
      ⟨vs, _, h1, h2, h3, runsOf_runs _ vs, hts⟩⟩⟩

/-- A list is divided into runs in exactly one way. -/
theorem C50_runs {α κ : Type} [DecidableEq κ] (key : α → κ) (l : List α) : ∃! gs, Runs key l gs :=
  ⟨runsOf key l, runsOf_runs key l, fun _ h => h.unique (runsOf_runs key l)⟩

/-- Every transaction comes from a group of records. -/
theorem from_group {L : ImportLib} {ns : Str} {legacy : Bool} {headers : Option Row} {rows : List (Option Row)}
    {tzRecords : List (Option TzAbbr.Record)} {imp : Import}
    (h : getTransactions L ns legacy headers rows tzRecords = .ok imp) {t : Transaction} (ht : t ∈ imp.transactions) :
    GoodNamespace ns ∧ ∃ tz g, GroupSays L tz ns legacy g t := by
  obtain ⟨hs, tz, e1, e2, e3, h'⟩ := (getTransactions_iff ..).1 h
  subst e1
  obtain ⟨_, vs, gs, h1, h2, h3⟩ := C50_groups h e2
  obtain ⟨i, hi, e⟩ := List.getElem_of_mem ht
  have hi' : i < gs.length := by rw [h3.length_eq]; exact hi
  have hf := (List.forall₂_iff_get.1 h3).2 i hi' hi
  rw [List.get_eq_getElem, List.get_eq_getElem, e] at hf
  refine ⟨?_, tz, _, hf⟩
  obtain ⟨_, _, _, _, hr, _⟩ := (readTransactions_iff ..).1 h'
  refine ‹rows = [] ∨ _›.resolve_left ?_
  rintro rfl
  cases h1
  have : gs = [] := by
    cases gs with
    | nil => rfl
    | cons g gs =>
      obtain ⟨x, g', rfl, _⟩ := h2.head
      have := h2.flatten
      simp at this
  rw [this] at hi'
  cases hi'

/-! ## C44 and C47 -/

/-- C44, PayPal: postings come in pairs with opposite amounts; every transaction balances. -/
theorem C44_paypal {L : ImportLib} {ns : Str} {legacy : Bool} {headers : Option Row} {rows : List (Option Row)}
    {tzRecords : List (Option TzAbbr.Record)} {imp : Import}
    (h : getTransactions L ns legacy headers rows tzRecords = .ok imp) {t : Transaction} (ht : t ∈ imp.transactions) :
    ∃ pairs : List (Posting × Posting), t.postings = pairs.flatMap (fun x => [x.1, x.2]) ∧ (∀ x ∈ pairs, Opposite x.1 x.2) ∧
      Balanced t.postings := by
  obtain ⟨_, tz, g, dt, d, before, after, v, pairs, _, _, _, _, hts, hl, hp⟩ := from_group h ht
  have ho : ∀ x ∈ pairs, Opposite x.1 x.2 := by
    intro x hx
    obtain ⟨i, hi, rfl⟩ := List.getElem_of_mem hx
    have := hp i (by omega) hi
    exact opposite_halves _ this.self this.peer
  refine ⟨pairs, hts.postings, ho, ?_⟩
  rw [hts.postings]
  exact balanced_pairs pairs ho

theorem fingerprints_built (L : ImportLib) {ns : Str} (h : GoodNamespace ns) (v : RawRecord) (i : Nat) :
    Built (fingerprints L ns v i).self ∧ Built (fingerprints L ns v i).peer :=
  ⟨⟨_, _, _, _, L.sha1, [_, _, _, _, _, _, _, _, _], good_new ppcsv_chars 1 h, rfl⟩,
   ⟨_, _, _, _, L.sha1, [_, _, _, _, _, _, _, _, _], good_new ppcsv_chars 1 h, rfl⟩⟩

/-- C47, PayPal: with the option for legacy fingerprints every posting has a fingerprint; without it, the own postings, which are those
for the account of own assets. What is missing: without the option the other postings have none, see `C47_paypal_false`. -/
theorem C47_paypal_partial {L : ImportLib} {ns : Str} {legacy : Bool} {headers : Option Row} {rows : List (Option Row)}
    {tzRecords : List (Option TzAbbr.Record)} {imp : Import}
    (h : getTransactions L ns legacy headers rows tzRecords = .ok imp) {t : Transaction} (ht : t ∈ imp.transactions) {p : Posting}
    (hp : p ∈ t.postings) (hl : legacy = true ∨ p.account = ownAccount) : ∃ f ∈ (Comment.fromOptComment p.comment).tags, IsFp f := by
  obtain ⟨hg, tz, g, dt, d, before, after, v, pairs, _, _, _, _, hts, hlen, hps⟩ := from_group h ht
  rw [hts.postings] at hp
  obtain ⟨x, hx, hp⟩ := List.mem_flatMap.1 hp
  obtain ⟨i, hi, rfl⟩ := List.getElem_of_mem hx
  have hs := hps i (by omega) hi
  have hb := fingerprints_built L hg (g[i]'(by omega)) i
  have hw := fixed_words
  simp only [List.forall_mem_cons, List.not_mem_nil, false_implies, implies_true, and_true] at hw
  rcases List.mem_cons.1 hp with rfl | hp
  · refine ⟨_, hs.self.read_mem ?_ (t := (fingerprints L ns g[i] i).self.tag) (by simp), (C42_tag hb.1).1⟩
    have hf := C42_tag hb.1
    have hlf := C42_legacy_tag hb.1
    cases legacy <;>
    simp only [if_true, Bool.false_eq_true, if_false, List.nil_append, List.cons_append, List.forall_mem_cons, List.not_mem_nil, false_implies,
      implies_true, and_true]
    · exact ⟨hf.2.2, ⟨hw.2.2.1, hw.2.2.2.1⟩, hw.1.1, hw.1.2.1⟩
    · exact ⟨hf.2.2, hlf.2.2, ⟨hw.2.2.1, hw.2.2.2.1⟩, hw.1.1, hw.1.2.1⟩
  · obtain rfl := List.mem_singleton.1 hp
    have hleg : legacy = true := by
      refine hl.resolve_right fun ha => ?_
      rw [hs.peer.account] at ha
      revert ha
      unfold peerAccount
      split <;> decide +kernel
    have hlf := C42_legacy_tag hb.2
    refine ⟨_, hs.peer.read_mem ?_ (t := (fingerprints L ns g[i] i).peer.legacyTag) (by rw [if_pos hleg]; simp), hlf.1⟩
    rw [if_pos hleg]
    simp only [List.cons_append, List.nil_append, List.forall_mem_cons, List.not_mem_nil, false_implies, implies_true, and_true]
    exact ⟨hlf.2.2, ⟨hw.2.2.1, hw.2.2.2.1⟩, hw.2.1.1, hw.2.1.2.1⟩

set_option maxRecDepth 100000 in
/-- The file of the test meets the hypotheses of `C50_groups`, `C44_paypal` and `C47_paypal_partial`: eight records make two transactions, which
have the names and the currencies that their records say. -/
example : (∃ tz, TzAbbr.fromRecords Ex.paypalTz = .ok tz) ∧
    ∃ imp, getTransactions Ex.plainLib "test".toList true (some Ex.paypalHeaders) Ex.paypalRows Ex.paypalTz = .ok imp ∧
      imp.transactions.map (fun t => (t.description, t.postings.length)) =
        [("Somecompany Inc.".toList, 8), ("Othercompany Ltd.".toList, 8)] ∧
      imp.transactions.flatMap (fun t => (t.postings.filter (·.account = ownAccount)).map fun p => p.amount.map fun a => (a.amount.commodity.name, a.amount.quantity)) =
        [some ("USD".toList, ⟨true, 5, 0⟩), some ("GBP".toList, ⟨false, 432, 2⟩), some ("GBP".toList, ⟨true, 432, 2⟩), some ("USD".toList, ⟨false, 5, 0⟩),
         some ("GBP".toList, ⟨false, 1234, 2⟩), some ("GBP".toList, ⟨true, 1234, 2⟩), some ("USD".toList, ⟨false, 1337, 2⟩),
         some ("USD".toList, ⟨true, 1337, 2⟩)] := by
  have h1 : (TzAbbr.fromRecords Ex.paypalTz).isOk = true := by decide +kernel
  have h2 : (match getTransactions Ex.plainLib "test".toList true (some Ex.paypalHeaders) Ex.paypalRows Ex.paypalTz with
    | .ok imp => decide (imp.transactions.map (fun t => (t.description, t.postings.length)) =
        [("Somecompany Inc.".toList, 8), ("Othercompany Ltd.".toList, 8)] ∧
      imp.transactions.flatMap (fun t => (t.postings.filter (·.account = ownAccount)).map fun p => p.amount.map fun a => (a.amount.commodity.name, a.amount.quantity)) =
        [some ("USD".toList, ⟨true, 5, 0⟩), some ("GBP".toList, ⟨false, 432, 2⟩), some ("GBP".toList, ⟨true, 432, 2⟩), some ("USD".toList, ⟨false, 5, 0⟩),
         some ("GBP".toList, ⟨false, 1234, 2⟩), some ("GBP".toList, ⟨true, 1234, 2⟩), some ("USD".toList, ⟨false, 1337, 2⟩),
         some ("USD".toList, ⟨true, 1337, 2⟩)])
    | .error _ => false) = true := by decide +kernel
  refine ⟨?_, ?_⟩
  · cases e : TzAbbr.fromRecords Ex.paypalTz with
    | error e' => rw [e] at h1; cases h1
    | ok tz => exact ⟨tz, rfl⟩
  · cases e : getTransactions Ex.plainLib "test".toList true (some Ex.paypalHeaders) Ex.paypalRows Ex.paypalTz with
    | error e' => rw [e] at h2; cases h2
    | ok imp => rw [e] at h2; exact ⟨imp, rfl, of_decide_eq_true h2⟩

end PaypalCsv
end Verif
