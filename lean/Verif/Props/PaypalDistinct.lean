import Verif.Props.ImportMerge
import Verif.Props.PdfDistinct

/-!
# Which postings of a PayPal file share fingerprints, and which files can be merged (C77, C47)
-/

namespace Verif
open Spec Book
namespace PaypalCsv
open NationwideCsv

/-! ## What is claimed -/

/-- What the rows of a file say. -/
def Rows (L : ImportLib) (headers : Row) (rows : List (Option Row)) (vs : List RawRecord) : Prop :=
  List.Forall₂ (fun o v => ∃ row, o = some row ∧ Reads L headers row v) rows vs

/-- Records that agree on date, time, time zone, name, type, currency, amount and balance. -/
def Alike (v w : RawRecord) : Prop :=
  v.date = w.date ∧ v.time = w.time ∧ v.timeZone = w.timeZone ∧ v.name = w.name ∧ v.type_ = w.type_ ∧ v.currency = w.currency ∧
    v.amount = w.amount ∧ v.balance = w.balance
instance (v w) : Decidable (Alike v w) := by unfold Alike; infer_instance

/-- What is hashed for groups of records. -/
def groupTexts (gs : List (List RawRecord)) (x : Bytes) : Prop :=
  ∃ g ∈ gs, ∃ (k : Nat) (v : RawRecord) (s : Side), g[k]? = some v ∧ x = RawRecord.text v k s

/-- The fields of the rows have no newline in them. -/
def NoNewlines (rows : List (Option Row)) : Prop := ∀ row, some row ∈ rows → ∀ f ∈ row, '\n' ∉ f

/-! ## Fingerprints of a record -/

theorem fingerprints_value (L : ImportLib) (ns : Str) (v : RawRecord) (i : Nat) (s : Side) :
    (s.pick (fingerprints L ns v i).self (fingerprints L ns v i).peer).value = Base64.encode (L.sha1 (RawRecord.text v i s)) := by
  cases s <;> simp only [Side.pick, Side.text, fingerprints, selfAndPeerFingerprints, FingerprintBuilder.build, Accumulator.intoBase64,
    RawRecord.fill, RawRecord.text, RawRecord.money, FingerprintBuilder.with_, List.append_assoc, List.nil_append, List.append_nil]

theorem fingerprints_user (L : ImportLib) (ns : Str) (v : RawRecord) (i : Nat) (s : Side) :
    (s.pick (fingerprints L ns v i).self (fingerprints L ns v i).peer).userNamespace = ns := by cases s <;> rfl

theorem fingerprints_name (L : ImportLib) (ns : Str) (v : RawRecord) (i : Nat) (s : Side) :
    (s.pick (fingerprints L ns v i).self (fingerprints L ns v i).peer).algorithmName = "ppcsv".toList ∧
    (s.pick (fingerprints L ns v i).self (fingerprints L ns v i).peer).algorithmVersion = 1 := by cases s <;> exact ⟨rfl, rfl⟩

theorem alike_text {v w : RawRecord} (h : Alike v w) (i : Nat) (s : Side) : RawRecord.text v i s = RawRecord.text w i s := by
  obtain ⟨h1, h2, h3, h4, h5, h6, h7, h8⟩ := h
  unfold RawRecord.text
  rw [h1, h2, h3, h4, h5, h6, h7, h8]

theorem alike_self {L : ImportLib} {ns : Str} {v w : RawRecord} (h : Alike v w) (i : Nat) :
    (fingerprints L ns v i).self = (fingerprints L ns w i).self := by
  have hv := fingerprints_value L ns v i .self
  have hw := fingerprints_value L ns w i .self
  rw [alike_text h, ← hw] at hv
  have n1 := fingerprints_name L ns v i .self
  have n2 := fingerprints_name L ns w i .self
  have u1 := fingerprints_user L ns v i .self
  have u2 := fingerprints_user L ns w i .self
  simp only [Side.pick] at hv n1 n2 u1 u2
  revert hv n1 n2 u1 u2
  generalize (fingerprints L ns v i).self = a
  generalize (fingerprints L ns w i).self = b
  intro h1 h2 h3 h4 h5
  cases a; cases b
  simp_all

theorem pairs_get {α : Type} (pairs : List (α × α)) (a : Nat) (x : α) : (pairs.flatMap fun y => [y.1, y.2])[a]? = some x ↔
    ∃ (k : Nat) (s : Side) (y : α × α), a = 2 * k + Side.index s ∧ pairs[k]? = some y ∧ x = s.pick y.1 y.2 := by
  induction pairs generalizing a with
  | nil => simp
  | cons z pairs ih =>
    rw [List.flatMap_cons]
    match a with
    | 0 =>
      constructor
      · intro h
        cases h
        exact ⟨0, .self, z, rfl, rfl, rfl⟩
      · rintro ⟨k, s, y, e1, e2, e3⟩
        have hk : k = 0 := by omega
        subst hk
        cases e2
        cases s
        · rw [e3]; rfl
        · exact absurd e1 (by decide)
    | 1 =>
      constructor
      · intro h
        cases h
        exact ⟨0, .peer, z, rfl, rfl, rfl⟩
      · rintro ⟨k, s, y, e1, e2, e3⟩
        have hk : k = 0 := by omega
        subst hk
        cases e2
        cases s
        · exact absurd e1 (by decide)
        · rw [e3]; rfl
    | a + 2 =>
      show (pairs.flatMap fun y => [y.1, y.2])[a]? = some x ↔ _
      rw [ih]
      constructor
      · rintro ⟨k, s, y, e1, e2, e3⟩
        exact ⟨k + 1, s, y, by omega, e2, e3⟩
      · rintro ⟨k, s, y, e1, e2, e3⟩
        have hs : Side.index s ≤ 1 := by cases s <;> decide
        obtain ⟨k, rfl⟩ : ∃ m, k = m + 1 := ⟨k - 1, by omega⟩
        exact ⟨k, s, y, by omega, e2, e3⟩

theorem index_le (s : Side) : Side.index s ≤ 1 := by cases s <;> decide

theorem position_inj {k l : Nat} {s s' : Side} (h : 2 * k + Side.index s = 2 * l + Side.index s') : k = l ∧ s = s' := by
  have h1 := index_le s
  have h2 := index_le s'
  exact ⟨by omega, index_inj (by omega)⟩

theorem selfValues_plain {v : RawRecord} (h : ∀ n, v.receiptId = some n → '\n' ∉ n) :
    ∀ e ∈ selfValues v, Word e.1 ∧ Trimmed e.1 ∧ '\n' ∉ e.1 ∧ '\n' ∉ e.2 := by
  have hn := paypal_value_names
  simp only [List.forall_mem_cons, List.not_mem_nil, false_implies, implies_true, and_true] at hn
  intro e he
  unfold selfValues at he
  cases hv : v.receiptId with
  | none => rw [hv] at he; cases he
  | some n =>
    rw [hv] at he
    obtain rfl := List.mem_singleton.1 he
    exact ⟨hn.2.2.1, hn.2.2.2.1, hn.2.2.2.2, h n hv⟩

/-- The tags of the two postings of a record. -/
theorem pair_tags {L : ImportLib} {ns : Str} {legacy : Bool} {v : RawRecord} {i : Nat} {p q : Posting} (h : PairSays L ns legacy v i p q)
    (hg : GoodNamespace ns)
    (hv : (∀ n, v.name = some n → '\n' ∉ n) ∧ '\n' ∉ v.type_ ∧ ∀ n, v.receiptId = some n → '\n' ∉ n) (f : Str) :
    (f ∈ (Comment.fromOptComment p.comment).tags ↔ f = (fingerprints L ns v i).self.tag ∨
      (legacy = true ∧ f = (fingerprints L ns v i).self.legacyTag) ∨ f ∈ ["unknown-account".toList, "import-self".toList]) ∧
    (f ∈ (Comment.fromOptComment q.comment).tags ↔ (legacy = true ∧ f = (fingerprints L ns v i).peer.legacyTag) ∨
      f ∈ ["unknown-account".toList, "import-peer".toList]) := by
  have hw := fixed_words
  simp only [List.forall_mem_cons, List.not_mem_nil, false_implies, implies_true, and_true] at hw
  have hb := fingerprints_built L hg v i
  have h1 := C42_tag hb.1
  have h2 := C42_legacy_tag hb.1
  have h3 := C42_legacy_tag hb.2
  constructor
  · rw [h.self.read_iff ?_ (selfValues_plain hv.2.2)]
    · rw [List.cons_append, List.mem_cons, List.mem_append]
      cases legacy <;> simp
    · cases legacy <;>
      simp only [if_true, Bool.false_eq_true, if_false, List.nil_append, List.cons_append, List.forall_mem_cons, List.not_mem_nil, false_implies,
        implies_true, and_true]
      · exact ⟨h1.2.2, ⟨hw.2.2.1, hw.2.2.2.1⟩, hw.1.1, hw.1.2.1⟩
      · exact ⟨h1.2.2, h2.2.2, ⟨hw.2.2.1, hw.2.2.2.1⟩, hw.1.1, hw.1.2.1⟩
  · rw [h.peer.read_iff ?_ (peerValues_plain hv.1 hv.2.1)]
    · rw [List.mem_append]
      cases legacy <;> simp
    · cases legacy <;>
      simp only [if_true, Bool.false_eq_true, if_false, List.nil_append, List.cons_append, List.forall_mem_cons, List.not_mem_nil, false_implies,
        implies_true, and_true]
      · exact ⟨⟨hw.2.2.1, hw.2.2.2.1⟩, hw.2.1.1, hw.2.1.2.1⟩
      · exact ⟨h3.2.2, ⟨hw.2.2.1, hw.2.2.2.1⟩, hw.2.1.1, hw.2.1.2.1⟩

/-- The fingerprints of a posting of a file: those of the record it is for. -/
theorem posting_fps {L : ImportLib} {tz : TzAbbr.DB} {ns : Str} {legacy : Bool} {g : List RawRecord} {t : Transaction}
    (h : GroupSays L tz ns legacy g t) (hg : GoodNamespace ns)
    (hv : ∀ v ∈ g, (∀ n, v.name = some n → '\n' ∉ n) ∧ '\n' ∉ v.type_ ∧ ∀ n, v.receiptId = some n → '\n' ∉ n) :
    (∀ (a : Nat) (p : Posting), t.postings[a]? = some p → ∃ (k : Nat) (s : Side) (v : RawRecord), a = 2 * k + Side.index s ∧ g[k]? = some v ∧
      ∀ f ∈ (Comment.fromOptComment p.comment).tags, IsFp f →
        (s = .self ∧ f = (fingerprints L ns v k).self.tag) ∨
        (legacy = true ∧ f = (s.pick (fingerprints L ns v k).self (fingerprints L ns v k).peer).legacyTag)) ∧
    (∀ (k : Nat) (v : RawRecord), g[k]? = some v → ∃ p, t.postings[2 * k]? = some p ∧
      (fingerprints L ns v k).self.tag ∈ (Comment.fromOptComment p.comment).tags) ∧
    t.postings.length = 2 * g.length := by
  obtain ⟨dt, d, before, after, w, pairs, _, _, _, _, hts, hlen, hps⟩ := h
  have hfix := fixed_words
  simp only [List.forall_mem_cons, List.not_mem_nil, false_implies, implies_true, and_true] at hfix
  refine ⟨?_, ?_, ?_⟩
  · intro a p hp
    rw [hts.postings, pairs_get] at hp
    obtain ⟨k, s, y, rfl, hk, rfl⟩ := hp
    obtain ⟨hk', rfl⟩ := List.getElem?_eq_some_iff.1 hk
    have hkg : k < g.length := by omega
    have hpair := pair_tags (hps k hkg hk') hg (hv _ (List.getElem_mem hkg))
    refine ⟨k, s, g[k], rfl, List.getElem?_eq_getElem hkg, fun f hf hfp => ?_⟩
    have e1 : f ≠ "import-self".toList := fun e => hfix.1.2.2 (e ▸ hfp)
    have e2 : f ≠ "import-peer".toList := fun e => hfix.2.1.2.2 (e ▸ hfp)
    have e3 : f ≠ "unknown-account".toList := fun e => hfix.2.2.2.2 (e ▸ hfp)
    cases s
    · rcases (hpair f).1.1 hf with h | h | h
      · exact .inl ⟨rfl, h⟩
      · exact .inr h
      · simp only [List.mem_cons, List.not_mem_nil, or_false, e1, e3] at h
    · rcases (hpair f).2.1 hf with h | h
      · exact .inr h
      · simp only [List.mem_cons, List.not_mem_nil, or_false, e2, e3] at h
  · intro k v hk
    obtain ⟨hk', rfl⟩ := List.getElem?_eq_some_iff.1 hk
    have hkp : k < pairs.length := by omega
    have hpair := pair_tags (hps k hk' hkp) hg (hv _ (List.getElem_mem hk')) (fingerprints L ns g[k] k).self.tag
    refine ⟨pairs[k].1, ?_, hpair.1.2 (.inl rfl)⟩
    rw [hts.postings, pairs_get]
    exact ⟨k, .self, pairs[k], rfl, List.getElem?_eq_getElem hkp, rfl⟩
  · rw [hts.postings, ← hlen]
    generalize pairs = ps
    induction ps with
    | nil => rfl
    | cons y ps ih => rw [List.flatMap_cons, List.length_append, ih, List.length_cons]; simp only [List.length_cons, List.length_nil]; omega

/-! ## C77 -/

theorem rows_unique {L : ImportLib} {headers : Row} {rows : List (Option Row)} {vs vs' : List RawRecord} (h : Rows L headers rows vs)
    (h' : Rows L headers rows vs') : vs = vs' := by
  refine NationwidePdf.forall₂_unique ?_ h h'
  rintro o v w ⟨row, rfl, h1⟩ ⟨row', e, h2⟩
  cases e
  rw [← reads_iff] at h1 h2
  exact Option.some.inj (h1.symm.trans h2)

theorem rows_plain {L : ImportLib} {headers : Row} {rows : List (Option Row)} {vs : List RawRecord} (h : Rows L headers rows vs)
    (hp : NoNewlines rows) {v : RawRecord} (hv : v ∈ vs) :
    (∀ n, v.name = some n → '\n' ∉ n) ∧ '\n' ∉ v.type_ ∧ ∀ n, v.receiptId = some n → '\n' ∉ n := by
  obtain ⟨i, hi, rfl⟩ := List.getElem_of_mem hv
  have hi' : i < rows.length := by rw [h.length_eq]; exact hi
  obtain ⟨row, e, hr⟩ := (List.forall₂_iff_get.1 h).2 i hi' hi
  refine reads_plain hr (hp row ?_)
  rw [← e]
  exact List.get_mem ..

theorem flatten_length_le {α : Type} {gs : List (List α)} {g : List α} (h : g ∈ gs) : g.length ≤ gs.flatten.length := by
  induction gs with
  | nil => cases h
  | cons k gs ih =>
    rw [List.flatten_cons, List.length_append]
    rcases List.mem_cons.1 h with rfl | h
    · omega
    · have := ih h; omega

/-- C77: provided that the hash function has no collision for the file, two different postings of an imported PayPal file share a
fingerprint exactly if they are for two records with the same number in two different groups that agree on date, time, time zone, name,
type, currency, amount and balance; groups are the longest runs of records of the same moment. Status and receipt do not help. -/
theorem C77_shared {L : ImportLib} {ns : Str} {legacy : Bool} {headers : Row} {rows : List (Option Row)}
    {tzRecords : List (Option TzAbbr.Record)} {imp : Import} {tz : TzAbbr.DB} {vs : List RawRecord} {gs : List (List RawRecord)}
    (h : getTransactions L ns legacy (some headers) rows tzRecords = .ok imp) (htz : TzAbbr.fromRecords tzRecords = .ok tz)
    (hvs : Rows L headers rows vs) (hgs : Runs (when tz) vs gs) (hp : NoNewlines rows) (hfit : ∀ v ∈ vs, v.Fits)
    (hlen : rows.length < 2 ^ 64) (hsha : NoCollision L.sha1 (groupTexts gs)) :
    DistinctFingerprints imp.transactions ↔ ∀ (i j k : Nat) (g g' : List RawRecord) (v w : RawRecord), gs[i]? = some g → gs[j]? = some g' →
      g[k]? = some v → g'[k]? = some w → Alike v w → i = j := by
  obtain ⟨_, vs', gs', h1, h2, h3⟩ := C50_groups h htz
  obtain rfl := rows_unique hvs h1
  obtain rfl := hgs.unique h2
  have hmem : ∀ {g : List RawRecord} {v}, g ∈ gs → v ∈ g → v ∈ vs := fun hg hv => by
    rw [← h2.flatten]; exact List.mem_flatten.2 ⟨_, hg, hv⟩
  have hsays : ∀ (i : Nat) (g : List RawRecord) (t : Transaction), gs[i]? = some g → imp.transactions[i]? = some t →
      GroupSays L tz ns legacy g t ∧ GoodNamespace ns := by
    intro i g t hg ht
    obtain ⟨hi, rfl⟩ := List.getElem?_eq_some_iff.1 hg
    obtain ⟨hi', rfl⟩ := List.getElem?_eq_some_iff.1 ht
    exact ⟨(List.forall₂_iff_get.1 h3).2 i hi hi', (from_group h (List.getElem_mem hi')).1⟩
  have hlt : ∀ {i k : Nat} {g : List RawRecord} {v}, gs[i]? = some g → g[k]? = some v → k < 2 ^ 64 := by
    intro i k g v hg hk
    have e1 := (List.getElem?_eq_some_iff.1 hk).1
    have e2 := flatten_length_le (List.mem_of_getElem? hg)
    rw [h2.flatten, ← h1.length_eq] at e2
    omega
  constructor
  · intro hd i j k g g' v w hi hj hk hk' hal
    have hit : i < imp.transactions.length := by rw [← h3.length_eq]; exact (List.getElem?_eq_some_iff.1 hi).1
    have hjt : j < imp.transactions.length := by rw [← h3.length_eq]; exact (List.getElem?_eq_some_iff.1 hj).1
    have et := List.getElem?_eq_getElem hit
    have eu := List.getElem?_eq_getElem hjt
    obtain ⟨s1, hg⟩ := hsays i g _ hi et
    obtain ⟨s2, _⟩ := hsays j g' _ hj eu
    obtain ⟨p, hpp, hpt⟩ := (posting_fps s1 hg fun v hv => rows_plain h1 hp (hmem (List.mem_of_getElem? hi) hv)).2.1 k v hk
    obtain ⟨q, hqp, hqt⟩ := (posting_fps s2 hg fun v hv => rows_plain h1 hp (hmem (List.mem_of_getElem? hj) hv)).2.1 k w hk'
    rw [← alike_self hal] at hqt
    exact (hd i j _ _ _ _ p q _ et eu hpp hqp (C42_tag (fingerprints_built L hg v k).1).1 hpt hqt).1
  · intro hinj i j a b t u p q f et eu hpa hqb hf hfp hfq
    have hig : i < gs.length := by rw [h3.length_eq]; exact (List.getElem?_eq_some_iff.1 et).1
    have hjg : j < gs.length := by rw [h3.length_eq]; exact (List.getElem?_eq_some_iff.1 eu).1
    have gi := List.getElem?_eq_getElem hig
    have gj := List.getElem?_eq_getElem hjg
    obtain ⟨s1, hg⟩ := hsays i _ t gi et
    obtain ⟨s2, _⟩ := hsays j _ u gj eu
    obtain ⟨k, s, v, rfl, hk, hv⟩ := (posting_fps s1 hg fun v hv => rows_plain h1 hp (hmem (List.mem_of_getElem? gi) hv)).1 a p hpa
    obtain ⟨l, s', w, rfl, hl, hw⟩ := (posting_fps s2 hg fun v hv => rows_plain h1 hp (hmem (List.mem_of_getElem? gj) hv)).1 b q hqb
    have e : (s.pick (fingerprints L ns v k).self (fingerprints L ns v k).peer).value =
        (s'.pick (fingerprints L ns w l).self (fingerprints L ns w l).peer).value := by
      rcases hv f hfp hf with ⟨rfl, e1⟩ | ⟨_, e1⟩ <;> rcases hw f hfq hf with ⟨rfl, e2⟩ | ⟨_, e2⟩
      · exact congrArg Fingerprint.value (C41_tag (fingerprints_built L hg v k).1 (fingerprints_built L hg w l).1 (e1.symm.trans e2))
      · exact absurd (e1.symm.trans e2) (C41_tag_ne_legacy (pick_built (fingerprints_built L hg w l) s'))
      · exact absurd (e2.symm.trans e1) (C41_tag_ne_legacy (pick_built (fingerprints_built L hg v k) s))
      · exact (C41_legacy_tag (pick_built (fingerprints_built L hg v k) s) (pick_built (fingerprints_built L hg w l) s')
          (e1.symm.trans e2)).2
    rw [fingerprints_value, fingerprints_value] at e
    have e := hsha _ _ ⟨_, List.getElem_mem hig, k, v, s, hk, rfl⟩ ⟨_, List.getElem_mem hjg, l, w, s', hl, rfl⟩ (base64_inj e)
    have fv := hfit v (hmem (List.getElem_mem hig) (List.mem_of_getElem? hk))
    have fw := hfit w (hmem (List.getElem_mem hjg) (List.mem_of_getElem? hl))
    obtain ⟨e1, e2, e3, e4, e5, e6, e7, e8, rfl, rfl⟩ := C40_paypal.2 v w k l s s' fv fw (hlt gi hk) (hlt gj hl) e
    exact ⟨hinj i j k _ _ v w gi gj hk hl ⟨e1, e2, e3, e4, e5, e6, e7, e8⟩, rfl⟩

/-- Where a record of a group is in the file. -/
theorem flatten_position {α : Type} : ∀ {gs : List (List α)} {i k : Nat} {g : List α} {x : α}, gs[i]? = some g → g[k]? = some x →
    gs.flatten[((gs.take i).flatten).length + k]? = some x
  | [], i, _, _, _, h, _ => by simp at h
  | g0 :: gs, 0, k, g, x, h, hk => by
    cases h
    rw [List.flatten_cons, List.take_zero, List.flatten_nil, List.length_nil, Nat.zero_add, List.getElem?_append_left
      (List.getElem?_eq_some_iff.1 hk).1]
    exact hk
  | g0 :: gs, i + 1, k, g, x, h, hk => by
    rw [List.take_succ_cons, List.flatten_cons, List.flatten_cons, List.length_append, Nat.add_assoc,
      List.getElem?_append_right (by omega), Nat.add_sub_cancel_left]
    exact flatten_position h hk

theorem together_groups {α κ : Type} {key : α → κ} {l : List α} {gs : List (List α)} (hr : Runs key l gs) (ht : Together (l.map key))
    {i j k m : Nat} {g g' : List α} {x y : α} (hi : gs[i]? = some g) (hj : gs[j]? = some g') (hx : g[k]? = some x) (hy : g'[m]? = some y)
    (he : key x = key y) : i = j := by
  have main : ∀ {i j k m : Nat} {g g' : List α} {x y : α}, gs[i]? = some g → gs[j]? = some g' → g[k]? = some x → g'[m]? = some y →
      key x = key y → ¬ i < j := by
    intro i j k m g g' x y hi hj hx hy he hlt
    obtain ⟨n, hn⟩ : ∃ n, gs[i + 1]? = some n := ⟨_, List.getElem?_eq_getElem (show i + 1 < gs.length by
      have := (List.getElem?_eq_some_iff.1 hj).1; omega)⟩
    obtain ⟨z, hz⟩ : ∃ z, n[0]? = some z :=
      ⟨_, List.getElem?_eq_getElem (List.length_pos_iff.2 (hr.nonempty _ (List.mem_of_getElem? hn)))⟩
    have px := flatten_position hi hx
    have py := flatten_position hj hy
    have pz := flatten_position hn hz
    rw [hr.flatten] at px py pz
    have step : ((gs.take (i + 1)).flatten).length = ((gs.take i).flatten).length + g.length := by
      rw [List.take_add_one, hi]; simp
    have mono : ((gs.take (i + 1)).flatten).length ≤ ((gs.take j).flatten).length := by
      have : gs.take (i + 1) = (gs.take j).take (i + 1) := by rw [List.take_take, Nat.min_eq_left (by omega)]
      rw [this]
      conv_rhs => rw [← List.take_append_drop (i + 1) (gs.take j), List.flatten_append, List.length_append]
      omega
    have hk := (List.getElem?_eq_some_iff.1 hx).1
    have := ht (((gs.take i).flatten).length + k) (((gs.take (i + 1)).flatten).length + 0)
      (((gs.take j).flatten).length + m) (key x) (by omega) (by omega) (by rw [List.getElem?_map, px]; rfl)
      (by rw [List.getElem?_map, py, he]; rfl)
    rw [List.getElem?_map, pz] at this
    exact hr.differ i g _ hi hn x (List.mem_of_getElem? hx) z (List.mem_of_getElem? hz) (Option.some.inj this).symm
  rcases Nat.lt_trichotomy i j with h | h | h
  · exact absurd h (main hi hj hx hy he)
  · exact h
  · exact absurd h (main hj hi hy hx he.symm)

/-- C77: no two postings of a PayPal file share a fingerprint if records of the same moment are next to each other, as in a file in the
order of time. -/
theorem C77_ordered {L : ImportLib} {ns : Str} {legacy : Bool} {headers : Row} {rows : List (Option Row)}
    {tzRecords : List (Option TzAbbr.Record)} {imp : Import} {tz : TzAbbr.DB} {vs : List RawRecord} {gs : List (List RawRecord)}
    (h : getTransactions L ns legacy (some headers) rows tzRecords = .ok imp) (htz : TzAbbr.fromRecords tzRecords = .ok tz)
    (hvs : Rows L headers rows vs) (hgs : Runs (when tz) vs gs) (hp : NoNewlines rows) (hfit : ∀ v ∈ vs, v.Fits)
    (hlen : rows.length < 2 ^ 64) (hsha : NoCollision L.sha1 (groupTexts gs)) (ht : Together (vs.map (when tz))) :
    DistinctFingerprints imp.transactions := by
  refine (C77_shared h htz hvs hgs hp hfit hlen hsha).2 fun i j k g g' v w hi hj hk hk' hal => ?_
  refine together_groups hgs ht hi hj hk hk' ?_
  unfold when
  rw [hal.1, hal.2.1, hal.2.2.1]

/-! ## C47 -/

/-- C47, PayPal, exactly: an imported file whose fields have no newlines is merged into an empty journal without an error and with
nothing handed back exactly if it has no rows, or legacy fingerprints were asked for and no two postings share a fingerprint (for which
see C77). -/
theorem C47_paypal_merge {L : ImportLib} {ns : Str} {legacy : Bool} {headers : Option Row} {rows : List (Option Row)}
    {tzRecords : List (Option TzAbbr.Record)} {imp : Import} (h : getTransactions L ns legacy headers rows tzRecords = .ok imp)
    (hp : NoNewlines rows) (ho : HashOrder) :
    (Merger.new.merge ho imp.postings).1 = .ok [] ↔ rows = [] ∨ (legacy = true ∧ DistinctFingerprints imp.transactions) := by
  obtain ⟨hs, tz, rfl, htz, _⟩ := (getTransactions_iff ..).1 h
  obtain ⟨_, vs, gs, h1, h2, h3⟩ := C50_groups h htz
  constructor
  · intro hm
    by_contra hne
    have herr : ∃ e, ((run []).merge ho imp.postings).1 = .error e := by
      cases legacy with
      | false => exact (C47_paypal_false h hp).2 (fun e => hne (.inl e)) [] ho
      | true => exact (C11_bad_inputs [] ho imp.postings).2 (.inr (.inr (.inl fun hd => hne (.inr ⟨rfl, distinct_iff.2 hd⟩))))
    obtain ⟨e, he⟩ := herr
    change (Merger.new.merge ho imp.postings).1 = _ at he
    rw [hm] at he
    cases he
  · intro hor
    have hgroup : ∀ t ∈ imp.transactions, ∃ g, GroupSays L tz ns legacy g t ∧ g ≠ [] ∧ GoodNamespace ns ∧ ∀ v ∈ g, v ∈ vs := by
      intro t ht
      obtain ⟨i, hi, rfl⟩ := List.getElem_of_mem ht
      have hi' : i < gs.length := by rw [h3.length_eq]; exact hi
      refine ⟨gs[i], (List.forall₂_iff_get.1 h3).2 i hi' hi, h2.nonempty _ (List.getElem_mem hi'), (from_group h ht).1, fun v hv => ?_⟩
      rw [← h2.flatten]
      exact List.mem_flatten.2 ⟨_, List.getElem_mem hi', hv⟩
    rcases hor with rfl | ⟨rfl, hd⟩
    · cases h1
      have : gs = [] := h2.unique ⟨rfl, by simp, by simp, by simp⟩
      subst this
      have hnil : imp.transactions = [] := by
        have := h3.length_eq
        exact List.length_eq_zero_iff.1 this.symm
      refine fresh_merge ho ?_ ?_ ?_ ?_ <;> simp [Import.postings, hnil, postingsOf, allPosts]
    · refine fresh_merge ho ?_ ?_ (distinct_iff.1 hd) ?_
      · intro t ht p hpm c hc
        obtain ⟨t', ht', p', hp', rfl⟩ := import_post ht hpm
        obtain ⟨g, ⟨dt, d, before, after, w, pairs, _, _, _, _, hts, hlen, hps⟩, _, hg, hv⟩ := hgroup t' ht'
        rw [hts.postings] at hp'
        obtain ⟨y, hy, hp'⟩ := List.mem_flatMap.1 hp'
        obtain ⟨k, hk, rfl⟩ := List.getElem_of_mem hy
        have hkg : k < g.length := by omega
        have htags := pair_tags (hps k hkg hk) hg (rows_plain h1 hp (hv _ (List.getElem_mem hkg))) c
        have hb := fingerprints_built L hg g[k] k
        have hfix := fixed_not_cand
        simp only [List.forall_mem_cons, List.not_mem_nil, false_implies, implies_true, and_true] at hfix
        rcases List.mem_cons.1 hp' with rfl | hp'
        · rcases htags.1.1 hc with rfl | ⟨_, rfl⟩ | hc
          · exact fp_not_cand (C42_tag hb.1).1
          · exact fp_not_cand (C42_legacy_tag hb.1).1
          · simp only [List.mem_cons, List.not_mem_nil, or_false] at hc
            rcases hc with rfl | rfl
            · exact hfix.2.2
            · exact hfix.1
        · obtain rfl := List.mem_singleton.1 hp'
          rcases htags.2.1 hc with ⟨_, rfl⟩ | hc
          · exact fp_not_cand (C42_legacy_tag hb.2).1
          · simp only [List.mem_cons, List.not_mem_nil, or_false] at hc
            rcases hc with rfl | rfl
            · exact hfix.2.2
            · exact hfix.2.1
      · intro t ht p hpm
        obtain ⟨t', ht', p', hp', rfl⟩ := import_post ht hpm
        exact C47_paypal_partial h ht' hp' (.inl rfl)
      · intro t ht
        obtain ⟨t', ht', rfl⟩ := List.mem_map.1 ht
        obtain ⟨g, hg, hne, hgn, hv⟩ := hgroup t' ht'
        show t'.postings.map _ ≠ []
        rw [Ne, List.map_eq_nil_iff]
        intro e
        have := (posting_fps hg hgn fun v hv' => rows_plain h1 hp (hv v hv')).2.2
        rw [e] at this
        have := List.length_pos_iff.2 hne
        simp only [List.length_nil] at *
        omega

/-! ## Examples -/

/-- A way to check what the rows of a file say. -/
theorem rows_of {L : ImportLib} {headers : Row} : ∀ {rows : List (Option Row)} {vs : List RawRecord},
    rows.map (fun o => o.bind (RawRecord.ofRow L headers)) = vs.map some → Rows L headers rows vs
  | [], [], _ => .nil
  | [], _ :: _, h => by cases h
  | _ :: _, [], h => by cases h
  | o :: rows, v :: vs, h => by
    obtain ⟨h1, h2⟩ := List.cons.inj h
    refine .cons ?_ (rows_of h2)
    cases o with
    | none => cases h1
    | some row => exact ⟨row, rfl, (reads_iff ..).1 h1⟩

/-- A way to check that equal elements are together. -/
theorem together_check {α : Type} {l : List α} (h : ∀ i ∈ List.range l.length, ∀ j ∈ List.range l.length, ∀ k ∈ List.range l.length,
    i ≤ j ∧ j ≤ k ∧ l[i]? = l[k]? → l[j]? = l[k]?) : Together l := by
  intro i j k x hij hjk hi hk
  have hk' := (List.getElem?_eq_some_iff.1 hk).1
  have hr : ∀ {n}, n ≤ k → n ∈ List.range l.length := fun h => List.mem_range.2 (by omega)
  exact (h i (hr (by omega)) j (hr hjk) k (hr (le_refl _)) ⟨hij, hjk, hi.trans hk.symm⟩).trans hk

/-- The records of rows. -/
def Ex.recordsOf (rows : List (Option Row)) : List RawRecord :=
  rows.filterMap fun o => o.bind (RawRecord.ofRow Ex.plainLib Ex.paypalHeaders)

/-- A table of time zones. -/
def Ex.zones : TzAbbr.DB := match TzAbbr.fromRecords Ex.paypalTz with
  | .ok tz => tz
  | .error _ => ∅

/-- Two equal records, with one of another moment in between. -/
def Ex.paypalMixed : List (Option Row) := Ex.rows
  [["01/01/2019", "01:23:45", "GMT", "Shop", "Payment", "Completed", "GBP", "-5.00", "", "10.00"],
   ["01/01/2019", "01:23:46", "GMT", "Shop", "Payment", "Completed", "GBP", "5.00", "", "15.00"],
   ["01/01/2019", "01:23:45", "GMT", "Shop", "Payment", "Pending", "GBP", "-5.00", "1", "10.00"]]

theorem Ex.zones_eq : TzAbbr.fromRecords Ex.paypalTz = .ok Ex.zones := by
  unfold Ex.zones
  have h : (TzAbbr.fromRecords Ex.paypalTz).isOk = true := by decide +kernel
  cases e : TzAbbr.fromRecords Ex.paypalTz with
  | error x => rw [e] at h; cases h
  | ok tz => rfl

/-- What the file has to do with the conditions of C77. -/
structure Ex.Meets (legacy : Bool) (rows : List (Option Row)) : Prop where
  imported : ∃ imp, getTransactions Ex.plainLib "test".toList legacy (some Ex.paypalHeaders) rows Ex.paypalTz = .ok imp
  content : Rows Ex.plainLib Ex.paypalHeaders rows (Ex.recordsOf rows)
  runs : Runs (when Ex.zones) (Ex.recordsOf rows) (runsOf (when Ex.zones) (Ex.recordsOf rows))
  plain : NoNewlines rows
  fits : ∀ v ∈ Ex.recordsOf rows, v.Fits
  length : rows.length < 2 ^ 64
  hash : NoCollision Ex.plainLib.sha1 (groupTexts (runsOf (when Ex.zones) (Ex.recordsOf rows)))

theorem Ex.meets {legacy : Bool} {rows : List (Option Row)}
    (h1 : (getTransactions Ex.plainLib "test".toList legacy (some Ex.paypalHeaders) rows Ex.paypalTz).isOk = true)
    (h2 : rows.map (fun o => o.bind (RawRecord.ofRow Ex.plainLib Ex.paypalHeaders)) = (Ex.recordsOf rows).map some)
    (h3 : ∀ o ∈ rows, ∀ row ∈ o, ∀ f ∈ row, '\n' ∉ f) (h4 : ∀ v ∈ Ex.recordsOf rows, v.Fits) (h5 : rows.length < 2 ^ 64) :
    Ex.Meets legacy rows := by
  refine ⟨?_, rows_of h2, runsOf_runs _ _, fun row hr => h3 _ hr row rfl, h4, h5, no_collision _⟩
  cases e : getTransactions Ex.plainLib "test".toList legacy (some Ex.paypalHeaders) rows Ex.paypalTz with
  | error x => rw [e] at h1; cases h1
  | ok imp => exact ⟨imp, rfl⟩

set_option maxRecDepth 100000 in
/-- The file of the test meets the conditions of C77 and C47, its moments are together, and it can be merged with legacy fingerprints,
only then. -/
example : Ex.Meets true Ex.paypalRows ∧ Ex.Meets false Ex.paypalRows ∧ Together ((Ex.recordsOf Ex.paypalRows).map (when Ex.zones)) ∧
    (∀ imp, getTransactions Ex.plainLib "test".toList true (some Ex.paypalHeaders) Ex.paypalRows Ex.paypalTz = .ok imp →
      (Merger.new.merge HashOrder.rev imp.postings).1 = .ok []) ∧
    (∀ imp, getTransactions Ex.plainLib "test".toList false (some Ex.paypalHeaders) Ex.paypalRows Ex.paypalTz = .ok imp →
      (Merger.new.merge HashOrder.rev imp.postings).1 ≠ .ok []) := by
  have m1 : Ex.Meets true Ex.paypalRows := Ex.meets (by decide +kernel) (by decide +kernel) (by decide +kernel) (by decide +kernel) (by decide)
  have m2 : Ex.Meets false Ex.paypalRows := Ex.meets (by decide +kernel) (by decide +kernel) (by decide +kernel) (by decide +kernel) (by decide)
  have ht : Together ((Ex.recordsOf Ex.paypalRows).map (when Ex.zones)) :=
    together_check (by decide +kernel)
  refine ⟨m1, m2, ht, fun imp h => ?_, fun imp h hm => ?_⟩
  · exact (C47_paypal_merge h m1.plain _).2 (.inr ⟨rfl, C77_ordered h Ex.zones_eq m1.content m1.runs m1.plain m1.fits m1.length m1.hash ht⟩)
  · rcases (C47_paypal_merge h m2.plain _).1 hm with h | ⟨h, _⟩
    · cases h
    · cases h

set_option maxRecDepth 100000 in
/-- Distinct fingerprints need the order of time: two records that differ only in status and receipt, with one of another moment in between,
meet the conditions of C77, share a fingerprint and cannot be merged. -/
theorem C77_needs_order : Ex.Meets true Ex.paypalMixed ∧
    ∀ imp, getTransactions Ex.plainLib "test".toList true (some Ex.paypalHeaders) Ex.paypalMixed Ex.paypalTz = .ok imp →
      ¬ DistinctFingerprints imp.transactions ∧ ∀ ho, (Merger.new.merge ho imp.postings).1 ≠ .ok [] := by
  have m : Ex.Meets true Ex.paypalMixed := Ex.meets (by decide +kernel) (by decide +kernel) (by decide +kernel) (by decide +kernel) (by decide)
  refine ⟨m, fun imp h => ?_⟩
  have hno : ¬ DistinctFingerprints imp.transactions := by
    rw [C77_shared h Ex.zones_eq m.content m.runs m.plain m.fits m.length m.hash]
    intro hinj
    have hr : runsOf (when Ex.zones) (Ex.recordsOf Ex.paypalMixed) = (Ex.recordsOf Ex.paypalMixed).map fun v => [v] := by decide +kernel
    have he : ∃ v w, (Ex.recordsOf Ex.paypalMixed)[0]? = some v ∧ (Ex.recordsOf Ex.paypalMixed)[2]? = some w ∧ Alike v w := by
      refine ⟨_, _, rfl, rfl, by decide +kernel⟩
    obtain ⟨v, w, h0, h2, hal⟩ := he
    rw [hr] at hinj
    exact absurd (hinj 0 2 0 [v] [w] v w (by rw [List.getElem?_map, h0]; rfl) (by rw [List.getElem?_map, h2]; rfl) rfl rfl hal) (by decide)
  refine ⟨hno, fun ho hm => ?_⟩
  rcases (C47_paypal_merge h m.plain ho).1 hm with h | ⟨_, h⟩
  · cases h
  · exact hno h

end PaypalCsv
end Verif
