import Verif.Props.FpGen
import Verif.Props.Matching3
import Verif.Props.NationwideDistinct
import Verif.Props.PaypalCsv

/-!
# Merging what was imported (C47)
-/

namespace Verif
open Spec Book

theorem fp_not_cand {t : Str} (h : IsFp t) : ¬ IsCand t := by
  rintro ⟨v, rfl⟩
  obtain ⟨u, e⟩ := h
  exact absurd (show some 'f' = some 'c' from congrArg List.head? e) (by decide)

theorem fixed_not_cand : ∀ t ∈ ["import-self".toList, "import-peer".toList, "unknown-account".toList], ¬ IsCand t := by decide +kernel

/-- An import, as a merge call takes it. -/
def Import.postings (imp : Import) : List TransactionPostings := imp.transactions.map TransactionPostings.ofTransaction

theorem import_post {imp : Import} {t : TransactionPostings} (ht : t ∈ imp.postings) {p : PostingInternal} (hp : p ∈ t.posts) :
    ∃ t' ∈ imp.transactions, ∃ p' ∈ t'.postings, p = PostingInternal.ofPosting p' := by
  obtain ⟨t', ht', rfl⟩ := List.mem_map.1 ht
  obtain ⟨p', hp', rfl⟩ := List.mem_map.1 hp
  exact ⟨t', ht', p', hp', rfl⟩

open NationwideCsv in
/-- Distinct fingerprints in a file, in the words of the merge. -/
theorem distinct_iff {imp : Import} : DistinctFingerprints imp.transactions ↔
    (postingsOf imp.postings).Pairwise (fun p q => ∀ f ∈ tagsOf p, IsFp f → f ∉ tagsOf q) := by
  show _ ↔ (allPosts _).Pairwise _
  unfold allPosts Import.postings
  rw [List.pairwise_flatMap, List.pairwise_map]
  constructor
  swap
  · rintro ⟨h1, h2⟩ i j a b t u p q f hti huj hpa hqb hfp hf1 hf2
    have hm : ∀ {i a : Nat} {t : Transaction} {p : Posting}, imp.transactions[i]? = some t → t.postings[a]? = some p →
        PostingInternal.ofPosting p ∈ (TransactionPostings.ofTransaction t).posts := fun _ hp =>
      List.mem_map.2 ⟨_, List.mem_of_getElem? hp, rfl⟩
    obtain ⟨hi, et⟩ := List.getElem?_eq_some_iff.1 hti
    obtain ⟨hj, eu⟩ := List.getElem?_eq_some_iff.1 huj
    rw [List.pairwise_iff_getElem] at h2
    have hij : i = j := by
      rcases Nat.lt_trichotomy i j with hlt | he | hlt
      · refine absurd hf2 (h2 i j hi hj hlt (.ofPosting p) ?_ (.ofPosting q) ?_ f hf1 hfp)
        · rw [et]; exact hm hti hpa
        · rw [eu]; exact hm huj hqb
      · exact he
      · refine absurd hf1 (h2 j i hj hi hlt (.ofPosting q) ?_ (.ofPosting p) ?_ f hf2 hfp)
        · rw [eu]; exact hm huj hqb
        · rw [et]; exact hm hti hpa
    subst hij
    refine ⟨rfl, ?_⟩
    rw [hti] at huj
    cases huj
    have h1 : (t.postings.map PostingInternal.ofPosting).Pairwise _ := h1 _ (List.mem_map.2 ⟨t, List.mem_of_getElem? hti, rfl⟩)
    rw [List.pairwise_map, List.pairwise_iff_getElem] at h1
    obtain ⟨ha, ep⟩ := List.getElem?_eq_some_iff.1 hpa
    obtain ⟨hb, eq⟩ := List.getElem?_eq_some_iff.1 hqb
    rcases Nat.lt_trichotomy a b with hlt | he | hlt
    · refine absurd hf2 (?_ : f ∉ _)
      have := h1 a b ha hb hlt f
      rw [ep, eq] at this
      exact this hf1 hfp
    · exact he
    · refine absurd hf1 (?_ : f ∉ _)
      have := h1 b a hb ha hlt f
      rw [ep, eq] at this
      exact this hf2 hfp
  intro h
  constructor
  · intro t ht
    obtain ⟨t', ht', rfl⟩ := List.mem_map.1 ht
    obtain ⟨i, hi, rfl⟩ := List.getElem_of_mem ht'
    show (List.map PostingInternal.ofPosting _).Pairwise _
    rw [List.pairwise_map, List.pairwise_iff_getElem]
    intro a b ha hb hab f hf hfp hq
    have := (h i i a b _ _ _ _ f (List.getElem?_eq_getElem hi) (List.getElem?_eq_getElem hi) (List.getElem?_eq_getElem ha)
      (List.getElem?_eq_getElem hb) hfp hf hq).2
    omega
  · rw [List.pairwise_iff_getElem]
    intro i j hi hj hij x hx y hy f hf hfp hq
    obtain ⟨p, hp, rfl⟩ := List.mem_map.1 hx
    obtain ⟨q, hq', rfl⟩ := List.mem_map.1 hy
    obtain ⟨a, ha, rfl⟩ := List.getElem_of_mem hp
    obtain ⟨b, hb, rfl⟩ := List.getElem_of_mem hq'
    have := (h i j a b _ _ _ _ f (List.getElem?_eq_getElem hi) (List.getElem?_eq_getElem hj) (List.getElem?_eq_getElem ha)
      (List.getElem?_eq_getElem hb) hfp hf hq).1
    omega

theorem fresh_verdict (d : Date) (p : PostingInternal) : (ofHistory []).verdict d p = .new := rfl

theorem empty_not_unclear (d : Date) (p : PostingInternal) : ¬ (ofHistory []).Unclear d p := by
  rw [unclear_iff]
  rintro ⟨_, h⟩
  exact absurd h (by show ¬ 2 ≤ 0; decide)

/-- Merging transactions with distinct fingerprints on all postings and no candidate tags into an empty journal succeeds, with nothing
handed back. -/
theorem fresh_merge (h : HashOrder) {ts : List TransactionPostings} (hc : ∀ t ∈ ts, ∀ p ∈ t.posts, ∀ c ∈ tagsOf p, ¬ IsCand c)
    (hf : ∀ t ∈ ts, ∀ p ∈ t.posts, ∃ f ∈ tagsOf p, IsFp f)
    (hd : (postingsOf ts).Pairwise (fun p q => ∀ f ∈ tagsOf p, IsFp f → f ∉ tagsOf q)) (hp : ∀ t ∈ ts, t.posts ≠ []) :
    (Merger.new.merge h ts).1 = .ok [] := by
  have hno : ¬ ∃ e, ((run []).merge h ts).1 = .error e := by
    refine fun he => ?_
    rcases (C11_bad_inputs [] h ts).1 he with ⟨t, ht, p, hp, c, hcm, hcc⟩ | ⟨t, ht, p, hp, hn⟩ | hn | ⟨t, ht, p, hp, i, j, r, s, _, hr, _⟩ | ⟨t, ht, _, p, _, q, _, i, j, hv, _⟩ |
      ⟨i, hi⟩
    · exact hc t ht p hp c hcm hcc
    · obtain ⟨f, hfm, hfp⟩ := hf t ht p hp
      exact hn f hfm hfp
    · exact hn hd
    · cases hr
    · cases hv
    · refine absurd hi ?_
      rw [List.flatMap_eq_nil_iff.2]
      · decide
      · intro t ht
        split
        · rfl
        · rw [List.filter_eq_nil_iff]
          intro p hp
          show ¬ decide ((ofHistory []).verdict _ _ = _) = true
          rw [fresh_verdict]
          simp
  have hR : R (run []) (ofHistory []) := run_refines []
  rcases merge_spec hR h ts with ⟨_, e, he, _⟩ | ⟨_, m', he, _⟩
  · exact absurd ⟨e, by rw [he]⟩ hno
  · show ((run []).merge h ts).1 = _
    rw [he, handedBack_nil_iff.2]
    intro t ht
    rw [undecided_iff_unclear]
    rintro (h | ⟨p, _, h⟩)
    · exact hp t ht h
    · exact empty_not_unclear _ _ h

/-! ## Nationwide CSV files -/

namespace NationwideCsv
open Nationwide

/-- The tags of the postings of a file whose fields are plain. -/
theorem import_tags {L : ImportLib} {fpNs : FpNamespace} {legacy : Bool} {records : List (Option Row)} {imp : Import}
    (h : getTransactions L fpNs legacy records = .ok imp) (hpl : PlainFields records) {t : Transaction} (ht : t ∈ imp.transactions) :
    t.postings ≠ [] ∧ ∀ p ∈ t.postings, ∀ f ∈ (Comment.fromOptComment p.comment).tags,
      IsFp f ∨ f ∈ ["import-self".toList, "import-peer".toList, "unknown-account".toList] := by
  obtain ⟨account, columns, rows, hs, _, hc⟩ := (getTransactions_iff ..).1 h
  obtain ⟨hacc, hrows⟩ := shape_plain hs hpl
  obtain ⟨i, hi, rfl⟩ := List.getElem_of_mem ht
  have hgood : GoodNamespace imp.userFpNamespace := by
    refine (good_of_row h hs).resolve_left ?_
    rintro rfl
    rcases hc with ⟨rfl, _⟩ | ⟨rfl, _⟩
    · rw [(C45_five h hs).2.1] at hi; cases hi
    · rw [(C45_six h hs).2.1] at hi; cases hi
  rcases hc with ⟨rfl, _⟩ | ⟨rfl, _⟩
  · obtain ⟨_, hl, rs, hl', hr⟩ := C45_five h hs
    obtain ⟨⟨row, e1, hrow⟩, t, e2, amt, p, q, _, hts, hp, hq⟩ := hr i (by omega)
    rw [List.getElem?_eq_getElem hi] at e2
    rw [Option.some.inj e2, hts.postings]
    refine ⟨by simp, ?_⟩
    have hnl : '\n' ∉ rs[i].transactions ∧ '\n' ∉ rs[i].location := by
      obtain ⟨d, o, i', _, rfl, _⟩ := hrow
      have := hrows _ (List.mem_of_getElem? e1)
      exact ⟨(this _ (by simp)).2, (this _ (by simp)).2⟩
    have hv := five_values_plain hacc hnl.1 hnl.2
    have hw := five_words L rs[i] hgood (sinceChange (rs.map RecordFive.date) i)
    have hb := fiveFp_built L rs[i] hgood (sinceChange (rs.map RecordFive.date) i)
    intro x hx f hf
    rcases List.mem_cons.1 hx with rfl | hx
    · rw [hp.read_iff hw.1 (seq_plain hgood _ hv)] at hf
      simp only [List.mem_cons, List.not_mem_nil, or_false] at hf ⊢
      rcases hf with rfl | rfl | rfl
      · exact .inr (.inl rfl)
      · exact .inl (C42_tag hb.1).1
      · exact .inr (.inr (.inr rfl))
    · obtain rfl := List.mem_singleton.1 hx
      rw [hq.read_iff hw.2 hv] at hf
      simp only [List.mem_cons, List.not_mem_nil, or_false] at hf ⊢
      rcases hf with rfl | rfl | rfl
      · exact .inr (.inr (.inl rfl))
      · exact .inl (C42_tag hb.2).1
      · exact .inr (.inr (.inr rfl))
  · obtain ⟨_, hl, rs, hl', hr⟩ := C45_six h hs
    obtain ⟨⟨row, e1, hrow⟩, t, e2, amt, p, q, _, hts, hp, hq⟩ := hr i (by omega)
    rw [List.getElem?_eq_getElem hi] at e2
    rw [Option.some.inj e2, hts.postings]
    refine ⟨by simp, ?_⟩
    have hnl : '\n' ∉ rs[i].type_ := by
      obtain ⟨d, o, i', b, _, rfl, _⟩ := hrow
      exact (hrows _ (List.mem_of_getElem? e1) _ (by simp)).2
    have hv := six_values_plain hacc hnl
    have hw := six_words L rs[i] hgood (sinceChange (rs.map RecordSix.date) i) legacy (selfAndPeerAccountAmount amt ownAccount)
    have hb := sixFp_built L rs[i] hgood (sinceChange (rs.map RecordSix.date) i)
    have hlb := sixLegacyFp_built L rs[i] hgood (sinceChange (rs.map RecordSix.date) i) (selfAndPeerAccountAmount amt ownAccount)
    intro x hx f hf
    rcases List.mem_cons.1 hx with rfl | hx
    · rw [hp.read_iff hw.1 (seq_plain hgood _ hv)] at hf
      rcases List.mem_append.1 hf with hf | hf
      · cases legacy with
        | false => cases hf
        | true => obtain rfl := List.mem_singleton.1 hf; exact .inl (C42_legacy_tag hlb.1).1
      · simp only [List.mem_cons, List.not_mem_nil, or_false] at hf ⊢
        rcases hf with rfl | rfl | rfl
        · exact .inr (.inl rfl)
        · exact .inl (C42_tag hb.1).1
        · exact .inr (.inr (.inr rfl))
    · obtain rfl := List.mem_singleton.1 hx
      rw [hq.read_iff hw.2 hv] at hf
      rcases List.mem_append.1 hf with hf | hf
      · cases legacy with
        | false => cases hf
        | true => obtain rfl := List.mem_singleton.1 hf; exact .inl (C42_legacy_tag hlb.2).1
      · simp only [List.mem_cons, List.not_mem_nil, or_false] at hf ⊢
        rcases hf with rfl | rfl | rfl
        · exact .inr (.inr (.inl rfl))
        · exact .inl (C42_tag hb.2).1
        · exact .inr (.inr (.inr rfl))

/-- C47, Nationwide CSV: an imported file whose fields are plain is merged into an empty journal without an error and with nothing handed
back, if its fingerprints are distinct (for which see C46), and only then. -/
theorem C47_nationwide_csv_merge {L : ImportLib} {fpNs : FpNamespace} {legacy : Bool} {records : List (Option Row)} {imp : Import}
    (h : getTransactions L fpNs legacy records = .ok imp) (hpl : PlainFields records) (ho : HashOrder) :
    (Merger.new.merge ho imp.postings).1 = .ok [] ↔ DistinctFingerprints imp.transactions := by
  constructor
  · intro hm
    by_contra hne
    obtain ⟨e, he⟩ : ∃ e, ((run []).merge ho imp.postings).1 = .error e :=
      (C11_bad_inputs [] ho imp.postings).2 (.inr (.inr (.inl fun hd => hne (distinct_iff.2 hd))))
    change (Merger.new.merge ho imp.postings).1 = _ at he
    rw [hm] at he
    cases he
  · intro hd
    refine fresh_merge ho ?_ ?_ (distinct_iff.1 hd) ?_
    · intro t ht p hp c hc
      obtain ⟨t', ht', p', hp', rfl⟩ := import_post ht hp
      rcases (import_tags h hpl ht').2 p' hp' c hc with h | h
      · exact fp_not_cand h
      · exact fixed_not_cand c h
    · intro t ht p hp
      obtain ⟨t', ht', p', hp', rfl⟩ := import_post ht hp
      exact C47_nationwide_csv h ht' hp'
    · intro t ht
      obtain ⟨t', ht', rfl⟩ := List.mem_map.1 ht
      show t'.postings.map _ ≠ []
      rw [Ne, List.map_eq_nil_iff]
      exact (import_tags h hpl ht').1

set_option maxRecDepth 100000 in
/-- The files of the tests are merged; the file with two equal rows and a row of another date in between is not. -/
example : (∃ imp, getTransactions Ex.plainLib .generated false Ex.file5 = .ok imp ∧ PlainFields Ex.file5 ∧
      (Merger.new.merge HashOrder.rev imp.postings).1 = .ok []) ∧
    (∃ imp, getTransactions Ex.plainLib .generated true Ex.file6 = .ok imp ∧ PlainFields Ex.file6 ∧
      (Merger.new.merge HashOrder.rev imp.postings).1 = .ok []) ∧
    ∃ imp, getTransactions Ex.plainLib .generated false Ex.mixed5 = .ok imp ∧ PlainFields Ex.mixed5 ∧
      (Merger.new.merge HashOrder.rev imp.postings).1 ≠ .ok [] := by
  have hrun : ∀ {x : Except ImportErr Import} {P : Import → Prop} [DecidablePred P],
      (match x with | .ok i => decide (P i) | .error _ => false) = true → ∃ imp, x = .ok imp ∧ P imp := by
    intro x P _ h
    cases x with
    | error e => cases h
    | ok i => exact ⟨i, rfl, of_decide_eq_true h⟩
  refine ⟨?_, ?_, ?_⟩
  · obtain ⟨imp, h1, h2⟩ := hrun (x := getTransactions Ex.plainLib .generated false Ex.file5)
      (P := fun imp => (Merger.new.merge HashOrder.rev imp.postings).1 = .ok []) (by decide +kernel)
    exact ⟨imp, h1, by unfold PlainFields; decide +kernel, h2⟩
  · obtain ⟨imp, h1, h2⟩ := hrun (x := getTransactions Ex.plainLib .generated true Ex.file6)
      (P := fun imp => (Merger.new.merge HashOrder.rev imp.postings).1 = .ok []) (by decide +kernel)
    exact ⟨imp, h1, by unfold PlainFields; decide +kernel, h2⟩
  · obtain ⟨imp, h1, h2⟩ := hrun (x := getTransactions Ex.plainLib .generated false Ex.mixed5)
      (P := fun imp => (Merger.new.merge HashOrder.rev imp.postings).1 ≠ .ok []) (by decide +kernel)
    exact ⟨imp, h1, by unfold PlainFields; decide +kernel, h2⟩

end NationwideCsv

/-! ## PayPal CSV files -/

namespace PaypalCsv
open NationwideCsv

theorem paypal_value_names : ∀ k ∈ ["trn_name".toList, "trn_type".toList, "receipt_id".toList], Word k ∧ Trimmed k ∧ '\n' ∉ k := by
  decide +kernel

theorem reads_plain {L : ImportLib} {headers row : Row} {v : RawRecord} (h : Reads L headers row v) (hr : ∀ f ∈ row, '\n' ∉ f) :
    (∀ n, v.name = some n → '\n' ∉ n) ∧ '\n' ∉ v.type_ ∧ ∀ n, v.receiptId = some n → '\n' ∉ n := by
  have ha : ∀ {n s}, At headers row n s → '\n' ∉ s := by
    rintro n s ⟨i, _, h⟩
    exact hr s (List.mem_of_getElem? h)
  exact ⟨fun n e => ha ((h.name n).1 e).1, ha h.type_, fun n e => ha ((h.receiptId n).1 e).1⟩

theorem peerValues_plain {v : RawRecord} (h1 : ∀ n, v.name = some n → '\n' ∉ n) (h2 : '\n' ∉ v.type_) :
    ∀ e ∈ peerValues v, Word e.1 ∧ Trimmed e.1 ∧ '\n' ∉ e.1 ∧ '\n' ∉ e.2 := by
  have hn := paypal_value_names
  simp only [List.forall_mem_cons, List.not_mem_nil, false_implies, implies_true, and_true] at hn
  intro e he
  unfold peerValues at he
  rcases List.mem_append.1 he with he | he
  · cases hv : v.name with
    | none => rw [hv] at he; cases he
    | some n =>
      rw [hv] at he
      obtain rfl := List.mem_singleton.1 he
      exact ⟨hn.1.1, hn.1.2.1, hn.1.2.2, h1 n hv⟩
  · obtain rfl := List.mem_singleton.1 he
    exact ⟨hn.2.1.1, hn.2.1.2.1, hn.2.1.2.2, h2⟩

/-- C47 does not hold for PayPal: without the option for legacy fingerprints, in every imported file whose fields have no newlines, every
second posting has no fingerprint, and merging the file fails unless it has no rows, whatever was merged before. -/
theorem C47_paypal_false {L : ImportLib} {ns : Str} {headers : Option Row} {rows : List (Option Row)}
    {tzRecords : List (Option TzAbbr.Record)} {imp : Import} (h : getTransactions L ns false headers rows tzRecords = .ok imp)
    (hpl : ∀ row, some row ∈ rows → ∀ f ∈ row, '\n' ∉ f) :
    (∀ t ∈ imp.transactions, ∀ p ∈ t.postings, p.account ≠ ownAccount → ∀ f ∈ (Comment.fromOptComment p.comment).tags, ¬ IsFp f) ∧
    (rows ≠ [] → ∀ (calls : History) (ho : HashOrder), ∃ e, ((run calls).merge ho imp.postings).1 = .error e) := by
  obtain ⟨hs, tz, rfl, htz, _⟩ := (getTransactions_iff ..).1 h
  obtain ⟨_, vs, gs, h1, h2, h3⟩ := C50_groups h htz
  have hplain : ∀ v ∈ vs, (∀ n, v.name = some n → '\n' ∉ n) ∧ '\n' ∉ v.type_ ∧ ∀ n, v.receiptId = some n → '\n' ∉ n := by
    intro v hv
    obtain ⟨i, hi, rfl⟩ := List.getElem_of_mem hv
    have hi' : i < rows.length := by rw [h1.length_eq]; exact hi
    obtain ⟨row, e, hr⟩ := (List.forall₂_iff_get.1 h1).2 i hi' hi
    refine reads_plain hr (hpl row ?_)
    rw [← e]
    exact List.get_mem ..
  have hpeer : ∀ t ∈ imp.transactions, ∃ pairs : List (Posting × Posting), pairs ≠ [] ∧ t.postings = pairs.flatMap (fun x => [x.1, x.2]) ∧
      ∀ x ∈ pairs, x.1.account = ownAccount ∧ x.2.account ≠ ownAccount ∧ ∀ f ∈ (Comment.fromOptComment x.2.comment).tags, ¬ IsFp f := by
    intro t ht
    obtain ⟨i, hi, rfl⟩ := List.getElem_of_mem ht
    have hi' : i < gs.length := by rw [h3.length_eq]; exact hi
    have hf := (List.forall₂_iff_get.1 h3).2 i hi' hi
    change GroupSays L tz ns false gs[i] imp.transactions[i] at hf
    obtain ⟨dt, d, before, after, w, pairs, _, hsplit, _, _, hts, hlen, hps⟩ := hf
    refine ⟨pairs, ?_, hts.postings, ?_⟩
    · rintro rfl
      rw [hsplit] at hlen
      simp at hlen
    · intro x hx
      obtain ⟨j, hj, rfl⟩ := List.getElem_of_mem hx
      have hpair := hps j (by omega) hj
      have hmem : (gs[i])[j]'(by omega) ∈ vs := by
        rw [← h2.flatten]
        exact List.mem_flatten.2 ⟨_, List.getElem_mem hi', List.getElem_mem _⟩
      have hv := hplain _ hmem
      refine ⟨hpair.self.account, ?_, ?_⟩
      · rw [hpair.peer.account]
        unfold NationwideCsv.peerAccount
        split <;> decide +kernel
      · intro f hf
        have hw := fixed_words
        simp only [List.forall_mem_cons, List.not_mem_nil, false_implies, implies_true, and_true] at hw
        rw [hpair.peer.read_iff (by
          rw [if_neg (by decide)]
          simp only [List.nil_append, List.forall_mem_cons, List.not_mem_nil, false_implies, implies_true, and_true]
          exact ⟨⟨hw.2.2.1, hw.2.2.2.1⟩, hw.2.1.1, hw.2.1.2.1⟩) (peerValues_plain hv.1 hv.2.1)] at hf
        rw [if_neg (by decide)] at hf
        simp only [List.nil_append, List.mem_cons, List.not_mem_nil, or_false] at hf
        rcases hf with rfl | rfl
        · exact hw.2.2.2.2
        · exact hw.2.1.2.2
  constructor
  · intro t ht p hp hne
    obtain ⟨pairs, _, e, hx⟩ := hpeer t ht
    rw [e] at hp
    obtain ⟨x, hxm, hp⟩ := List.mem_flatMap.1 hp
    rcases List.mem_cons.1 hp with rfl | hp
    · exact absurd (hx x hxm).1 hne
    · obtain rfl := List.mem_singleton.1 hp
      exact (hx x hxm).2.2
  · intro hr calls ho
    refine (C11_bad_inputs calls ho imp.postings).2 (.inr (.inl ?_))
    have hne : imp.transactions ≠ [] := by
      intro e
      rw [e] at h3
      cases h3
      have := h2.flatten
      rw [List.flatten_nil] at this
      subst this
      cases h1
      exact hr rfl
    obtain ⟨t, ht⟩ := List.exists_mem_of_ne_nil _ hne
    obtain ⟨pairs, hpne, e, hx⟩ := hpeer t ht
    obtain ⟨x, hxm⟩ := List.exists_mem_of_ne_nil _ hpne
    refine ⟨.ofTransaction t, List.mem_map.2 ⟨t, ht, rfl⟩, .ofPosting x.2, List.mem_map.2 ⟨x.2, ?_, rfl⟩, (hx x hxm).2.2⟩
    rw [e]
    exact List.mem_flatMap.2 ⟨x, hxm, by simp⟩

set_option maxRecDepth 100000 in
/-- The file of the test meets the conditions of C44, C47 and C50. -/
example : (∃ imp, getTransactions Ex.plainLib "test".toList false (some Ex.paypalHeaders) Ex.paypalRows Ex.paypalTz = .ok imp ∧
      imp.transactions.map (fun t => (t.description, t.postings.length)) = [("Somecompany Inc.".toList, 8), ("Othercompany Ltd.".toList, 8)]) ∧
    (∀ row, some row ∈ Ex.paypalRows → ∀ f ∈ row, '\n' ∉ f) ∧ (TzAbbr.fromRecords Ex.paypalTz).isOk = true := by
  refine ⟨?_, ?_, by decide +kernel⟩
  · have h : (match getTransactions Ex.plainLib "test".toList false (some Ex.paypalHeaders) Ex.paypalRows Ex.paypalTz with
      | .ok imp => decide (imp.transactions.map (fun t => (t.description, t.postings.length)) =
          [("Somecompany Inc.".toList, 8), ("Othercompany Ltd.".toList, 8)])
      | .error _ => false) = true := by decide +kernel
    split at h
    · rename_i imp e
      exact ⟨imp, e, of_decide_eq_true h⟩
    · cases h
  · have h : ∀ o ∈ Ex.paypalRows, ∀ row ∈ o, ∀ f ∈ row, '\n' ∉ f := by decide +kernel
    exact fun row hr => h _ hr row rfl

end PaypalCsv
end Verif
