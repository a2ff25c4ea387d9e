import Verif.Spec.Session
import Verif.Props.MergeAgain
import Verif.Props.KeepTags
import Verif.Props.FpGen
import Verif.Props.Crash
import Verif.Props.Rules
import Verif.Props.ImportFiles

/-!
# Lemmas about sessions
-/

namespace Verif
open Spec Spec.Book Comment

/-! ### Comments stay well formed -/

theorem parsed_absorb {d s : PostingInternal} (hd : Parsed d.comment) (hs : Parsed s.comment) : Parsed (absorb d s).comment where
  tags := by
    intro t ht
    have ht : t ∈ tagsOf (absorb d s) := ht
    rw [mem_tags_absorb] at ht
    split at ht
    · exact hd.tags t ht.1
    · rcases ht with ht | ht
      · exact hd.tags t ht
      · exact hs.tags t ht
  keys := by
    intro k v hv
    simp only [absorb, Std.ExtTreeMap.getElem?_union] at hv
    cases hk : s.comment.valueTags[k]? with
    | some v' =>
      rw [hk] at hv
      simp only [Option.some_or, Option.some.injEq] at hv
      exact hs.keys k v (by rw [hk, hv])
    | none =>
      rw [hk] at hv
      exact hd.keys k v hv
  lines := by
    intro l hl
    simp only [absorb, List.mem_append, List.mem_eraseDups, List.mem_filter] at hl
    rcases hl with hl | hl
    · exact hd.lines l hl
    · exact hs.lines l hl.1

theorem parsed_ofTransaction (t : Transaction) : ∀ p ∈ (TransactionPostings.ofTransaction t).posts, Parsed p.comment := by
  intro p hp
  obtain ⟨q, _, rfl⟩ := List.mem_map.1 (show p ∈ t.postings.map PostingInternal.ofPosting from hp)
  exact C28_parts q.comment

theorem parsed_fromLedger {L : Ledger} {ts : List TransactionPostings} (h : TransactionPostings.fromLedger L = some ts) :
    ∀ t ∈ ts, ∀ p ∈ t.posts, Parsed p.comment := by
  rw [C62_read] at h
  split at h
  · cases h
  · cases h
    intro t ht
    obtain ⟨u, _, rfl⟩ := List.mem_map.1 ht
    exact parsed_ofTransaction u

theorem parsed_inputs {sys : Sys} {again : Bool} {fs : List FileSpec} {gs : List (List TransactionPostings)}
    (h : mergeInputs sys again fs = some gs) : ∀ g ∈ gs, ∀ t ∈ g, ∀ p ∈ t.posts, Parsed p.comment := by
  intro g hg t ht
  obtain ⟨f, _, b, L, ts, _, h2, u, hu, h3, _⟩ := C25_source_names h g hg t ht
  rw [h3]
  exact parsed_fromLedger h2 u hu

/-! ### Printing and parsing -/

theorem Spec.StaysTogether.refl (T : TransactionPostings) : StaysTogether T T := fun p hp => ⟨p, hp, fun _ h _ => h⟩

theorem Spec.StaysTogether.trans {T U V : TransactionPostings} (h : StaysTogether T U) (h' : StaysTogether U V) : StaysTogether T V := by
  intro p hp
  obtain ⟨q, hq, h1⟩ := h p hp
  obtain ⟨r, hr, h2⟩ := h' q hq
  exact ⟨r, hr, fun t ht hne => h2 t (h1 t ht hne) hne⟩

theorem Spec.StaysTogether.nonempty {T U : TransactionPostings} (h : StaysTogether T U) (hT : T.posts ≠ []) : U.posts ≠ [] := by
  obtain ⟨p, hp⟩ := List.exists_mem_of_ne_nil _ hT
  obtain ⟨q, hq, _⟩ := h p hp
  exact List.ne_nil_of_mem hq

theorem Spec.KeepsTags.refl (sys : Sys) (n : Nat) (files : Nat → Option Bytes) : KeepsTags sys n files files :=
  fun ts h => ⟨ts, h, fun T hT _ => ⟨T, hT, .refl T⟩⟩

theorem Spec.KeepsTags.trans {sys : Sys} {n : Nat} {a b c : Nat → Option Bytes} (h : KeepsTags sys n a b) (h' : KeepsTags sys n b c) :
    KeepsTags sys n a c := by
  intro ts hts
  obtain ⟨us, hus, h1⟩ := h ts hts
  obtain ⟨vs, hvs, h2⟩ := h' us hus
  refine ⟨vs, hvs, fun T hT hne => ?_⟩
  obtain ⟨U, hU, h3⟩ := h1 T hT hne
  obtain ⟨V, hV, h4⟩ := h2 U hU (h3.nonempty hne)
  exact ⟨V, hV, h3.trans h4⟩

theorem Spec.KeepsTags.of_eq {sys : Sys} {n : Nat} {a b : Nat → Option Bytes} (h : b n = a n) : KeepsTags sys n a b := by
  intro ts hts
  refine ⟨ts, ?_, fun T hT _ => ⟨T, hT, .refl T⟩⟩
  unfold readable at hts ⊢
  rw [h]; exact hts

/-- Transactions with the same comments on their postings have the same tags on them. -/
theorem staysTogether_of_comments {t t' : Transaction} (h : t'.postings.map (·.comment) = t.postings.map (·.comment)) :
    StaysTogether (.ofTransaction t) (.ofTransaction t') := by
  intro p hp
  obtain ⟨q, hq, rfl⟩ := List.mem_map.1 (show p ∈ t.postings.map PostingInternal.ofPosting from hp)
  have : q.comment ∈ t'.postings.map (·.comment) := by rw [h]; exact List.mem_map_of_mem hq
  obtain ⟨q', hq', e⟩ := List.mem_map.1 this
  refine ⟨PostingInternal.ofPosting q', List.mem_map_of_mem (f := PostingInternal.ofPosting) hq', fun tag ht _ => ?_⟩
  have e' : (PostingInternal.ofPosting q').comment = (PostingInternal.ofPosting q).comment := by
    show fromOptComment q'.comment = fromOptComment q.comment
    rw [e]
  unfold tagsOf at ht ⊢
  rw [e']; exact ht

/-- The transactions of a printed ledger can be read with their tags. -/
theorem comesBack {sys : Sys} {L : Ledger} (h : CommentsComeBack sys L) :
    ∃ L', sys.parse (sys.render L) = some L' ∧ ∀ t ∈ transactionsOf L.items, ∃ T' ∈ (transactionsOf L'.items).map TransactionPostings.ofTransaction,
      StaysTogether (.ofTransaction t) T' := by
  obtain ⟨L', h1, h2⟩ := h
  refine ⟨L', h1, fun t ht => ?_⟩
  have : t.postings.map (·.comment) ∈ postingComments L' := by
    rw [h2]; exact List.mem_map_of_mem (f := fun t : Transaction => t.postings.map (·.comment)) ht
  obtain ⟨t', ht', e⟩ := List.mem_map.1 this
  exact ⟨_, List.mem_map_of_mem ht', staysTogether_of_comments e⟩

theorem comesBack_into {sys : Sys} {h : HashOrder} {ts : List TransactionPostings} (hb : CommentsComeBack sys (TransactionPostings.intoLedger h ts))
    (hp : ∀ t ∈ ts, ∀ p ∈ t.posts, Parsed p.comment) :
    ∃ L', sys.parse (sys.render (TransactionPostings.intoLedger h ts)) = some L' ∧
      ∀ t ∈ ts, ∃ T' ∈ (transactionsOf L'.items).map TransactionPostings.ofTransaction, StaysTogether t T' := by
  obtain ⟨L', h1, h2⟩ := comesBack hb
  refine ⟨L', h1, fun t ht => ?_⟩
  obtain ⟨T', hT', h3⟩ := h2 (t.intoTransaction h) (by rw [(C62_write h ts).1]; exact List.mem_map_of_mem ht)
  refine ⟨T', hT', StaysTogether.trans ?_ h3⟩
  rw [ofTransaction_intoTransaction]
  intro p hpm
  exact ⟨rereadPost h p, List.mem_map_of_mem (f := rereadPost h) hpm, fun tag htag _ => (hp t ht p hpm).keeps h tag htag⟩

/-! ### Rewriting files -/

theorem readable_ledger {sys : Sys} {files : Nat → Option Bytes} {again : Bool} {f : FileSpec} {n : Nat} (hf : fileOf sys f = some n) {L : Ledger}
    (h : ledgerAt sys files again f = some L) :
    readable sys files n = some ((transactionsOf L.items).map TransactionPostings.ofTransaction) ∧ ∃ text, sys.parse text = some L := by
  unfold ledgerAt at h
  rw [hf] at h
  simp only at h
  refine ⟨by unfold readable; rw [h]; rfl, ?_⟩
  obtain ⟨text, _, ht⟩ := Option.bind_eq_some_iff.1 h
  exact ⟨text, ht⟩

theorem readable_written {sys : Sys} {files : Nat → Option Bytes} {n : Nat} {text : Str} (h : files n = some (encodeUtf8 text)) :
    readable sys files n = (sys.parse text).map fun L => (transactionsOf L.items).map TransactionPostings.ofTransaction := by
  unfold readable
  rw [h, Option.bind_some, decode_encode, Option.bind_some]

theorem rewritten_keeps {sys : Sys} {T : Ledger → Str → Prop} {again again' : Bool} {log log' : List Eff} {fs : List FileSpec} {n : Nat}
    (h : Rewritten sys T again log fs again' log')
    (hT : ∀ src L text, sys.parse src = some L → T L text → ∃ L', sys.parse text = some L' ∧ ∀ t ∈ transactionsOf L.items,
      ∃ T' ∈ (transactionsOf L'.items).map TransactionPostings.ofTransaction, StaysTogether (.ofTransaction t) T') :
    KeepsTags sys n (contentsAfter sys.start log) (contentsAfter sys.start log') := by
  induction h with
  | nil => exact Spec.KeepsTags.refl _ _ _
  | @cons again log f fs L text again' log' h1 h2 h3 ih =>
    refine KeepsTags.trans ?_ ih
    rw [contentsAfter_append]
    by_cases hf : fileOf sys f = some n
    · obtain ⟨hr, src, hsrc⟩ := readable_ledger hf h1
      obtain ⟨L', hL', hk⟩ := hT src L text hsrc h2
      intro ts hts
      rw [hr] at hts
      cases hts
      refine ⟨(transactionsOf L'.items).map TransactionPostings.ofTransaction, ?_, ?_⟩
      · rw [readable_written (text := text) (by rw [contentsAfter_whole, if_pos hf]), hL']; rfl
      · intro X hX _
        obtain ⟨t, ht, rfl⟩ := List.mem_map.1 hX
        exact hk t ht
    · apply KeepsTags.of_eq
      rw [contentsAfter_whole, if_neg hf]

theorem rewrittenInOrder_keeps {sys : Sys} {T : Ledger → Str → Prop} {log : List Eff} {fs : List FileSpec} {n : Nat} {r : Except CmdErr Unit}
    (h : RewrittenInOrder sys T false [] fs r log) (hr : r ≠ .error .write)
    (hT : ∀ src L text, sys.parse src = some L → T L text → ∃ L', sys.parse text = some L' ∧ ∀ t ∈ transactionsOf L.items,
      ∃ T' ∈ (transactionsOf L'.items).map TransactionPostings.ofTransaction, StaysTogether (.ofTransaction t) T') :
    KeepsTags sys n sys.start (contentsAfter sys.start log) := by
  cases r with
  | ok _ =>
    obtain ⟨_, h⟩ := h
    exact rewritten_keeps h hT
  | error e =>
    obtain ⟨done, f, rest, again', mid, rfl, h, h'⟩ := h
    rcases h' with ⟨_, rfl⟩ | ⟨rfl, _⟩
    · exact rewritten_keeps h hT
    · exact absurd rfl hr

theorem fmtText_keeps {sys : Sys} (hb : ∀ text L, sys.parse text = some L → CommentsComeBack sys L) (src : Str) (L : Ledger) (text : Str)
    (hs : sys.parse src = some L) (ht : FmtText sys L text) : ∃ L', sys.parse text = some L' ∧ ∀ t ∈ transactionsOf L.items,
      ∃ T' ∈ (transactionsOf L'.items).map TransactionPostings.ofTransaction, StaysTogether (.ofTransaction t) T' := by
  cases ht
  exact comesBack (hb src L hs)

/-- Adding fingerprints keeps all tags, and the comments well formed. -/
theorem updatePosts_keeps {random : Nat → Str} (hr : ∀ k, ∀ c ∈ random k, c ≠ ':' ∧ c ≠ ' ' ∧ c ≠ '\n') (n : Nat) (ps : List PostingInternal)
    (hp : ∀ p ∈ ps, Parsed p.comment) :
    List.Forall₂ (fun p p' => (∀ t ∈ tagsOf p, t ∈ tagsOf p') ∧ Parsed p'.comment) ps (FpGen.updatePosts random n ps).2 := by
  induction ps generalizing n with
  | nil => exact .nil
  | cons p ps ih =>
    have hps : ∀ p ∈ ps, Parsed p.comment := fun q hq => hp q (List.mem_cons_of_mem _ hq)
    have h0 := hp p (by simp)
    unfold FpGen.updatePosts
    split
    · refine .cons ⟨fun t ht => ?_, ⟨fun t ht => ?_, h0.keys, h0.lines⟩⟩ (ih _ hps)
      · exact Std.ExtTreeSet.mem_insert.2 (.inr ht)
      · rcases Std.ExtTreeSet.mem_insert.1 ht with e | ht
        · rw [Std.LawfulEqOrd.compare_eq_iff_eq] at e
          have hall : ∀ c ∈ t, c ≠ ':' ∧ c ≠ ' ' ∧ c ≠ '\n' := by
            rw [← e]
            intro c hc
            rcases List.mem_append.1 hc with hc | hc
            · have hpre : ∀ c ∈ Tags.fingerprintPrefix ++ "uuidb64-".toList, c ≠ ':' ∧ c ≠ ' ' ∧ c ≠ '\n' := by decide
              exact hpre c hc
            · exact hr n c hc
          have hne : t ≠ [] := by rw [← e]; simp [Tags.fingerprintPrefix]
          exact ⟨⟨hne, fun hc => (hall _ hc).1 rfl, fun hc => (hall _ hc).2.1 rfl⟩, fun hc => (hall _ hc).2.2 rfl⟩
        · exact h0.tags t ht
    · exact .cons ⟨fun _ h => h, h0⟩ (ih _ hps)

theorem updateTransactions_keeps {random : Nat → Str} (hr : ∀ k, ∀ c ∈ random k, c ≠ ':' ∧ c ≠ ' ' ∧ c ≠ '\n') (n : Nat)
    (ts : List TransactionPostings) (hp : ∀ t ∈ ts, ∀ p ∈ t.posts, Parsed p.comment) :
    List.Forall₂ (fun t t' => StaysTogether t t' ∧ ∀ p ∈ t'.posts, Parsed p.comment) ts (FpGen.updateTransactions random n ts).2 := by
  induction ts generalizing n with
  | nil => exact .nil
  | cons t ts ih =>
    unfold FpGen.updateTransactions
    have h := updatePosts_keeps hr n t.posts (hp t (by simp))
    refine .cons ⟨fun p hpm => ?_, fun p' hp' => ?_⟩ (ih _ fun t ht => hp t (List.mem_cons_of_mem _ ht))
    · obtain ⟨p', hp', h1, _⟩ := forall₂_mem_left h hpm
      exact ⟨p', hp', fun t ht _ => h1 t ht⟩
    · obtain ⟨_, _, h1⟩ := forall₂_mem_right h hp'
      exact h1.2

theorem fpGenText_keeps {sys : Sys} {h : HashOrder} (hr : ∀ k, ∀ c ∈ sys.random k, c ≠ ':' ∧ c ≠ ' ' ∧ c ≠ '\n')
    (hb : ∀ text L ts k, sys.parse text = some L → TransactionPostings.fromLedger L = some ts →
      CommentsComeBack sys (TransactionPostings.intoLedger HashOrder.sorted (FpGen.updateTransactions sys.random k ts).2))
    (src : Str) (L : Ledger) (text : Str) (hs : sys.parse src = some L) (ht : FpGenText sys h L text) :
    ∃ L', sys.parse text = some L' ∧ ∀ t ∈ transactionsOf L.items,
      ∃ T' ∈ (transactionsOf L'.items).map TransactionPostings.ofTransaction, StaysTogether (.ofTransaction t) T' := by
  obtain ⟨ts, n, h1, rfl⟩ := ht
  have hk := updateTransactions_keeps hr n ts (parsed_fromLedger h1)
  rw [intoLedger_order h HashOrder.sorted]
  obtain ⟨L', h2, h3⟩ := comesBack_into (hb src L ts n hs h1) (fun t ht => (forall₂_mem_right hk ht).choose_spec.2.2)
  refine ⟨L', h2, fun t ht => ?_⟩
  rw [C62_read] at h1
  split at h1
  · cases h1
  · cases h1
    obtain ⟨t', ht', h4, _⟩ := forall₂_mem_left hk (List.mem_map_of_mem ht)
    obtain ⟨T', hT', h5⟩ := h3 t' ht'
    exact ⟨T', hT', h4.trans h5⟩

/-! ### Merging -/

/-- Where a decided transaction ends up: its postings are in one transaction, with all their tags. -/
theorem Good.landsTags {J : Book} {ts : List TransactionPostings} (hg : Good J ts) {t : TransactionPostings} (ht : t ∈ ts)
    (hu : ¬ Undecided J t) : ∃ k, ∀ p ∈ t.posts, ∃ (i : Nat) (r : Rec), (J.after ts).recs[i]? = some r ∧ r.trn = k ∧
      ∀ x ∈ tagsOf p, x ≠ unknownTag → x ∈ tagsOf r.post := by
  obtain ⟨c, hc⟩ := news_of_mem (J := J) J.hdrs.length ht hu
  refine ⟨J.home c t, ?_⟩
  intro p hp
  cases hv : J.verdict (dateOf t) p with
  | into i =>
    have hi := verdict_into_lt hv
    refine ⟨i, _, after_old J ts hi, ?_, ?_⟩
    · have := hg.home_eq ht hu (mem_dests.2 ⟨p, hp, hv⟩) c
      simp only [trnOf, List.getElem?_eq_getElem hi, Option.map_some, Option.some.injEq] at this
      exact this
    · intro x hx hne
      rcases (covers_foldl (mem_hits.2 ⟨t, ht, hu, hp, hv⟩)).tags x hx with e | e
      · exact absurd e hne
      · exact e
  | conflict => exact absurd hv (not_conflict hg ht hp)
  | ambiguous is =>
    exact absurd (Or.inr ⟨_, by unfold verdicts; exact List.mem_map.2 ⟨p, hp, rfl⟩, by rw [hv]; rfl⟩) hu
  | new =>
    have := hc p hp (by rw [hv]; rfl)
    have hm : (⟨J.home c t, dateOf t, p⟩ : Rec) ∈ (J.after ts).recs := by
      rw [after_recs]; exact List.mem_append_right _ this
    obtain ⟨i, hi⟩ := List.mem_iff_getElem?.1 hm
    exact ⟨i, _, hi, rfl, fun f hf _ => hf⟩

theorem ext_calls (J : Book) (gs : List (List TransactionPostings)) : Ext J (gs.foldl Book.after J) := by
  induction gs generalizing J with
  | nil => exact ext_refl J
  | cons g gs ih => exact (ext_after J g).trans (ih _)

theorem reached_calls {J : Book} (hr : Reached J) {gs : List (List TransactionPostings)} (hb : ¬ Refused J gs) :
    Reached (gs.foldl Book.after J) := by
  induction gs generalizing J with
  | nil => exact hr
  | cons g gs ih => exact ih (hr.after (fun h => hb (.inl h))) (fun h => hb (.inr h))

/-- A transaction that was decided in one of the merge calls is in the journal in the end. -/
theorem decided_stays {pre post : List (List TransactionPostings)} {g : List TransactionPostings}
    (hb : ¬ Refused Book.empty (pre ++ g :: post)) {t : TransactionPostings} (ht : t ∈ g) (hu : ¬ Undecided (bookAfter pre) t) :
    ∃ T ∈ (bookAfter (pre ++ g :: post)).journal, StaysTogether t T := by
  have hne : t.posts ≠ [] := fun he => hu (.inl he)
  rw [refused_append] at hb
  have hb1 : ¬ Refused Book.empty pre := fun h => hb (.inl h)
  have hb2 : ¬ (bookAfter pre).Bad g := fun h => hb (.inr (.inl h))
  have hb3 : ¬ Refused ((bookAfter pre).after g) post := fun h => hb (.inr (.inr h))
  have hr1 : Reached (bookAfter pre) := reached_calls reached_empty hb1
  have hr2 := hr1.after hb2
  have hr3 : Reached (post.foldl Book.after ((bookAfter pre).after g)) := reached_calls hr2 hb3
  have he : bookAfter (pre ++ g :: post) = post.foldl Book.after ((bookAfter pre).after g) := by
    unfold bookAfter; rw [List.foldl_append]; rfl
  obtain ⟨k, hk⟩ := (good_iff.2 hb2).landsTags ht hu
  have hx := ext_calls ((bookAfter pre).after g) post
  rw [he]
  set K := post.foldl Book.after ((bookAfter pre).after g)
  have hk' : ∀ p ∈ t.posts, ∃ r ∈ K.recs, r.trn = k ∧ ∀ x ∈ tagsOf p, x ≠ unknownTag → x ∈ tagsOf r.post := by
    intro p hp
    obtain ⟨i, r, h1, h2, h3⟩ := hk p hp
    obtain ⟨r', g1, g2, _, g3⟩ := hx.recs i r h1
    refine ⟨r', List.mem_of_getElem? g1, g2.trans h2, fun x hxm hne => ?_⟩
    rcases g3.tags x (h3 x hxm hne) with e | e
    · exact absurd e hne
    · exact e
  obtain ⟨p₀, hp₀⟩ := List.exists_mem_of_ne_nil _ hne
  obtain ⟨r₀, hr₀, hk₀, _⟩ := hk' p₀ hp₀
  have hlt : k < K.hdrs.length := hk₀ ▸ hr3.wf.owner r₀ hr₀
  refine ⟨⟨K.hdrs[k], (K.recs.filter (·.trn = k)).map (·.post)⟩, ?_, ?_⟩
  · rw [(journal_perm _).mem_iff]
    unfold Spec.Book.entries
    rw [List.mem_mapIdx]
    exact ⟨k, hlt, rfl⟩
  · intro p hp
    obtain ⟨r, hr, hrk, hf⟩ := hk' p hp
    exact ⟨r.post, List.mem_map.2 ⟨r, List.mem_filter.2 ⟨hr, by simpa using hrk⟩, rfl⟩, hf⟩

theorem leftOver_append {J : Book} {gs gs' : List (List TransactionPostings)} :
    leftOver J (gs ++ gs') = leftOver J gs ++ leftOver (gs.foldl Book.after J) gs' := by
  induction gs generalizing J with
  | nil => rfl
  | cons g gs ih =>
    show g.filter _ ++ leftOver (J.after g) (gs ++ gs') = _
    rw [ih]
    simp [leftOver]

/-- The transactions of an input file are in one of the merge calls. -/
theorem inputs_of_file {sys : Sys} {again : Bool} {fs : List FileSpec} {gs : List (List TransactionPostings)} {n : Nat}
    (h : mergeInputs sys again fs = some gs) {f : FileSpec} (hf : f ∈ fs) (hn : fileOf sys f = some n) :
    ∃ ts, readable sys sys.start n = some ts ∧ ∀ T ∈ ts, ∃ g ∈ gs, ∃ t ∈ g, t.posts = T.posts := by
  induction fs generalizing again gs with
  | nil => cases hf
  | cons f' fs ih =>
    rw [mergeInputs, Option.bind_eq_some_iff] at h
    obtain ⟨L, hL, h⟩ := h
    rw [Option.bind_eq_some_iff] at h
    obtain ⟨ts, hts, h⟩ := h
    rw [Option.map_eq_some_iff] at h
    obtain ⟨gs', h1, rfl⟩ := h
    rcases List.mem_cons.1 hf with rfl | hf
    · refine ⟨ts, ?_, ?_⟩
      · rw [(readable_ledger hn hL).1]
        rw [C62_read] at hts
        split at hts
        · cases hts
        · exact hts
      · intro T hT
        have hm := (C23_nothing_lost HashOrder.sorted (f.display sys) ts).1.mem_iff.2
          (List.mem_map_of_mem (f := sourced (f.display sys)) hT)
        obtain ⟨g, hg, ht⟩ := List.mem_flatten.1 hm
        exact ⟨g, List.mem_append_left _ hg, _, ht, rfl⟩
    · obtain ⟨us, h2, h3⟩ := ih h1 hf
      refine ⟨us, h2, fun T hT => ?_⟩
      obtain ⟨g, hg, x⟩ := h3 T hT
      exact ⟨g, List.mem_append_right _ hg, x⟩

theorem unsourced_none {t : TransactionPostings} (h : srcKey ∉ t.trn.comment.valueTags) : unsourced t = t := by
  unfold unsourced
  have : t.trn.comment.valueTags.erase srcKey = t.trn.comment.valueTags := by
    apply Std.ExtTreeMap.ext_getElem?
    intro k
    rw [Std.ExtTreeMap.getElem?_erase]
    split
    · rename_i e
      rw [Std.LawfulEqOrd.compare_eq_iff_eq] at e
      subst e
      rw [Std.ExtTreeMap.mem_iff_isSome_getElem?] at h
      cases hx : t.trn.comment.valueTags[srcKey]? with
      | none => rfl
      | some _ => rw [hx] at h; simp at h
    · rfl
  rw [this]

/-- The transactions of a file that notes no sources, as a merge call. -/
theorem groups_none {h : HashOrder} {d : Str} {ts : List TransactionPostings} (hs : ∀ t ∈ ts, srcKey ∉ t.trn.comment.valueTags) :
    Sources.groups h d ts = if ts = [] then [] else [ts.map (sourced d)] := by
  have e : ts.map unsourced = ts := by
    conv_rhs => rw [← List.map_id ts]
    apply List.map_congr_left
    intro t ht
    exact unsourced_none (hs t ht)
  have := groups_unsourced h d ts
  rw [e] at this
  rw [this]
  split
  · rfl
  · congr 1
    apply List.map_congr_left
    intro t ht
    rw [unsourced_none (hs t ht)]

/-- The merge calls when the first input is a file that notes no sources. -/
theorem inputs_first {sys : Sys} {again : Bool} {p : Str} {fs : List FileSpec} {gs : List (List TransactionPostings)}
    (h : mergeInputs sys again (.path p :: fs) = some gs)
    (hs : ∀ ts, readable sys sys.start (sys.file p) = some ts → ∀ T ∈ ts, srcKey ∉ T.trn.comment.valueTags) :
    ∃ ts gs', readable sys sys.start (sys.file p) = some ts ∧
      gs = (if ts = [] then [] else [ts.map (sourced (sys.showPath p))]) ++ gs' := by
  rw [mergeInputs, Option.bind_eq_some_iff] at h
  obtain ⟨L, hL, h⟩ := h
  rw [Option.bind_eq_some_iff] at h
  obtain ⟨ts, hts, h⟩ := h
  rw [Option.map_eq_some_iff] at h
  obtain ⟨gs', h1, rfl⟩ := h
  have hr : readable sys sys.start (sys.file p) = some ts := by
    rw [(readable_ledger (f := .path p) rfl hL).1]
    rw [C62_read] at hts
    split at hts
    · cases hts
    · exact hts
  refine ⟨ts, gs', hr, ?_⟩
  rw [groups_none (hs ts hr)]
  rfl

/-- The merge calls put the postings of the file into the journal. -/
theorem merge_keeps {sys : Sys} {args : MergeCmd.Args} {n : Nat} {gs : List (List TransactionPostings)}
    (hgs : mergeInputs sys false args.inputs = some gs) (hb : ¬ Refused Book.empty gs)
    (hl : leftOver Book.empty gs = [] ∨ args.unmerged ≠ none)
    (hin : (args.unmerged = none ∧ ∃ f ∈ args.inputs, fileOf sys f = some n) ∨
       (∃ p fs, args.inputs = .path p :: fs ∧ sys.file p = n ∧
         ∀ ts, readable sys sys.start n = some ts → ∀ T ∈ ts, srcKey ∉ T.trn.comment.valueTags)) :
    ∃ ts, readable sys sys.start n = some ts ∧ ∀ T ∈ ts, T.posts ≠ [] → ∃ U ∈ (bookAfter gs).journal.map unsourced, StaysTogether T U := by
  have key : ∀ {g t T}, g ∈ gs → t ∈ g → t.posts = T.posts → (∃ V ∈ (bookAfter gs).journal, StaysTogether t V) →
      ∃ U ∈ (bookAfter gs).journal.map unsourced, StaysTogether T U := by
    rintro g t T _ _ he ⟨V, hV, h⟩
    refine ⟨unsourced V, List.mem_map_of_mem hV, ?_⟩
    intro p hp
    exact h p (he ▸ hp)
  rcases hin with ⟨hu, f, hf, hn⟩ | ⟨p, fs, he, rfl, hs⟩
  · have hl : leftOver Book.empty gs = [] := hl.elim id fun h => absurd hu h
    obtain ⟨ts, h1, h2⟩ := inputs_of_file hgs hf hn
    refine ⟨ts, h1, fun T hT _ => ?_⟩
    obtain ⟨g, hg, t, ht, he⟩ := h2 T hT
    refine key hg ht he ?_
    obtain ⟨pre, post, rfl⟩ := List.append_of_mem hg
    refine decided_stays hb ht ?_
    rw [leftOver_append, List.append_eq_nil_iff] at hl
    exact (leftOver_cons_nil.1 hl.2).1 t ht
  · rw [he] at hgs
    obtain ⟨ts, gs', h1, h2⟩ := inputs_first hgs hs
    refine ⟨ts, h1, fun T hT hne => ?_⟩
    rw [if_neg (List.ne_nil_of_mem hT)] at h2
    have ht : sourced (sys.showPath p) T ∈ ts.map (sourced (sys.showPath p)) := List.mem_map_of_mem hT
    refine key (g := ts.map (sourced (sys.showPath p))) (by rw [h2]; simp) ht rfl ?_
    subst h2
    exact decided_stays (pre := []) hb ht (fun h => hne (empty_undecided.1 h))

theorem parsed_journal {gs : List (List TransactionPostings)} (hp : ∀ g ∈ gs, ∀ t ∈ g, ∀ p ∈ t.posts, Parsed p.comment) :
    ∀ T ∈ (bookAfter gs).journal.map unsourced, ∀ p ∈ T.posts, Parsed p.comment := by
  obtain ⟨g1, g2⟩ := holds_of_calls (A := fun _ => True) (B := fun q => Parsed q.comment) (J := Book.empty) (gs := gs)
    (fun d s hd hs => parsed_absorb hd hs) (fun g hg t ht => ⟨trivial, hp g hg t ht⟩) (by intro x hx; cases hx) (by intro r hr; cases hr)
  intro T hT
  obtain ⟨V, hV, rfl⟩ := List.mem_map.1 hT
  exact (holds_of_journal (B := fun q => Parsed q.comment) g1 g2 V hV).2

end Verif
