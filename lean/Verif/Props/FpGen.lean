import Verif.Model.Commands
import Verif.Proofs.Outcome
import Verif.Proofs.History
import Verif.Props.Convert
import Verif.Examples.Systems

/-!
# C38, C39: `generate-fingerprints`
-/

namespace Verif
open Spec Spec.Book

/-- The generated fingerprint for a random identifier. -/
def generated (s : Str) : Str := fpPrefix ++ "uuidb64-".toList ++ s

/-- `p'` is `p` with one more tag `t`. -/
structure GainsTag (t : Str) (p p' : PostingInternal) : Prop where
  raw : p'.raw = p.raw
  lines : p'.comment.lines = p.comment.lines
  valueTags : p'.comment.valueTags = p.comment.valueTags
  new : t ∉ tagsOf p
  tags : ∀ t', t' ∈ tagsOf p' ↔ t' ∈ tagsOf p ∨ t' = t

/-- The number of postings without a fingerprint. -/
def lacking (ps : List PostingInternal) : Nat := (ps.filter (fun p => fps p = [])).length

theorem any_isFingerprint (p : PostingInternal) : p.comment.tags.toList.any isFingerprint = false ↔ fps p = [] := by
  unfold fps
  simp [List.any_eq_false, isFingerprint_eq, List.filter_eq_nil_iff]

/-- The posting with a generated fingerprint. -/
def withGenerated (s : Str) (p : PostingInternal) : PostingInternal :=
  { p with comment := { p.comment with tags := p.comment.tags.insert (generated s) } }

theorem generated_fp (s : Str) : IsFp (generated s) := by
  unfold IsFp generated
  rw [List.append_assoc]
  exact List.prefix_append _ _

theorem withGenerated_gains {s : Str} {p : PostingInternal} (h : fps p = []) : GainsTag (generated s) p (withGenerated s p) := by
  refine ⟨rfl, rfl, rfl, ?_, ?_⟩
  · intro hm
    have : generated s ∈ fps p := mem_fps.2 ⟨hm, generated_fp s⟩
    rw [h] at this; cases this
  · intro t'
    unfold withGenerated tagsOf
    simp only [Std.ExtTreeSet.mem_insert, Std.LawfulEqOrd.compare_eq_iff_eq]
    tauto

/-- The postings after the update. -/
def updated (random : Nat → Str) : Nat → List PostingInternal → List PostingInternal
  | _, [] => []
  | n, p :: ps => if fps p = [] then withGenerated (random n) p :: updated random (n + 1) ps else p :: updated random n ps

theorem lacking_cons_pos {p : PostingInternal} {ps : List PostingInternal} (h : fps p = []) : lacking (p :: ps) = lacking ps + 1 := by
  unfold lacking; rw [List.filter_cons_of_pos (by simpa using h)]; rfl

theorem lacking_cons_neg {p : PostingInternal} {ps : List PostingInternal} (h : fps p ≠ []) : lacking (p :: ps) = lacking ps := by
  unfold lacking; rw [List.filter_cons_of_neg (by simpa using h)]

theorem updatePosts_eq (random : Nat → Str) (n : Nat) (ps : List PostingInternal) :
    FpGen.updatePosts random n ps = (n + lacking ps, updated random n ps) := by
  induction ps generalizing n with
  | nil => rfl
  | cons p ps ih =>
    unfold FpGen.updatePosts updated
    by_cases h : fps p = []
    · rw [if_pos (by rw [(any_isFingerprint p).2 h]; rfl), if_pos h, lacking_cons_pos h]
      simp only [ih]
      rw [Nat.add_right_comm, Nat.add_assoc n]
      rfl
    · have h' : ¬ (!p.comment.tags.toList.any isFingerprint) = true := by
        rw [Bool.not_eq_true', any_isFingerprint]; exact h
      rw [if_neg h', if_neg h, lacking_cons_neg h]
      simp only [ih]

theorem lacking_append (a b : List PostingInternal) : lacking (a ++ b) = lacking a + lacking b := by
  unfold lacking; rw [List.filter_append, List.length_append]

theorem updated_append (random : Nat → Str) (n : Nat) (a b : List PostingInternal) :
    updated random n (a ++ b) = updated random n a ++ updated random (n + lacking a) b := by
  induction a generalizing n with
  | nil => rfl
  | cons p a ih =>
    rw [List.cons_append, updated, updated]
    by_cases h : fps p = []
    · rw [if_pos h, if_pos h, ih, lacking_cons_pos h, List.cons_append]
      congr 3; omega
    · rw [if_neg h, if_neg h, ih, lacking_cons_neg h, List.cons_append]

theorem updateTransactions_spec (random : Nat → Str) (n : Nat) (ts : List TransactionPostings) :
    (FpGen.updateTransactions random n ts).1 = n + lacking (postingsOf ts) ∧
    postingsOf (FpGen.updateTransactions random n ts).2 = updated random n (postingsOf ts) ∧
    List.Forall₂ (fun t t' => t'.trn = t.trn ∧ t'.posts.length = t.posts.length) ts (FpGen.updateTransactions random n ts).2 := by
  induction ts generalizing n with
  | nil => exact ⟨rfl, rfl, .nil⟩
  | cons t ts ih =>
    unfold FpGen.updateTransactions
    rw [updatePosts_eq]
    simp only
    obtain ⟨h1, h2, h3⟩ := ih (n + lacking t.posts)
    have hlen : ∀ (m : Nat) (ps : List PostingInternal), (updated random m ps).length = ps.length := by
      intro m ps
      induction ps generalizing m with
      | nil => rfl
      | cons p ps ih => unfold updated; split <;> simp [ih]
    refine ⟨?_, ?_, .cons ⟨rfl, hlen _ _⟩ h3⟩
    · rw [h1, Nat.add_assoc, ← lacking_append]; rfl
    · change updated random n t.posts ++ postingsOf _ = updated random n (t.posts ++ postingsOf ts)
      rw [h2, updated_append]

theorem updated_getElem? (random : Nat → Str) (n : Nat) (ps : List PostingInternal) (i : Nat) :
    (updated random n ps)[i]? = (ps[i]?).map fun p =>
      if fps p = [] then withGenerated (random (n + lacking (ps.take i))) p else p := by
  induction ps generalizing n i with
  | nil => rfl
  | cons p ps ih =>
    unfold updated
    by_cases h : fps p = []
    · rw [if_pos h]
      cases i with
      | zero => simp [h, lacking]
      | succ i =>
        rw [List.getElem?_cons_succ, List.getElem?_cons_succ, ih, List.take_succ_cons, lacking_cons_pos h]
        congr 1
        funext q
        rw [show n + 1 + lacking (List.take i ps) = n + (lacking (List.take i ps) + 1) by omega]
    · rw [if_neg h]
      cases i with
      | zero => simp [h]
      | succ i => rw [List.getElem?_cons_succ, List.getElem?_cons_succ, ih, List.take_succ_cons, lacking_cons_neg h]

/-- C38: `generate-fingerprints` keeps all transactions and postings. A posting that has a fingerprint stays as it is. Any
other gains exactly one tag, a generated fingerprint; the `k`-th of these postings gets the `k`-th random value. -/
theorem C38_one_fingerprint_each (random : Nat → Str) (n : Nat) (ts : List TransactionPostings) :
    let ts' := (FpGen.updateTransactions random n ts).2
    (FpGen.updateTransactions random n ts).1 = n + lacking (postingsOf ts) ∧
    List.Forall₂ (fun t t' => t'.trn = t.trn ∧ t'.posts.length = t.posts.length) ts ts' ∧
    (∀ (i : Nat) (p : PostingInternal), (postingsOf ts)[i]? = some p → ∃ p', (postingsOf ts')[i]? = some p' ∧ fps p' ≠ [] ∧
      (fps p ≠ [] → p' = p) ∧
      (fps p = [] → GainsTag (generated (random (n + lacking ((postingsOf ts).take i)))) p p')) := by
  obtain ⟨h1, h2, h3⟩ := updateTransactions_spec random n ts
  refine ⟨h1, h3, ?_⟩
  intro i p hp
  rw [h2, updated_getElem?, hp]
  refine ⟨_, rfl, ?_, ?_, ?_⟩ <;> simp only
  · by_cases h : fps p = []
    · rw [if_pos h]
      apply List.ne_nil_of_mem (a := generated (random (n + lacking (List.take i (postingsOf ts)))))
      rw [mem_fps]
      exact ⟨((withGenerated_gains h).tags _).2 (.inr rfl), generated_fp _⟩
    · rw [if_neg h]; exact h
  · intro h; rw [if_neg h]
  · intro h; rw [if_pos h]; exact withGenerated_gains h

theorem updated_id (random : Nat → Str) (n : Nat) (ts : List TransactionPostings) (h : ∀ p ∈ postingsOf ts, fps p ≠ []) :
    FpGen.updateTransactions random n ts = (n, ts) := by
  induction ts generalizing n with
  | nil => rfl
  | cons t ts ih =>
    have h1 : ∀ p ∈ t.posts, fps p ≠ [] := fun p hp => h p (List.mem_append_left _ hp)
    have h2 : ∀ p ∈ postingsOf ts, fps p ≠ [] := fun p hp => h p (List.mem_append_right _ hp)
    have h3 : ∀ (m : Nat) (ps : List PostingInternal), (∀ p ∈ ps, fps p ≠ []) → updated random m ps = ps ∧ lacking ps = 0 := by
      intro m ps hps
      induction ps generalizing m with
      | nil => exact ⟨rfl, rfl⟩
      | cons p ps ih =>
        obtain ⟨g1, g2⟩ := ih m (fun q hq => hps q (List.mem_cons_of_mem _ hq))
        have hp := hps p (by simp)
        exact ⟨by unfold updated; rw [if_neg hp, g1], by rw [lacking_cons_neg hp, g2]⟩
    unfold FpGen.updateTransactions
    rw [updatePosts_eq]
    simp only
    obtain ⟨g1, g2⟩ := h3 n t.posts h1
    rw [g1, g2, Nat.add_zero, ih n h2]

theorem updated_has_fps (random : Nat → Str) (n : Nat) (ts : List TransactionPostings) :
    ∀ p ∈ postingsOf (FpGen.updateTransactions random n ts).2, fps p ≠ [] := by
  intro p' hp'
  obtain ⟨i, hi⟩ := List.mem_iff_getElem?.1 hp'
  obtain ⟨_, h2, _⟩ := updateTransactions_spec random n ts
  cases hp : (postingsOf ts)[i]? with
  | none => rw [h2, updated_getElem?, hp] at hi; cases hi
  | some p =>
    obtain ⟨q, hq, hne, _⟩ := (C38_one_fingerprint_each random n ts).2.2 i p hp
    rw [hi] at hq
    rw [Option.some.inj hq]; exact hne

/-- C38: a second run changes nothing and draws no random values, whatever its supply of them. -/
theorem C38_idempotent (random random' : Nat → Str) (n n' : Nat) (ts : List TransactionPostings) :
    FpGen.updateTransactions random' n' (FpGen.updateTransactions random n ts).2 =
      (n', (FpGen.updateTransactions random n ts).2) :=
  updated_id _ _ _ (updated_has_fps random n ts)

/-- Comments in normal form stay so when fingerprints are added. -/
theorem updated_tidy (random : Nat → Str) (n : Nat) (ts : List TransactionPostings) (hts : ∀ t ∈ ts, Tidy t)
    (hr : ∀ k, ∀ c ∈ random k, c ≠ ':' ∧ c ≠ ' ' ∧ c ≠ '\n') : ∀ t ∈ (FpGen.updateTransactions random n ts).2, Tidy t := by
  have hword : ∀ k, Word (generated (random k)) ∧ '\n' ∉ generated (random k) := by
    intro k
    have hpre : ∀ c ∈ fpPrefix ++ "uuidb64-".toList, c ≠ ':' ∧ c ≠ ' ' ∧ c ≠ '\n' := by decide
    have hall : ∀ c ∈ generated (random k), c ≠ ':' ∧ c ≠ ' ' ∧ c ≠ '\n' := by
      intro c hc
      rcases List.mem_append.1 hc with hc | hc
      · exact hpre c hc
      · exact hr k c hc
    refine ⟨⟨?_, ?_, ?_⟩, fun hc => (hall _ hc).2.2 rfl⟩
    · unfold generated fpPrefix; simp
    · exact fun hc => (hall _ hc).1 rfl
    · exact fun hc => (hall _ hc).2.1 rfl
  have hnorm : ∀ k p, Normal p.comment → Normal (withGenerated (random k) p).comment := by
    intro k p hp
    refine ⟨?_, hp.keys, hp.values, hp.lines, ?_⟩
    · intro t ht
      have : t ∈ p.comment.tags ∨ t = generated (random k) := by
        unfold withGenerated at ht
        simp only [Std.ExtTreeSet.mem_insert, Std.LawfulEqOrd.compare_eq_iff_eq] at ht
        rcases ht with ht | ht
        · exact .inr ht.symm
        · exact .inl ht
      rcases this with ht | rfl
      · exact hp.tags t ht
      · exact hword k
    · have hne : (withGenerated (random k) p).comment.tags.isEmpty = false := by
        unfold withGenerated; simp
      rw [hne]
      intro l hl
      apply hp.notValue l
      split
      · exact List.mem_of_mem_tail hl
      · exact hl
  have hup : ∀ (m : Nat) (ps : List PostingInternal), (∀ p ∈ ps, p.raw.comment = none ∧ Normal p.comment) →
      ∀ p ∈ updated random m ps, p.raw.comment = none ∧ Normal p.comment := by
    intro m ps hps
    induction ps generalizing m with
    | nil => intro p hp; cases hp
    | cons q ps ih =>
      intro p hp
      unfold updated at hp
      have hq := hps q (by simp)
      split at hp
      · rcases List.mem_cons.1 hp with rfl | hp
        · exact ⟨hq.1, hnorm _ _ hq.2⟩
        · exact ih _ (fun q hq => hps q (List.mem_cons_of_mem _ hq)) p hp
      · rcases List.mem_cons.1 hp with rfl | hp
        · exact hq
        · exact ih _ (fun q hq => hps q (List.mem_cons_of_mem _ hq)) p hp
  induction ts generalizing n with
  | nil => intro t ht; cases ht
  | cons t ts ih =>
    intro t' ht'
    unfold FpGen.updateTransactions at ht'
    rw [updatePosts_eq] at ht'
    simp only at ht'
    rcases List.mem_cons.1 ht' with rfl | ht'
    · have h0 := hts t (by simp)
      have h1 := hup n t.posts (fun p hp => ⟨h0.postComment p hp, h0.post p hp⟩)
      exact ⟨h0.trnComment, h0.trnPostings, h0.trn, fun p hp => (h1 p hp).1, fun p hp => (h1 p hp).2⟩
    · exact ih _ (fun t ht => hts t (List.mem_cons_of_mem _ ht)) t' ht'

/-- C38 for files: if the comments of a journal are in normal form and the random values are words, then a second run on
the ledger that the first one writes writes the same ledger. (Without normal form the comments may change, see C27.) -/
theorem C38_second_run_writes_the_same (h h' : HashOrder) (random random' : Nat → Str) (n n' : Nat) (ts : List TransactionPostings)
    (hts : ∀ t ∈ ts, Tidy t) (hr : ∀ k, ∀ c ∈ random k, c ≠ ':' ∧ c ≠ ' ' ∧ c ≠ '\n') :
    ∃ ts'', TransactionPostings.fromLedger (TransactionPostings.intoLedger h (FpGen.updateTransactions random n ts).2) = some ts'' ∧
      TransactionPostings.intoLedger h' (FpGen.updateTransactions random' n' ts'').2 =
        TransactionPostings.intoLedger h' (FpGen.updateTransactions random n ts).2 := by
  refine ⟨_, C62_round_trip h _ (updated_tidy random n ts hts hr), by rw [C38_idempotent]⟩

/-! ## C39 -/

/-- Distinct random values, none of which is already used in a fingerprint. -/
structure GoodSupply (random : Nat → Str) (n : Nat) (ts : List TransactionPostings) : Prop where
  distinct : ∀ i j, random i = random j → i = j
  fresh : ∀ i ≥ n, ∀ p ∈ postingsOf ts, generated (random i) ∉ tagsOf p

theorem generated_inj {a b : Str} (h : generated a = generated b) : a = b := List.append_cancel_left h

/-- C39: a journal without candidate tags and without duplicate fingerprints, once it has been through
`generate-fingerprints` with a good supply of random values, can be merged into an empty merger; only
transactions without postings are left. -/
theorem C39_mergeable (h : HashOrder) (random : Nat → Str) (n : Nat) (ts : List TransactionPostings)
    (hc : ∀ p ∈ postingsOf ts, ∀ t ∈ tagsOf p, ¬ IsCand t)
    (hd : (postingsOf ts).Pairwise (fun p q => ¬ SharesFp p q))
    (hr : GoodSupply random n ts) :
    ∃ u, (Merger.new.merge h (FpGen.updateTransactions random n ts).2).1 = .ok u ∧ ∀ t ∈ u, t.posts = [] := by
  have h2 := (updateTransactions_spec random n ts).2.1
  have hfp := updated_has_fps random n ts
  set ts' := (FpGen.updateTransactions random n ts).2
  have hv : ∀ d p, Book.empty.verdict d p = .new := by
    intro d p; rfl
  have hvs : ∀ t : TransactionPostings, Book.empty.verdicts t = t.posts.map (fun _ => Verdict.new) := fun t => rfl
  have hds : ∀ t : TransactionPostings, Book.empty.dests t = [] := by
    intro t
    unfold dests
    rw [hvs, List.filterMap_map]
    apply List.filterMap_eq_nil_iff.2
    intro _ _; rfl
  have hund : ∀ t : TransactionPostings, Undecided Book.empty t → t.posts = [] := by
    rintro t (h | ⟨v, hv, ha⟩)
    · exact h
    · rw [hvs] at hv
      obtain ⟨_, _, rfl⟩ := List.mem_map.1 hv
      cases ha
  have htags : ∀ (m : Nat) (ps : List PostingInternal), ∀ p' ∈ updated random m ps, ∃ p ∈ ps, ∀ t ∈ tagsOf p', t ∈ tagsOf p ∨
      (fps p = [] ∧ ∃ k ≥ m, t = generated (random k)) := by
    intro m ps
    induction ps generalizing m with
    | nil => intro p hp; cases hp
    | cons q ps ih =>
      intro p hp
      unfold updated at hp
      split at hp
      · rename_i hq
        rcases List.mem_cons.1 hp with rfl | hp
        · refine ⟨q, by simp, fun t ht => ?_⟩
          rcases ((withGenerated_gains hq).tags t).1 ht with h | h
          · exact .inl h
          · exact .inr ⟨hq, m, Nat.le_refl m, h⟩
        · obtain ⟨p0, hp0, h0⟩ := ih _ p hp
          refine ⟨p0, List.mem_cons_of_mem _ hp0, fun t ht => ?_⟩
          rcases h0 t ht with h | ⟨h, k, hk, h'⟩
          · exact .inl h
          · exact .inr ⟨h, k, by omega, h'⟩
      · rcases List.mem_cons.1 hp with rfl | hp
        · exact ⟨p, by simp, fun t ht => .inl ht⟩
        · obtain ⟨p0, hp0, h0⟩ := ih _ p hp
          exact ⟨p0, List.mem_cons_of_mem _ hp0, h0⟩
  have hnb : ¬ Book.empty.Bad ts' := by
    rintro (⟨p', hp', t, ht, htc⟩ | ⟨p', hp', hne⟩ | hdup | ⟨t, _, hcf⟩ | ⟨t, _, _, i, hi, _⟩ | hsd)
    · change p' ∈ postingsOf ts' at hp'
      rw [h2] at hp'
      obtain ⟨p, hp, h0⟩ := htags _ _ p' hp'
      rcases h0 t ht with h | ⟨_, k, _, rfl⟩
      · exact hc p hp t h htc
      · have h1 := generated_fp (random k)
        have : fpPrefix.head? = candPrefix.head? := by
          obtain ⟨a, ha⟩ := h1
          obtain ⟨b, hb⟩ := htc
          have := congrArg List.head? (ha.trans hb.symm)
          rw [List.head?_append_of_ne_nil _ (by decide), List.head?_append_of_ne_nil _ (by decide)] at this
          exact this
        revert this; decide
    · exact hfp p' hp' hne
    · apply hdup
      change (postingsOf ts').Pairwise _
      rw [h2]
      have hfresh := hr.fresh
      have hdistinct := hr.distinct
      clear h2 hfp hc hvs hds hund hdup hr
      clear_value ts'
      generalize postingsOf ts = ps at hd hfresh ⊢
      induction ps generalizing n with
      | nil => exact .nil
      | cons q ps ih =>
        rw [List.pairwise_cons] at hd
        have hrest : ∀ m ≥ n, (updated random m ps).Pairwise (fun p q => ¬ SharesFp p q) := by
          intro m hm
          exact ih m hd.2
            (fun i hi p hp => hfresh i (by omega) p (List.mem_cons_of_mem _ hp))
        unfold updated
        split
        · rename_i hq
          rw [List.pairwise_cons]
          refine ⟨?_, hrest (n + 1) (by omega)⟩
          rintro p' hp' ⟨f, hf1, hf2⟩
          obtain ⟨p, hp, h0⟩ := htags _ _ p' hp'
          obtain ⟨hf1, hfp1⟩ := mem_fps.1 hf1
          have hfe : f = generated (random n) := by
            rcases ((withGenerated_gains hq).tags f).1 hf1 with h | h
            · have : f ∈ fps q := mem_fps.2 ⟨h, hfp1⟩
              rw [hq] at this; cases this
            · exact h
          rcases h0 f (mem_fps.1 hf2).1 with h | ⟨_, k, hk, h⟩
          · rw [hfe] at h
            exact hfresh n (Nat.le_refl n) p (List.mem_cons_of_mem _ hp) h
          · rw [hfe] at h
            have := hdistinct _ _ (generated_inj h)
            omega
        · rename_i hq
          rw [List.pairwise_cons]
          refine ⟨?_, hrest n (Nat.le_refl n)⟩
          rintro p' hp' ⟨f, hf1, hf2⟩
          obtain ⟨p, hp, h0⟩ := htags _ _ p' hp'
          rcases h0 f (mem_fps.1 hf2).1 with h | ⟨_, k, hk, h⟩
          · exact hd.1 p hp ⟨f, hf1, mem_fps.2 ⟨h, (mem_fps.1 hf2).2⟩⟩
          · rw [h] at hf1
            exact hfresh k hk q (by simp) (mem_fps.1 hf1).1
    · rw [hvs] at hcf
      obtain ⟨_, _, h⟩ := List.mem_map.1 hcf
      cases h
    · rw [hds] at hi; cases hi
    · apply hsd
      have : Book.empty.allDests ts' = [] := by
        unfold allDests
        rw [List.flatMap_eq_nil_iff]
        intro t _; exact hds t
      rw [this]; exact List.nodup_nil
  obtain ⟨m', he, _⟩ := merge_of_not_bad R_new h hnb
  refine ⟨_, by rw [he], ?_⟩
  intro t ht
  unfold handedBack at ht
  obtain ⟨t0, ht0, rfl⟩ := List.mem_map.1 ht
  have := hund t0 (by simpa using (List.mem_filter.1 ht0).2)
  unfold handBack
  rw [this]; rfl

/-! A journal with three postings of which two lack a fingerprint, and a supply of random values. -/

/-- The journal. -/
def lackingJournal : List TransactionPostings :=
  [Ex.trn 4 "none" [Ex.post "expenses" 150 [], Ex.post "bank" (-150) ["fp-n1"], Ex.post "fee" 1 []]]

/-- Random values: `x`, `xx`, `xxx`, … -/
def growing (n : Nat) : Str := List.replicate (n + 1) 'x'

set_option maxRecDepth 100000 in
theorem lackingJournal_ok : (∀ p ∈ postingsOf lackingJournal, ∀ t ∈ tagsOf p, ¬ IsCand t) ∧
    (postingsOf lackingJournal).Pairwise (fun p q => ¬ SharesFp p q) ∧ GoodSupply growing 0 lackingJournal := by
  have h1 : ∀ p ∈ postingsOf lackingJournal, ∀ t ∈ (tagsOf p).toList, ¬ IsCand t ∧ t.length < 6 := by decide +kernel
  refine ⟨fun p hp t ht => (h1 p hp t (Std.ExtTreeSet.mem_toList.2 ht)).1, by decide +kernel, ?_, ?_⟩
  · intro i j h
    have := congrArg List.length h
    simpa [growing] using this
  · intro i _ p hp hm
    have := (h1 p hp _ (Std.ExtTreeSet.mem_toList.2 hm)).2
    unfold generated at this
    rw [List.length_append, show (fpPrefix ++ "uuidb64-".toList).length = 11 from by decide] at this
    omega

set_option maxRecDepth 100000 in
example : (postingsOf (FpGen.updateTransactions growing 0 lackingJournal).2).map (fun p => (tagsOf p).toList) =
    [["fp-uuidb64-x".toList], ["fp-n1".toList], ["fp-uuidb64-xx".toList]] := by decide +kernel

example (h : HashOrder) : ∃ u, (Merger.new.merge h (FpGen.updateTransactions growing 0 lackingJournal).2).1 = .ok u :=
  let ⟨u, hu, _⟩ := C39_mergeable h growing 0 lackingJournal lackingJournal_ok.1 lackingJournal_ok.2.1 lackingJournal_ok.2.2
  ⟨u, hu⟩

/-- The transaction with comments in normal form meets the hypotheses of `C38_second_run_writes_the_same`. -/
example : (∀ t ∈ [commented], Tidy t) ∧ ∀ k, ∀ c ∈ growing k, c ≠ ':' ∧ c ≠ ' ' ∧ c ≠ '\n' := by
  refine ⟨?_, ?_⟩
  · intro t ht; rw [List.mem_singleton] at ht; subst ht; exact commented_tidy
  · intro k c hc
    rw [List.eq_of_mem_replicate hc]; decide

end Verif
