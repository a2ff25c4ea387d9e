import Verif.Props.Session

/-!
# C85: journals only grow

Through any session in which the journal comes first, every transaction of the journal is kept.
-/

namespace Verif
open Spec Spec.Book Comment

theorem Spec.KeptPosting.refl (p : PostingInternal) : KeptPosting p p :=
  ⟨rfl, rfl, .inr rfl, .inl rfl, .inl rfl, id, fun _ h => .inr h⟩

theorem Spec.KeptPosting.trans {p q r : PostingInternal} (h : KeptPosting p q) (h' : KeptPosting q r) : KeptPosting p r where
  amount := h'.amount.trans h.amount
  reality := h'.reality.trans h.reality
  balance := by
    rcases h.balance with e | e
    · exact .inl e
    · rcases h'.balance with e' | e'
      · exact .inl (e ▸ e')
      · exact .inr (e'.trans e)
  status := by
    rcases h.status with e | e | ⟨e1, e2⟩
    · rw [← e]; exact h'.status
    · exact .inr (.inl e)
    · rcases h'.status with e' | e' | ⟨e', _⟩
      · exact .inr (.inr ⟨e1, e'.trans e2⟩)
      · rw [e2] at e'; cases e'
      · rw [e2] at e'; cases e'
  account := by
    rcases h.account with e | e
    · rcases h'.account with e' | e'
      · exact .inl (e'.trans e)
      · exact .inr (h.unknown e')
    · exact .inr e
  unknown := fun e => h.unknown (h'.unknown e)
  tags := by
    intro t ht
    rcases h.tags t ht with e | e
    · exact .inl e
    · exact h'.tags t e

theorem Spec.Grown.kept {p q : PostingInternal} (h : Grown p q) : KeptPosting p q :=
  ⟨h.amount, h.reality, h.balance, h.status, h.account, h.unknown, h.tags⟩

theorem forall₂_refl' {α : Type} {R : α → α → Prop} (h : ∀ a, R a a) (l : List α) : List.Forall₂ R l l := by
  induction l with
  | nil => exact .nil
  | cons a l ih => exact .cons (h a) ih

theorem forall₂_trans' {α : Type} (R : α → α → Prop) (hR : ∀ a b c, R a b → R b c → R a c) {l m k : List α}
    (h : List.Forall₂ R l m) (h' : List.Forall₂ R m k) : List.Forall₂ R l k := by
  induction h generalizing k with
  | nil => cases h'; exact .nil
  | cons r _ ih => cases h' with | cons s h' => exact .cons (hR _ _ _ r s) (ih h')

theorem forall₂_append_split {α β : Type} {R : α → β → Prop} {a b : List α} {c : List β} (h : List.Forall₂ R (a ++ b) c) :
    ∃ c₁ c₂, c = c₁ ++ c₂ ∧ List.Forall₂ R a c₁ ∧ List.Forall₂ R b c₂ := by
  induction a generalizing c with
  | nil => exact ⟨[], c, rfl, .nil, h⟩
  | cons x a ih =>
    cases h with
    | cons hx h =>
      obtain ⟨c₁, c₂, rfl, h1, h2⟩ := ih h
      exact ⟨_ :: c₁, c₂, rfl, .cons hx h1, h2⟩

theorem Spec.KeptTransaction.refl (T : TransactionPostings) : KeptTransaction T T :=
  ⟨rfl, T.posts, [], by simp, forall₂_refl' KeptPosting.refl _⟩

theorem Spec.KeptTransaction.trans {T U V : TransactionPostings} (h : KeptTransaction T U) (h' : KeptTransaction U V) : KeptTransaction T V := by
  obtain ⟨e, old, new, h1, h2⟩ := h
  obtain ⟨e', old', new', h1', h2'⟩ := h'
  rw [h1] at h2'
  obtain ⟨a, b, rfl, ha, _⟩ := forall₂_append_split h2'
  exact ⟨e'.trans e, a, b ++ new', by rw [h1', List.append_assoc], forall₂_trans' KeptPosting (fun _ _ _ x y => KeptPosting.trans x y) h2 ha⟩

theorem Spec.KeptTransaction.posts_ne {T U : TransactionPostings} (h : KeptTransaction T U) (hT : T.posts ≠ []) : U.posts ≠ [] := by
  obtain ⟨_, old, new, h1, h2⟩ := h
  rw [h1]
  intro he
  rw [(List.append_eq_nil_iff.1 he).1] at h2
  cases hp : T.posts with
  | nil => exact hT hp
  | cons p ps => rw [hp] at h2; cases h2

theorem forall₂_sublist {α β : Type} {R : α → β → Prop} {l m : List α} {k : List β} (hs : l.Sublist m) (h : List.Forall₂ R m k) :
    ∃ k', k'.Sublist k ∧ List.Forall₂ R l k' := by
  induction hs generalizing k with
  | slnil => cases h; exact ⟨[], .slnil, .nil⟩
  | cons a _ ih =>
    cases h with
    | cons _ h =>
      obtain ⟨k', h1, h2⟩ := ih h
      exact ⟨k', .cons _ h1, h2⟩
  | cons_cons a _ ih =>
    cases h with
    | cons hr h =>
      obtain ⟨k', h1, h2⟩ := ih h
      exact ⟨_, .cons_cons _ h1, .cons hr h2⟩

theorem forall₂_subperm {α β : Type} {R : α → β → Prop} {l m : List α} {k : List β} (hs : l.Subperm m) (h : List.Forall₂ R m k) :
    ∃ k', k'.Subperm k ∧ List.Forall₂ R l k' := by
  obtain ⟨l', hp, hs⟩ := hs
  obtain ⟨k', h1, h2⟩ := forall₂_sublist hs h
  obtain ⟨k'', h3, h4⟩ := List.perm_comp_forall₂ hp.symm h2
  exact ⟨k'', h4.subperm.trans h1.subperm, h3⟩

/-- A file that only grows at every step only grows. -/
theorem Spec.OnlyGrows.of_eq {sys : Sys} {n : Nat} {a b : Nat → Option Bytes} (h : b n = a n) : OnlyGrows sys n a b := by
  intro ts hts
  refine ⟨ts, ts.filter fun T => decide (T.posts ≠ []), ?_, forall₂_refl' KeptTransaction.refl _, List.filter_sublist.subperm⟩
  unfold readable at hts ⊢
  rw [h]
  exact hts

theorem Spec.OnlyGrows.trans {sys : Sys} {n : Nat} {a b c : Nat → Option Bytes} (h : OnlyGrows sys n a b) (h' : OnlyGrows sys n b c) :
    OnlyGrows sys n a c := by
  intro ts hts
  obtain ⟨ts', kept, h1, h2, h3⟩ := h ts hts
  obtain ⟨ts'', kept', h4, h5, h6⟩ := h' ts' h1
  have hne : ∀ T ∈ kept, T.posts ≠ [] := by
    intro T hT
    obtain ⟨U, hU, hk⟩ := forall₂_mem_right h2 hT
    exact hk.posts_ne (of_decide_eq_true (List.mem_filter.1 hU).2)
  have h7 : kept.Subperm (ts'.filter fun T => decide (T.posts ≠ [])) := by
    obtain ⟨l, hp, hs⟩ := h3
    refine ⟨l, hp, ?_⟩
    have := hs.filter fun T => decide (T.posts ≠ [])
    rwa [List.filter_eq_self.2 fun T hT => decide_eq_true (hne T (hp.subset hT))] at this
  obtain ⟨kept'', h8, h9⟩ := forall₂_subperm h7 h5
  exact ⟨ts'', kept'', h4, forall₂_trans' KeptTransaction (fun _ _ _ x y => KeptTransaction.trans x y) h2 h9, h8.trans h6⟩

theorem kept_reread {h : HashOrder} {p : PostingInternal} (hp : Parsed p.comment)
    (hk : ∀ (k v : Str), p.comment.valueTags[k]? = some v → k.trim ≠ []) : KeptPosting p (rereadPost h p) := by
  have e : (rereadPost h p).comment.tags = p.comment.tags := hp.keeps_iff hk h
  refine ⟨rfl, rfl, .inr rfl, .inl rfl, .inl rfl, ?_, ?_⟩
  · unfold UnknownAccount tagsOf; rw [e]; exact id
  · intro t ht
    right
    show t ∈ (rereadPost h p).comment.tags
    rw [e]; exact ht

theorem kept_reread_trn {h : HashOrder} {T : TransactionPostings} (h1 : T.trn.raw.comment = none) (h2 : T.trn.raw.postings = [])
    (hp : ∀ p ∈ T.posts, Parsed p.comment) (hk : ∀ p ∈ T.posts, ∀ (k v : Str), p.comment.valueTags[k]? = some v → k.trim ≠ []) :
    KeptTransaction T (Spec.reread h T) := by
  refine ⟨?_, T.posts.map (rereadPost h), [], by simp [Spec.reread], ?_⟩
  · show { T.trn.raw with comment := none, postings := [] } = T.trn.raw
    rw [← h1, ← h2]
  · rw [List.forall₂_map_right_iff]
    exact List.forall₂_same.2 fun p hpm => kept_reread (hp p hpm) (hk p hpm)

/-! ### `fmt` and `generate-fingerprints` -/

theorem rewrittenInOrder_stays {sys : Sys} {log : List Eff} {fs : List FileSpec} {n : Nat} {r : Except CmdErr Unit}
    (h : RewrittenInOrder sys (FmtText sys) false [] fs r log) (hr : r ≠ .error .write)
    (hb : ∀ text L, sys.parse text = some L → sys.parse (sys.render L) = some L) : 
    OnlyGrows sys n sys.start (contentsAfter sys.start log) := by
  have key : ∀ {again again' log log' fs}, Rewritten sys (FmtText sys) again log fs again' log' →
      OnlyGrows sys n (contentsAfter sys.start log) (contentsAfter sys.start log') := by
    intro again again' log log' fs h
    induction h with
    | nil => exact OnlyGrows.of_eq rfl
    | @cons again log f fs L text again' log' h1 h2 h3 ih =>
      refine OnlyGrows.trans ?_ ih
      rw [contentsAfter_append]
      by_cases hf : fileOf sys f = some n
      · obtain ⟨hr, src, hsrc⟩ := readable_ledger hf h1
        cases h2
        intro ts hts
        rw [hr] at hts
        cases hts
        refine ⟨_, _, ?_, forall₂_refl' KeptTransaction.refl _, List.filter_sublist.subperm⟩
        rw [readable_written (text := sys.render L) (by rw [contentsAfter_whole, if_pos hf]), hb src L hsrc]; rfl
      · apply OnlyGrows.of_eq
        rw [contentsAfter_whole, if_neg hf]
  cases r with
  | ok _ =>
    obtain ⟨_, h⟩ := h
    exact key h
  | error e =>
    obtain ⟨done, f, rest, again', mid, rfl, h, h'⟩ := h
    rcases h' with ⟨_, rfl⟩ | ⟨rfl, _⟩
    · exact key h
    · exact absurd rfl hr

theorem updatePosts_kept {random : Nat → Str} (n : Nat) (ps : List PostingInternal) :
    List.Forall₂ (fun p p' => KeptPosting p p' ∧ p'.raw = p.raw ∧ p'.comment.valueTags = p.comment.valueTags) ps
      (FpGen.updatePosts random n ps).2 := by
  induction ps generalizing n with
  | nil => exact .nil
  | cons p ps ih =>
    unfold FpGen.updatePosts
    split
    · refine .cons ⟨⟨rfl, rfl, .inr rfl, .inl rfl, .inl rfl, ?_, ?_⟩, rfl, rfl⟩ (ih _)
      · intro hu
        rcases Std.ExtTreeSet.mem_insert.1 hu with e | ht
        · rw [Std.LawfulEqOrd.compare_eq_iff_eq] at e
          have hpre : Tags.fingerprintPrefix <+: unknownTag := ⟨_, by rw [← e, List.append_assoc]⟩
          exact absurd hpre (by decide)
        · exact ht
      · exact fun t ht => .inr (Std.ExtTreeSet.mem_insert.2 (.inr ht))
    · exact .cons ⟨.refl _, rfl, rfl⟩ (ih _)

theorem updateTransactions_kept {random : Nat → Str} (n : Nat) (ts : List TransactionPostings) :
    List.Forall₂ (fun t t' => t'.trn = t.trn ∧
      List.Forall₂ (fun p p' => KeptPosting p p' ∧ p'.raw = p.raw ∧ p'.comment.valueTags = p.comment.valueTags) t.posts t'.posts) ts
      (FpGen.updateTransactions random n ts).2 := by
  induction ts generalizing n with
  | nil => exact .nil
  | cons t ts ih =>
    unfold FpGen.updateTransactions
    exact .cons ⟨rfl, updatePosts_kept n t.posts⟩ (ih _)

/-- Transactions that are written and read back exactly. -/
theorem written_kept {sys : Sys} {files : Nat → Option Bytes} {n : Nat} {h : HashOrder} {ts : List TransactionPostings}
    (hf : files n = some (encodeUtf8 (sys.render (TransactionPostings.intoLedger h ts))))
    (hb : sys.parse (sys.render (TransactionPostings.intoLedger h ts)) = some (TransactionPostings.intoLedger h ts)) :
    readable sys files n = some (ts.map (Spec.reread h)) := by
  rw [readable_written hf, hb, Option.map_some, (C62_write h ts).1, List.map_map]
  congr 1
  exact List.map_congr_left fun t _ => ofTransaction_intoTransaction h t

theorem tidy_readable {sys : Sys} {files : Nat → Option Bytes} {n : Nat} {ts : List TransactionPostings} (h : readable sys files n = some ts) :
    ∀ t ∈ ts, t.trn.raw.comment = none ∧ t.trn.raw.postings = [] ∧ ∀ p ∈ t.posts, Parsed p.comment := by
  unfold readable at h
  obtain ⟨L, _, rfl⟩ := Option.map_eq_some_iff.1 h
  intro t ht
  obtain ⟨u, _, rfl⟩ := List.mem_map.1 ht
  exact ⟨rfl, rfl, parsed_ofTransaction u⟩

theorem fpgen_grows {sys : Sys} {o : HashOrder} {fs : List FileSpec} {n : Nat} {log : List Eff} {r : Except CmdErr Unit}
    (h : RewrittenInOrder sys (FpGenText sys o) false [] fs r log) (hw : r ≠ .error .write)
    (hd : (fs.filterMap (fileOf sys)).Nodup) (hr : ∀ k, ∀ c ∈ sys.random k, c ≠ ':' ∧ c ≠ ' ' ∧ c ≠ '\n')
    (hk : ∀ ts, readable sys sys.start n = some ts → NoBlankKeys ts)
    (hb : ∀ ts k, readable sys sys.start n = some ts →
      sys.parse (sys.render (TransactionPostings.intoLedger HashOrder.sorted (FpGen.updateTransactions sys.random k ts).2)) =
        some (TransactionPostings.intoLedger HashOrder.sorted (FpGen.updateTransactions sys.random k ts).2)) :
    OnlyGrows sys n sys.start (contentsAfter sys.start log) := by
  have key : ∀ {again' log' fs'}, (fs'.filterMap (fileOf sys)).Nodup → Rewritten sys (FpGenText sys o) false [] fs' again' log' →
      OnlyGrows sys n sys.start (contentsAfter sys.start log') := by
    intro again' log' fs' hd' hw'
    by_cases hn : n ∈ fs'.filterMap (fileOf sys)
    · obtain ⟨b, L, text, h1, h2, ⟨ts, k, h3, rfl⟩, h4⟩ := rewritten_done hw' hd' n hn
      have h1 : sys.start n = some b := h1
      have hread : readable sys sys.start n = some ts := by
        unfold readable
        rw [h1, Option.bind_some, h2, Option.map_some]
        rw [C62_read] at h3
        split at h3
        · cases h3
        · exact h3
      have htidy := tidy_readable hread
      intro ts' hts'
      rw [hread] at hts'
      cases hts'
      rw [intoLedger_order o HashOrder.sorted] at h4
      have hk1 := updateTransactions_kept (random := sys.random) k ts
      have hk2 := updateTransactions_keeps hr k ts fun t ht => (htidy t ht).2.2
      have hall : List.Forall₂ KeptTransaction ts ((FpGen.updateTransactions sys.random k ts).2.map (Spec.reread HashOrder.sorted)) := by
        rw [List.forall₂_map_right_iff]
        have hk3 := hk ts hread
        generalize (FpGen.updateTransactions sys.random k ts).2 = us at hk1 hk2
        clear h4 hread h3
        induction hk1 with
        | nil => exact .nil
        | @cons t u ts us hh ht ih =>
          cases hk2 with
          | cons hh2 ht2 =>
            refine .cons ?_ (ih (fun t ht => htidy t (List.mem_cons_of_mem _ ht)) (fun t ht => hk3 t (List.mem_cons_of_mem _ ht)) ht2)
            obtain ⟨e, hp⟩ := hh
            have hx := htidy t (by simp)
            have h5 : KeptTransaction t u := ⟨by rw [e], u.posts, [], by simp, hp.imp fun _ _ h => h.1⟩
            refine h5.trans (kept_reread_trn (by rw [e]; exact hx.1) (by rw [e]; exact hx.2.1) hh2.2 ?_)
            intro p hpm
            obtain ⟨q, hq, h6⟩ := forall₂_mem_right hp hpm
            rw [h6.2.2]
            exact hk3 t (by simp) q hq
      obtain ⟨kept, h5, h6⟩ := forall₂_sublist (List.filter_sublist (p := fun T : TransactionPostings => decide (T.posts ≠ []))) hall
      exact ⟨_, kept, written_kept h4 (hb ts k hread), h6, h5.subperm⟩
    · apply OnlyGrows.of_eq
      refine rewritten_other hw' n ?_
      intro f hf he
      exact hn (List.mem_filterMap.2 ⟨f, hf, he⟩)
  cases r with
  | ok _ =>
    obtain ⟨_, h⟩ := h
    exact key hd h
  | error e =>
    obtain ⟨done, f, rest, again', mid, rfl, h, h'⟩ := h
    rcases h' with ⟨_, rfl⟩ | ⟨rfl, _⟩
    · refine key ?_ h
      rw [List.filterMap_append] at hd
      exact (List.nodup_append.1 hd).1
    · exact absurd rfl hw

/-! ### `merge` -/

theorem merge_grows {d : Str} {ts : List TransactionPostings} {gs : List (List TransactionPostings)}
    (hb : ¬ Refused Book.empty ((if ts = [] then [] else [ts.map (sourced d)]) ++ gs)) :
    ∃ kept, List.Forall₂ (fun T V => V.trn = (sourced d T).trn ∧ ∃ old new, V.posts = old ++ new ∧ List.Forall₂ Grown T.posts old)
        (ts.filter fun T => decide (T.posts ≠ [])) kept ∧
      kept.Subperm (bookAfter ((if ts = [] then [] else [ts.map (sourced d)]) ++ gs)).journal := by
  have h1 : bookAfter ((if ts = [] then [] else [ts.map (sourced d)]) ++ gs) = gs.foldl Book.after (Book.empty.after (ts.map (sourced d))) := by
    unfold bookAfter
    by_cases h : ts = []
    · subst h; rfl
    · rw [if_neg h]; rfl
  rw [h1]
  have hx := ext_calls (Book.empty.after (ts.map (sourced d))) gs
  have he : (Book.empty.after (ts.map (sourced d))).entries = (ts.filter fun T => decide (T.posts ≠ [])).map (sourced d) := by
    rw [← after_filter]
    have : (ts.map (sourced d)).filter (fun t => decide ¬ Undecided Book.empty t) = (ts.filter fun T => decide (T.posts ≠ [])).map (sourced d) := by
      rw [List.filter_map]
      congr 1
      apply List.filter_congr
      intro T _
      simp only [Function.comp]
      rw [decide_eq_decide, empty_undecided]
      rfl
    rw [this]
    apply entries_empty_after
    intro t ht
    obtain ⟨T, hT, rfl⟩ := List.mem_map.1 ht
    exact of_decide_eq_true (List.mem_filter.1 hT).2
  obtain ⟨old, new, h2, h3⟩ := hx.entries
  rw [he, List.forall₂_map_left_iff] at h3
  refine ⟨old, h3.imp fun T V h => h, ?_⟩
  refine List.Subperm.trans ?_ (journal_perm _).symm.subperm
  rw [h2]
  exact (List.sublist_append_left old new).subperm

theorem subperm_map {α β : Type} (f : α → β) {l m : List α} (h : l.Subperm m) : (l.map f).Subperm (m.map f) := by
  obtain ⟨k, hp, hs⟩ := h
  exact ⟨k.map f, hp.map f, hs.map f⟩

theorem noBlank_journal {gs : List (List TransactionPostings)} (hk : ∀ g ∈ gs, NoBlankKeys g) :
    NoBlankKeys ((bookAfter gs).journal.map unsourced) := by
  obtain ⟨g1, g2⟩ := holds_of_calls (A := fun _ => True)
    (B := fun q => ∀ (k v : Str), q.comment.valueTags[k]? = some v → k.trim ≠ []) (J := Book.empty) (gs := gs)
    (by
      intro d s hd hs k v hv
      simp only [absorb, Std.ExtTreeMap.getElem?_union] at hv
      cases hk : s.comment.valueTags[k]? with
      | some v' => exact hs k v' hk
      | none =>
        rw [hk] at hv
        exact hd k v hv)
    (fun g hg t ht => ⟨trivial, hk g hg t ht⟩) (by intro x hx; cases hx) (by intro r hr; cases hr)
  intro T hT
  obtain ⟨V, hV, rfl⟩ := List.mem_map.1 hT
  exact (holds_of_journal (B := fun q => ∀ (k v : Str), q.comment.valueTags[k]? = some v → k.trim ≠ []) g1 g2 V hV).2

theorem step_grows (base : Sys) (files : Nat → Option Bytes) (s : Step) (n : Nat) (h : CareOfJournal base n files s) :
    OnlyGrows base n files (s.after base files) := by
  rcases h with h | ⟨hk, hw, h⟩
  · exact OnlyGrows.of_eq (step_untouched base files s n h)
  have hfile : ∀ f, fileOf (s.sys base files) f = fileOf base f := by intro f; cases f <;> rfl
  have hog : ∀ c c', OnlyGrows (s.sys base files) n c c' ↔ OnlyGrows base n c c' := fun _ _ => Iff.rfl
  have hafter : s.after base files = contentsAfter files (s.run base files).2.log := by unfold Step.after; rw [hk]
  rw [hafter, ← hog]
  unfold Step.run at hw ⊢
  cases hc : s.cmd with
  | applyRules => rw [hc] at h; exact h.elim
  | importFrom => rw [hc] at h; exact h.elim
  | format fs =>
    rw [hc] at h hw
    exact rewrittenInOrder_stays (C58_fmt (s.sys base files) fs) hw h
  | generateFingerprints fs =>
    rw [hc] at h hw
    obtain ⟨h1, h2, h3, h4⟩ := h
    refine fpgen_grows (C58_generate_fingerprints (s.sys base files) (s.outside.orders 0) fs) hw ?_ h2 h3 h4
    rw [show fileOf (s.sys base files) = fileOf base from funext hfile]
    exact h1
  | merge args =>
    rw [hc] at h hw
    obtain ⟨ho, hu, ⟨p, fs, hin, hp⟩, hsrc, hgs⟩ := h
    show OnlyGrows (s.sys base files) n files (contentsAfter files (MergeCmd.run (s.sys base files) s.outside.orders args World.start).2.log)
    change (MergeCmd.run (s.sys base files) s.outside.orders args World.start).1 ≠ .error .write at hw
    rcases hr : MergeCmd.run (s.sys base files) s.outside.orders args World.start with ⟨e | ⟨⟩, w⟩
    · rw [hr] at hw
      apply OnlyGrows.of_eq
      apply contentsAfter_other
      intro x hx hn
      rcases (mergeCmd_create (s.sys base files) s.outside.orders args).err hr with rfl | h1
      · exact hw rfl
      · obtain ⟨f, h2, h3⟩ := h1 x hx
        exact hu f h2 (by rw [← hfile, ← h3]; exact hn)
    · obtain ⟨gs, u, o, h1, h2, h3, h4, h5⟩ := (mergeCmd_sat (s.sys base files) s.outside.orders args).ok hr
      have hout : contentsAfter files w.log n =
          some (encodeUtf8 ((s.sys base files).render (TransactionPostings.intoLedger o ((bookAfter gs).journal.map unsourced)))) := by
        rw [show w.log = _ from h5]
        unfold mergePlan
        rw [wholeWrites_append, contentsAfter_append]
        simp only [wholeWrites, List.flatMap_cons, List.flatMap_nil, List.append_nil]
        rw [contentsAfter_whole, if_pos (by rw [hfile]; exact ho)]
      obtain ⟨hblank, hback⟩ := hgs gs h1
      have hparsed := parsed_journal (parsed_inputs h1)
      have hnb := noBlank_journal hblank
      simp only at hback
      rw [intoLedger_order HashOrder.sorted o] at hback
      rw [hin] at h1
      have hp' : (s.sys base files).file p = n := hp
      obtain ⟨ts, gs', hts, rfl⟩ := inputs_first h1 (by rw [hp']; exact hsrc)
      rw [hp'] at hts
      obtain ⟨kept, h6, h7⟩ := merge_grows h2
      intro ts' hts'
      have : ts' = ts := by
        have e : readable (s.sys base files) files n = some ts := hts
        rw [hts'] at e
        exact Option.some.inj e
      subst this
      refine ⟨_, kept.map (Spec.reread o ∘ unsourced), written_kept (sys := s.sys base files) hout hback, ?_, ?_⟩
      · rw [List.forall₂_map_right_iff]
        have hmem : ∀ V ∈ kept, unsourced V ∈ (bookAfter _).journal.map unsourced := fun V hV => List.mem_map_of_mem (h7.subset hV)
        have htidy := tidy_readable hts'
        have h8 : ∀ T V, T ∈ ts' → V ∈ kept → (V.trn = (sourced ((s.sys base files).showPath p) T).trn ∧
            ∃ old new, V.posts = old ++ new ∧ List.Forall₂ Grown T.posts old) → KeptTransaction T (Spec.reread o (unsourced V)) := by
          intro T V hT hV ⟨e, old, new, e1, e2⟩
          have hraw : (unsourced V).trn.raw = T.trn.raw := by
            show V.trn.raw = _
            rw [e]; rfl
          have h9 : KeptTransaction T (unsourced V) := ⟨hraw, old, new, e1, e2.imp fun _ _ => Grown.kept⟩
          refine h9.trans (kept_reread_trn ?_ ?_ (hparsed _ (hmem V hV)) (hnb _ (hmem V hV)))
          · rw [hraw]; exact (htidy T hT).1
          · rw [hraw]; exact (htidy T hT).2.1
        exact forall₂_imp_mem h6 fun T V hT hV h => h8 T V (List.mem_filter.1 hT).1 hV h
      · rw [← List.map_map]
        exact subperm_map _ (subperm_map _ h7)

/-- **C85.** A journal only grows. Start with any files, and run the program any number of times, each time with `fmt`,
`generate-fingerprints` or `merge` on the journal under the conditions of `CareOfJournal`, or with anything at all that does not write to
the journal. Every transaction with postings of the journal at the beginning is there at the end, each as one of its own: with its date,
status, code and description, with its postings in order, and every posting with its amount, balance, account (unless it was marked as
unknown) and tags. -/
theorem C85_only_grows (base : Sys) (n : Nat) (files : Nat → Option Bytes) (steps : List Step)
    (h : EveryStep base (CareOfJournal base n) files steps) : OnlyGrows base n files (afterSession base files steps) := by
  induction steps generalizing files with
  | nil => exact OnlyGrows.of_eq rfl
  | cons s ss ih => exact (step_grows base files s n h.1).trans (ih _ h.2)

/-! ### A case that meets the hypotheses -/

theorem exact_ledger (a b : Ledger) (again : Bool) : ledgerAt (Ex.exactSystem a b) (Ex.exactSystem a b).start again (Ex.file "a") = some a ∧
    ledgerAt (Ex.exactSystem a b) (Ex.exactSystem a b).start again (Ex.file "b") = some b := by
  have h : ∀ L, (decodeUtf8 (encodeUtf8 (List.replicate (Encodable.encode L) 'x'))).bind (Ex.exactSystem a b).parse = some L := by
    intro L
    rw [decode_encode]
    exact Ex.exactSystem_comesBack a b L
  exact ⟨h a, h b⟩

/-- Two runs: another file is merged into the journal, with a file for what is unmerged, and the journal is reformatted. -/
noncomputable def exGrows : List Step :=
  [calm (Ex.letters "ab") (Ex.letters "ct") (.merge ⟨[Ex.file "a", Ex.file "b"], some (Ex.file "u"), Ex.file "a"⟩),
   calm (Ex.letters "ab") (Ex.letters "ct") (.format [Ex.file "a", Ex.file "b"])]

set_option maxRecDepth 100000 in
/-- The hypotheses are met: the journal of two transactions only grows. -/
example : OnlyGrows (Ex.exactSystem (Ex.letters "ab") (Ex.letters "ct")) 97 (Ex.exactSystem (Ex.letters "ab") (Ex.letters "ct")).start
      (afterSession (Ex.exactSystem (Ex.letters "ab") (Ex.letters "ct")) (Ex.exactSystem (Ex.letters "ab") (Ex.letters "ct")).start exGrows) ∧
    (readable (Ex.exactSystem (Ex.letters "ab") (Ex.letters "ct")) (Ex.exactSystem (Ex.letters "ab") (Ex.letters "ct")).start 97).map
      (·.map fun T => T.posts.length) = some [2, 2] := by
  constructor
  · apply C85_only_grows
    refine ⟨.inr ⟨rfl, merge_noFault (fun _ => rfl) _ _, rfl, ?_, ⟨"a".toList, [Ex.file "b"], rfl, rfl⟩, ?_, ?_⟩, .inr ⟨rfl, ?_, ?_⟩, trivial⟩
    · intro f hf
      cases hf
      exact fun h => absurd (Option.some.inj h) (by decide)
    · intro ts hts
      rw [exact_readable] at hts
      cases hts
      decide +kernel
    · intro gs hgs
      refine ⟨?_, Ex.exactSystem_comesBack _ _ _⟩
      have key : (match mergeInputs (Ex.system "ab" "ct" fun _ => none) false [Ex.file "a", Ex.file "b"] with
          | some gs => decide (∀ g ∈ gs, ∀ t ∈ g, ∀ q ∈ t.posts, OnlyTags q.comment)
          | none => false) = true := by
        simp only [mergeInputs, groups_eval]; decide +kernel
      have he : mergeInputs (Ex.exactSystem (Ex.letters "ab") (Ex.letters "ct")) false [Ex.file "a", Ex.file "b"] =
          mergeInputs (Ex.system "ab" "ct" fun _ => none) false [Ex.file "a", Ex.file "b"] := by
        have h1 : ∀ again, ledgerAt (Ex.system "ab" "ct" fun _ => none) (Ex.system "ab" "ct" fun _ => none).start again (Ex.file "a") =
            some (Ex.letters "ab") := by decide +kernel
        have h2 : ∀ again, ledgerAt (Ex.system "ab" "ct" fun _ => none) (Ex.system "ab" "ct" fun _ => none).start again (Ex.file "b") =
            some (Ex.letters "ct") := by decide +kernel
        simp only [mergeInputs, h1, h2, (exact_ledger _ _ _).1, (exact_ledger _ _ _).2]
        rfl
      have hgs' : mergeInputs (Ex.exactSystem (Ex.letters "ab") (Ex.letters "ct")) false [Ex.file "a", Ex.file "b"] = some gs := hgs
      rw [he] at hgs'
      rw [hgs'] at key
      have key := of_decide_eq_true key
      intro g hg t ht q hq k v hv
      have hv' : q.comment.valueTags = ∅ := Std.ExtTreeMap.toList_eq_nil_iff.1 (key g hg t ht q hq).2.1
      rw [hv'] at hv
      simp at hv
    · exact fun he => (fmt_noFault (fun _ => rfl) _ World.start).err (Prod.ext he rfl) rfl
    · exact fun _ L _ => Ex.exactSystem_comesBack _ _ L
  · rw [exact_readable]
    decide +kernel

end Verif
