import Verif.Spec.SessionMoney
import Verif.Props.SessionGrows
import Verif.Props.SessionRules

/-!
# C87: what no session changes about money
-/

namespace Verif
open Spec Spec.Book Spec.Rules Verif.Rules

theorem Spec.KeptMoney.refl (p : PostingInternal) : KeptMoney p p := ⟨rfl, rfl, .inr rfl, .inl rfl⟩

theorem Spec.KeptMoney.trans {p q r : PostingInternal} (h : KeptMoney p q) (h' : KeptMoney q r) : KeptMoney p r where
  amount := h'.amount.trans h.amount
  reality := h'.reality.trans h.reality
  balance := by
    rcases h.balance with e | e
    · exact .inl e
    · rcases h'.balance with e' | e'
      · exact .inl (e ▸ e')
      · exact .inr (e'.trans e)
  status := by
    rcases h.status with e | e | ⟨e1, e2⟩
    · rw [← e]; exact h'.status
    · exact .inr (.inl e)
    · rcases h'.status with e' | e' | ⟨e', _⟩
      · exact .inr (.inr ⟨e1, e'.trans e2⟩)
      · rw [e2] at e'; cases e'
      · rw [e2] at e'; cases e'

theorem Spec.KeptEntry.refl (T : TransactionPostings) : KeptEntry T T :=
  ⟨rfl, rfl, rfl, rfl, T.posts, [], by simp, forall₂_refl' KeptMoney.refl _⟩

theorem Spec.KeptEntry.trans {T U V : TransactionPostings} (h : KeptEntry T U) (h' : KeptEntry U V) : KeptEntry T V := by
  obtain ⟨a1, a2, a3, a4, old, new, h1, h2⟩ := h
  obtain ⟨b1, b2, b3, b4, old', new', h1', h2'⟩ := h'
  rw [h1] at h2'
  obtain ⟨a, b, rfl, ha, _⟩ := forall₂_append_split h2'
  exact ⟨b1.trans a1, b2.trans a2, b3.trans a3, b4.trans a4, a, b ++ new', by rw [h1', List.append_assoc],
    forall₂_trans' KeptMoney (fun _ _ _ x y => KeptMoney.trans x y) h2 ha⟩

theorem Spec.KeptEntry.posts_ne {T U : TransactionPostings} (h : KeptEntry T U) (hT : T.posts ≠ []) : U.posts ≠ [] := by
  obtain ⟨_, _, _, _, old, new, h1, h2⟩ := h
  rw [h1]
  intro he
  rw [(List.append_eq_nil_iff.1 he).1] at h2
  cases hp : T.posts with
  | nil => exact hT hp
  | cons p ps => rw [hp] at h2; cases h2

theorem Spec.KeepsMoney.of_eq {sys : Sys} {n : Nat} {a b : Nat → Option Bytes} (h : b n = a n) : KeepsMoney sys n a b := by
  intro ts hts
  refine ⟨ts, ts.filter fun T => decide (T.posts ≠ []), ?_, forall₂_refl' KeptEntry.refl _, List.filter_sublist.subperm⟩
  unfold readable at hts ⊢
  rw [h]
  exact hts

theorem Spec.KeepsMoney.trans {sys : Sys} {n : Nat} {a b c : Nat → Option Bytes} (h : KeepsMoney sys n a b) (h' : KeepsMoney sys n b c) :
    KeepsMoney sys n a c := by
  intro ts hts
  obtain ⟨ts', kept, h1, h2, h3⟩ := h ts hts
  obtain ⟨ts'', kept', h4, h5, h6⟩ := h' ts' h1
  have hne : ∀ T ∈ kept, T.posts ≠ [] := by
    intro T hT
    obtain ⟨U, hU, hk⟩ := forall₂_mem_right h2 hT
    exact hk.posts_ne (of_decide_eq_true (List.mem_filter.1 hU).2)
  have h7 : kept.Subperm (ts'.filter fun T => decide (T.posts ≠ [])) := by
    obtain ⟨l, hp, hs⟩ := h3
    refine ⟨l, hp, ?_⟩
    have := hs.filter fun T => decide (T.posts ≠ [])
    rwa [List.filter_eq_self.2 fun T hT => decide_eq_true (hne T (hp.subset hT))] at this
  obtain ⟨kept'', h8, h9⟩ := forall₂_subperm h7 h5
  exact ⟨ts'', kept'', h4, forall₂_trans' KeptEntry (fun _ _ _ x y => KeptEntry.trans x y) h2 h9, h8.trans h6⟩

/-! ### Printing and parsing -/

theorem entry_of_money {t t' : Transaction}
    (h : (((t'.date, t'.effectiveDate, t'.status, t'.code), t'.postings.map fun p => (p.amount, p.balance, p.reality, p.status)) :
        (Date × Option Date × Option Status × Option Str) × List (Option PostingAmount × Option Balance × Reality × Option Status)) =
      ((t.date, t.effectiveDate, t.status, t.code), t.postings.map fun p => (p.amount, p.balance, p.reality, p.status))) :
    KeptEntry (.ofTransaction t) (.ofTransaction t') := by
  simp only [Prod.mk.injEq] at h
  obtain ⟨⟨h1, h2, h3, h4⟩, h5⟩ := h
  refine ⟨h1, h2, h3, h4, t'.postings.map PostingInternal.ofPosting, [], by simp [TransactionPostings.ofTransaction], ?_⟩
  show List.Forall₂ KeptMoney (t.postings.map PostingInternal.ofPosting) _
  rw [List.forall₂_map_left_iff, List.forall₂_map_right_iff]
  generalize t.postings = ps at h5
  generalize t'.postings = qs at h5
  induction ps generalizing qs with
  | nil => cases qs with | nil => exact .nil | cons => cases h5
  | cons p ps ih =>
    cases qs with
    | nil => cases h5
    | cons q qs =>
      simp only [List.map_cons, List.cons.injEq, Prod.mk.injEq] at h5
      obtain ⟨⟨a1, a2, a3, a4⟩, h5⟩ := h5
      exact .cons ⟨a1, a3, .inr a2, .inl a4⟩ (ih qs h5)

/-- A ledger that is written and read back. -/
theorem money_back {sys : Sys} {files : Nat → Option Bytes} {n : Nat} {L : Ledger} (hf : files n = some (encodeUtf8 (sys.render L)))
    (hb : MoneyComesBack sys L) :
    ∃ vs, readable sys files n = some vs ∧ List.Forall₂ KeptEntry ((transactionsOf L.items).map TransactionPostings.ofTransaction) vs := by
  obtain ⟨L', h1, h2⟩ := hb
  refine ⟨(transactionsOf L'.items).map TransactionPostings.ofTransaction, by rw [readable_written hf, h1]; rfl, ?_⟩
  rw [List.forall₂_map_left_iff, List.forall₂_map_right_iff]
  unfold moneyIn at h2
  generalize transactionsOf L.items = ts at h2
  generalize transactionsOf L'.items = us at h2
  induction ts generalizing us with
  | nil => cases us with | nil => exact .nil | cons => cases h2
  | cons t ts ih =>
    cases us with
    | nil => cases h2
    | cons u us =>
      rw [List.map_cons, List.map_cons, List.cons.injEq] at h2
      exact .cons (entry_of_money h2.1) (ih us h2.2)

/-- Transactions that are written and read back. -/
theorem money_into {sys : Sys} {files : Nat → Option Bytes} {n : Nat} {h : HashOrder} {ts : List TransactionPostings}
    (hf : files n = some (encodeUtf8 (sys.render (TransactionPostings.intoLedger h ts))))
    (hb : MoneyComesBack sys (TransactionPostings.intoLedger h ts)) :
    ∃ vs, readable sys files n = some vs ∧ List.Forall₂ KeptEntry ts vs := by
  obtain ⟨vs, h1, h2⟩ := money_back hf hb
  refine ⟨vs, h1, ?_⟩
  rw [(C62_write h ts).1, List.map_map, List.forall₂_map_left_iff] at h2
  refine h2.imp fun T V hV => KeptEntry.trans ?_ hV
  simp only [Function.comp, ofTransaction_intoTransaction]
  refine ⟨rfl, rfl, rfl, rfl, T.posts.map (rereadPost h), [], by simp [Spec.reread], ?_⟩
  rw [List.forall₂_map_right_iff]
  exact List.forall₂_same.2 fun p _ => ⟨rfl, rfl, .inr rfl, .inl rfl⟩

/-- Transactions of which each is kept. -/
theorem money_all {sys : Sys} {a b : Nat → Option Bytes} {n : Nat} {ts vs : List TransactionPostings} (h1 : readable sys a n = some ts)
    (h2 : readable sys b n = some vs) (h : List.Forall₂ KeptEntry ts vs) : KeepsMoney sys n a b := by
  intro ts' hts'
  rw [h1] at hts'
  cases hts'
  obtain ⟨kept, h3, h4⟩ := forall₂_sublist (List.filter_sublist (p := fun T : TransactionPostings => decide (T.posts ≠ []))) h
  exact ⟨vs, kept, h2, h4, h3.subperm⟩

/-! ### The commands -/

theorem rewrittenInOrder_money {sys : Sys} {T : Ledger → Str → Prop} {log : List Eff} {fs : List FileSpec} {n : Nat} {r : Except CmdErr Unit}
    (h : RewrittenInOrder sys T false [] fs r log) (hr : r ≠ .error .write)
    (hT : ∀ src L text files, sys.parse src = some L → T L text → files n = some (encodeUtf8 text) →
      ∃ vs, readable sys files n = some vs ∧ List.Forall₂ KeptEntry ((transactionsOf L.items).map TransactionPostings.ofTransaction) vs) :
    KeepsMoney sys n sys.start (contentsAfter sys.start log) := by
  have key : ∀ {again again' log log' fs}, Rewritten sys T again log fs again' log' →
      KeepsMoney sys n (contentsAfter sys.start log) (contentsAfter sys.start log') := by
    intro again again' log log' fs h
    induction h with
    | nil => exact KeepsMoney.of_eq rfl
    | @cons again log f fs L text again' log' h1 h2 h3 ih =>
      refine KeepsMoney.trans ?_ ih
      rw [contentsAfter_append]
      by_cases hf : fileOf sys f = some n
      · obtain ⟨hr, src, hsrc⟩ := readable_ledger hf h1
        obtain ⟨vs, hv, hk⟩ := hT src L text (contentsAfter (contentsAfter sys.start log) (wholeWrite sys f text)) hsrc h2 (by rw [contentsAfter_whole, if_pos hf])
        exact money_all hr hv hk
      · apply KeepsMoney.of_eq
        rw [contentsAfter_whole, if_neg hf]
  cases r with
  | ok _ =>
    obtain ⟨_, h⟩ := h
    exact key h
  | error e =>
    obtain ⟨done, f, rest, again', mid, rfl, h, h'⟩ := h
    rcases h' with ⟨_, rfl⟩ | ⟨rfl, _⟩
    · exact key h
    · exact absurd rfl hr

theorem step_money (base : Sys) (files : Nat → Option Bytes) (s : Step) (n : Nat) (h : CareOfMoney base n files s) :
    KeepsMoney base n files (s.after base files) := by
  rcases h with h | ⟨hk, hw, h⟩
  · exact KeepsMoney.of_eq (step_untouched base files s n h)
  have hfile : ∀ f, fileOf (s.sys base files) f = fileOf base f := by intro f; cases f <;> rfl
  have hkm : ∀ c c', KeepsMoney (s.sys base files) n c c' ↔ KeepsMoney base n c c' := fun _ _ => Iff.rfl
  have hafter : s.after base files = contentsAfter files (s.run base files).2.log := by unfold Step.after; rw [hk]
  rw [hafter, ← hkm]
  unfold Step.run at hw ⊢
  cases hc : s.cmd with
  | importFrom => rw [hc] at h; exact h.elim
  | format fs =>
    rw [hc] at h hw
    refine rewrittenInOrder_money (C58_fmt (s.sys base files) fs) hw ?_
    rintro src L _ files' hs rfl hf
    exact money_back hf (h src L hs)
  | generateFingerprints fs =>
    rw [hc] at h hw
    refine rewrittenInOrder_money (C58_generate_fingerprints (s.sys base files) (s.outside.orders 0) fs) hw ?_
    rintro src L _ files' hs ⟨ts, k, h1, rfl⟩ hf
    have hb := h src L ts k hs h1
    rw [intoLedger_order HashOrder.sorted (s.outside.orders 0)] at hb
    obtain ⟨vs, h2, h3⟩ := money_into (sys := s.sys base files) hf hb
    refine ⟨vs, h2, forall₂_trans' KeptEntry (fun _ _ _ x y => KeptEntry.trans x y) ?_ h3⟩
    rw [C62_read] at h1
    split at h1
    · cases h1
    · cases h1
      refine (updateTransactions_kept k _).imp ?_
      rintro t u ⟨e, hp⟩
      exact ⟨by rw [e], by rw [e], by rw [e], by rw [e], u.posts, [], by simp,
        hp.imp fun p q hpq => ⟨hpq.1.amount, hpq.1.reality, hpq.1.balance, hpq.1.status⟩⟩
  | applyRules rules input output =>
    rw [hc] at h hw
    obtain ⟨hin, hout, h⟩ := h
    change (applyRules (s.sys base files) (s.outside.orders 0) s.outside.lower s.outside.fuel (rules files) input output World.start).1 ≠ _ at hw
    show KeepsMoney (s.sys base files) n files (contentsAfter files
      (applyRules (s.sys base files) (s.outside.orders 0) s.outside.lower s.outside.fuel (rules files) input output World.start).2.log)
    rcases hr : applyRules (s.sys base files) (s.outside.orders 0) s.outside.lower s.outside.fuel (rules files) input output World.start
      with ⟨e | ⟨⟩, w⟩
    · rw [hr] at hw
      rcases (applyRules_create _ _ _ _ _ _ _).err hr with rfl | h1
      · exact absurd rfl hw
      · apply KeepsMoney.of_eq
        rw [h1]
        rfl
    · obtain ⟨T, L, ts, ts', h1, h2, h3, h4, h5⟩ := (applyRules_sat _ _ _ _ _ _ _).ok hr
      have hread : readable base files n = some ts := by
        have := (readable_ledger (sys := s.sys base files) (by rw [hfile]; exact hin) h2).1
        rw [C62_read] at h3
        split at h3
        · cases h3
        · cases h3; exact this
      have hb := h T ts ts' h1 hread h4
      rw [intoLedger_order HashOrder.sorted (s.outside.orders 0)] at hb
      obtain ⟨vs, h6, h7⟩ := money_into (sys := s.sys base files) (files := contentsAfter files w.log) (n := n)
        (by rw [h5, contentsAfter_whole, if_pos (by rw [hfile]; exact hout)]) hb
      refine money_all (sys := s.sys base files) hread h6 (forall₂_trans' KeptEntry (fun _ _ _ x y => KeptEntry.trans x y) ?_ h7)
      refine (C34_unchanged _ _ _ _ _ h4).imp ?_
      rintro t u ⟨a, b⟩
      exact ⟨a.date, a.effectiveDate, a.status, a.code, u.posts, [], by simp,
        b.imp fun p q hpq => ⟨hpq.amount, hpq.reality, .inr hpq.balance, .inl hpq.status⟩⟩
  | merge args =>
    rw [hc] at h hw
    obtain ⟨ho, hu, ⟨p, fs, hin, hp⟩, hsrc, hgs⟩ := h
    show KeepsMoney (s.sys base files) n files (contentsAfter files (MergeCmd.run (s.sys base files) s.outside.orders args World.start).2.log)
    change (MergeCmd.run (s.sys base files) s.outside.orders args World.start).1 ≠ .error .write at hw
    rcases hr : MergeCmd.run (s.sys base files) s.outside.orders args World.start with ⟨e | ⟨⟩, w⟩
    · rw [hr] at hw
      apply KeepsMoney.of_eq
      apply contentsAfter_other
      intro x hx hn
      rcases (mergeCmd_create (s.sys base files) s.outside.orders args).err hr with rfl | h1
      · exact hw rfl
      · obtain ⟨f, h2, h3⟩ := h1 x hx
        exact hu f h2 (by rw [← hfile, ← h3]; exact hn)
    · obtain ⟨gs, u, o, h1, h2, h3, h4, h5⟩ := (mergeCmd_sat (s.sys base files) s.outside.orders args).ok hr
      have hout : contentsAfter files w.log n =
          some (encodeUtf8 ((s.sys base files).render (TransactionPostings.intoLedger o ((bookAfter gs).journal.map unsourced)))) := by
        rw [show w.log = _ from h5]
        unfold mergePlan
        rw [wholeWrites_append, contentsAfter_append]
        simp only [wholeWrites, List.flatMap_cons, List.flatMap_nil, List.append_nil]
        rw [contentsAfter_whole, if_pos (by rw [hfile]; exact ho)]
      have hback := hgs gs h1
      rw [intoLedger_order HashOrder.sorted o] at hback
      obtain ⟨vs, hv, hkv⟩ := money_into (sys := s.sys base files) hout hback
      rw [hin] at h1
      have hp' : (s.sys base files).file p = n := hp
      obtain ⟨ts, gs', hts, rfl⟩ := inputs_first h1 (by rw [hp']; exact hsrc)
      rw [hp'] at hts
      obtain ⟨kept, h6, h7⟩ := merge_grows h2
      intro ts' hts'
      have : ts' = ts := by
        have e : readable (s.sys base files) files n = some ts := hts
        rw [hts'] at e
        exact Option.some.inj e
      subst this
      obtain ⟨kept', h8, h9⟩ := forall₂_subperm (subperm_map unsourced h7) hkv
      refine ⟨vs, kept', hv, forall₂_trans' KeptEntry (fun _ _ _ x y => KeptEntry.trans x y) ?_ h9, h8⟩
      rw [List.forall₂_map_right_iff]
      refine h6.imp ?_
      rintro T V ⟨e, old, new, e1, e2⟩
      have hraw : (unsourced V).trn.raw = T.trn.raw := by
        show V.trn.raw = _
        rw [e]; rfl
      exact ⟨by rw [hraw], by rw [hraw], by rw [hraw], by rw [hraw], old, new, e1,
        e2.imp fun p q hpq => ⟨hpq.amount, hpq.reality, hpq.balance, hpq.status⟩⟩

/-- **C87.** No session changes what the journal says about money. Start with any files, and run the program any number of times: each time
with `fmt`, `generate-fingerprints`, `apply-rules` with any rules, or `merge` on the journal under the conditions of `CareOfMoney`, or with
anything at all that does not write to the journal. Every transaction with postings of the journal at the beginning is there at the end,
each as one of its own: with its dates, status and code, with its postings in order, and every posting with its amount and balance. -/
theorem C87_money (base : Sys) (n : Nat) (files : Nat → Option Bytes) (steps : List Step)
    (h : EveryStep base (CareOfMoney base n) files steps) : KeepsMoney base n files (afterSession base files steps) := by
  induction steps generalizing files with
  | nil => exact KeepsMoney.of_eq rfl
  | cons s ss ih => exact (step_money base files s n h.1).trans (ih _ h.2)

/-! ### A case that meets the hypotheses -/

/-- Four runs: another file is merged into the journal, with a file for what is unmerged; rules are applied; fingerprints are generated;
and the journal is reformatted. -/
noncomputable def exMoney (a b : Ledger) (rules : (Nat → Option Bytes) → Option Table) : List Step :=
  [calm a b (.merge ⟨[Ex.file "a", Ex.file "b"], some (Ex.file "u"), Ex.file "a"⟩),
   calm a b (.applyRules rules (Ex.file "a") (Ex.file "a")),
   calm a b (.generateFingerprints [Ex.file "a"]),
   calm a b (.format [Ex.file "a", Ex.file "b"])]

/-- The hypotheses are met, whatever the other file and the rules are: the journal of two transactions keeps them. -/
example (b : Ledger) (rules : (Nat → Option Bytes) → Option Table) :
    KeepsMoney (Ex.exactSystem (Ex.letters "ab") b) 97 (Ex.exactSystem (Ex.letters "ab") b).start
      (afterSession (Ex.exactSystem (Ex.letters "ab") b) (Ex.exactSystem (Ex.letters "ab") b).start (exMoney (Ex.letters "ab") b rules)) ∧
    (readable (Ex.exactSystem (Ex.letters "ab") b) (Ex.exactSystem (Ex.letters "ab") b).start 97).map
      (·.map fun T => T.posts.length) = some [2, 2] := by
  have hb : ∀ L, MoneyComesBack (Ex.exactSystem (Ex.letters "ab") b) L := fun L => ⟨L, Ex.exactSystem_comesBack _ _ L, rfl⟩
  constructor
  · apply C87_money
    refine ⟨.inr ⟨rfl, merge_noFault (fun _ => rfl) _ _, rfl, ?_, ⟨"a".toList, [Ex.file "b"], rfl, rfl⟩, ?_, fun _ _ => hb _⟩,
      .inr ⟨rfl, applyRules_noFault (fun _ => rfl) _ _ _ _ _ _, rfl, rfl, fun _ _ _ _ _ _ => hb _⟩,
      .inr ⟨rfl, ?_, fun _ _ _ _ _ _ => hb _⟩, .inr ⟨rfl, ?_, fun _ _ _ => hb _⟩, trivial⟩
    · intro f hf
      cases hf
      exact fun h => absurd (show (117 : Nat) = 97 from Option.some.inj h) (by decide)
    · intro ts hts
      rw [exact_readable] at hts
      cases hts
      decide +kernel
    · exact fun he => (fpgen_noFault (fun _ => rfl) _ _ World.start).err (Prod.ext he rfl) rfl
    · exact fun he => (fmt_noFault (fun _ => rfl) _ World.start).err (Prod.ext he rfl) rfl
  · rw [exact_readable]
    decide +kernel

end Verif
