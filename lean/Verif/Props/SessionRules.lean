import Verif.Spec.SessionRules
import Verif.Props.Session
import Verif.Props.Pipeline

/-!
# C86: sessions that also apply rules
-/

namespace Verif
open Spec Spec.Book Spec.Rules Verif.Rules

/-! ### Rules that remove no tags of a kind -/

theorem changes_keeps_tag {a : Action} {c c' : Ctx} {tag : Str} (h : Changes a c c') (hn : ¬ RemovesTag a tag)
    (ht : tag ∈ c.post.comment.tags) : tag ∈ c'.post.comment.tags := by
  cases h with
  | addPostingFlagTag h => exact (h _).2 (.inr ht)
  | removePostingFlagTag h =>
    refine (h _).2 ⟨?_, ht⟩
    rintro rfl
    exact hn .post
  | _ => exact ht

theorem runsPosts_keeps_tags {K : Str → Prop} {lower : Str → Str} {T : Table} (hT : NeverRemoves K T) {start : List Rule}
    (hs : ∀ r ∈ start, ∀ tag, RemovesTag r.action tag → ¬ K tag) {t : TransactionInternal}
    {ps : List PostingInternal} {r} (h : RunsPosts lower T start t ps r) :
    ∀ t' ps', r = .ok (t', ps') → List.Forall₂ (fun p p' => ∀ tag, K tag → tag ∈ tagsOf p → tag ∈ tagsOf p') ps ps' := by
  induction h with
  | nil => intro _ _ h; cases h; exact .nil
  | cons h1 _ ih =>
    intro t' ps' h
    cases h
    refine .cons ?_ (ih _ _ rfl)
    intro tag hk ht
    exact runs_inv (I := fun c => tag ∈ c.post.comment.tags) (P := fun a => ¬ RemovesTag a tag)
      (fun as h a ha hr => h (.inside ha hr)) (fun h hn hc => changes_keeps_tag h hn hc)
      (fun name ch hc r hr hrem => hT name ch hc r hr tag hrem hk) h1 (fun r hr hrem => hs r hr tag hrem hk) ht _ rfl
  | error => intro _ _ h; cases h
  | later => intro _ _ h; cases h

/-- Rules that remove no tags of a kind leave them where they are. -/
theorem updateTransactions_keeps_tags {K : Str → Prop} {lower : Str → Str} {T : Table} (hT : NeverRemoves K T) {fuel : Nat}
    {ts ts' : List TransactionPostings} (h : T.updateTransactions lower fuel ts = .ok ts') :
    List.Forall₂ (fun t t' => List.Forall₂ (fun p p' => ∀ tag, K tag → tag ∈ tagsOf p → tag ∈ tagsOf p') t.posts t'.posts) ts ts' := by
  rw [updateTransactions_ok] at h
  refine h.imp fun t t' ht => ?_
  have hr := (C31_semantics lower T t).1 fuel (by rw [ht]; simp)
  rw [ht] at hr
  cases hr with
  | ok hc h => exact runsPosts_keeps_tags hT (hT _ _ hc) h _ _ rfl

/-! ### Sessions -/

theorem Spec.KeepsTags.marks {K : Str → Prop} (hK : ¬ K unknownTag) {sys : Sys} {n : Nat} {a b : Nat → Option Bytes} (h : KeepsTags sys n a b) :
    KeepsMarks K sys n a b := by
  intro ts hts
  obtain ⟨us, hus, h1⟩ := h ts hts
  refine ⟨us, hus, fun T hT hne => ?_⟩
  obtain ⟨U, hU, h2⟩ := h1 T hT hne
  refine ⟨U, hU, fun p hp => ?_⟩
  obtain ⟨q, hq, h3⟩ := h2 p hp
  refine ⟨q, hq, fun t hk ht => h3 t ht ?_⟩
  rintro rfl
  exact hK hk

theorem Spec.KeepsMarks.trans {K : Str → Prop} {sys : Sys} {n : Nat} {a b c : Nat → Option Bytes} (h : KeepsMarks K sys n a b)
    (h' : KeepsMarks K sys n b c) : KeepsMarks K sys n a c := by
  intro ts hts
  obtain ⟨us, hus, h1⟩ := h ts hts
  obtain ⟨vs, hvs, h2⟩ := h' us hus
  refine ⟨vs, hvs, fun T hT hne => ?_⟩
  obtain ⟨U, hU, h3⟩ := h1 T hT hne
  have hU' : U.posts ≠ [] := by
    obtain ⟨p, hp⟩ := List.exists_mem_of_ne_nil _ hne
    obtain ⟨q, hq, _⟩ := h3 p hp
    exact List.ne_nil_of_mem hq
  obtain ⟨V, hV, h4⟩ := h2 U hU hU'
  refine ⟨V, hV, fun p hp => ?_⟩
  obtain ⟨q, hq, h5⟩ := h3 p hp
  obtain ⟨r, hr, h6⟩ := h4 q hq
  exact ⟨r, hr, fun t hk ht => h6 t hk (h5 t hk ht)⟩

/-- A run of `apply-rules` that fails, but not in the middle of writing, has written nothing. -/
theorem applyRules_create (sys : Sys) (h : HashOrder) (lower : Str → Str) (fuel : Nat) (table : Option Table) (input output : FileSpec) :
    Sat (applyRules sys h lower fuel table input output) World.start (fun _ _ => True) (fun e w => e = .write ∨ w.log = []) := by
  unfold applyRules
  apply Sat.bind
  apply Sat.ofOption
  · intro T hT
    apply Sat.bind
    refine (readLedgerFile_sat sys input _).imp ?_ fun e w h => .inr h.1
    rintro L w ⟨h1, _⟩
    have h1 : w.log = [] := h1
    apply Sat.bind
    apply Sat.ofOption
    · intro ts hts
      cases hu : T.updateTransactions lower fuel ts with
      | error e => exact Sat.fail (.inr h1)
      | ok ts' =>
        refine (writeFile_sat sys output _ w).imp (fun _ _ _ => trivial) ?_
        rintro e w' ⟨⟨n, h3, ⟨rfl, rfl⟩ | rfl⟩, _⟩
        · exact .inr (by simp [h3, h1])
        · exact .inl rfl
    · intro _
      exact .inr h1
  · intro _
    exact .inr rfl

theorem applyRules_noFault {sys : Sys} (hn : ∀ n, sys.fault n = none) (h : HashOrder) (lower : Str → Str) (fuel : Nat) (table : Option Table)
    (input output : FileSpec) : (applyRules sys h lower fuel table input output World.start).1 ≠ .error .write := by
  suffices hs : Sat (applyRules sys h lower fuel table input output) World.start (fun _ _ => True) (fun e _ => e ≠ .write) by
    intro he
    exact hs.err (Prod.ext he rfl) rfl
  unfold applyRules
  apply Sat.bind
  apply Sat.ofOption
  · intro T hT
    apply Sat.bind
    refine (readLedgerFile_sat sys input _).imp ?_ fun e w h => isWrite_ne h.2.1
    intro L w _
    apply Sat.bind
    apply Sat.ofOption
    · intro ts hts
      cases hu : T.updateTransactions lower fuel ts with
      | error e => exact Sat.fail (by decide)
      | ok ts' => exact (writeFile_sat sys output _ w).imp (fun _ _ _ => trivial) fun _ _ h => absurd hn h.2
    · intro _
      decide
  · intro _
    decide

theorem step_marks {K : Str → Prop} (hK : ¬ K unknownTag) (base : Sys) (files : Nat → Option Bytes) (s : Step) (n : Nat)
    (h : CareOfMarks K base n files s) : KeepsMarks K base n files (s.after base files) := by
  rcases h with h | ⟨hk, hw, rules, input, output, hc, hin, hout, h⟩
  · exact (step_keeps base files s n h).marks hK
  have hfile : ∀ f, fileOf (s.sys base files) f = fileOf base f := by intro f; cases f <;> rfl
  have hafter : s.after base files = contentsAfter files (s.run base files).2.log := by unfold Step.after; rw [hk]
  rw [hafter]
  unfold Step.run at hw ⊢
  rw [hc] at hw ⊢
  change (applyRules (s.sys base files) (s.outside.orders 0) s.outside.lower s.outside.fuel (rules files) input output World.start).1 ≠ _ at hw
  show KeepsMarks K base n files (contentsAfter files
    (applyRules (s.sys base files) (s.outside.orders 0) s.outside.lower s.outside.fuel (rules files) input output World.start).2.log)
  rcases hr : applyRules (s.sys base files) (s.outside.orders 0) s.outside.lower s.outside.fuel (rules files) input output World.start
    with ⟨e | ⟨⟩, w⟩
  · rw [hr] at hw
    rcases (applyRules_create _ _ _ _ _ _ _).err hr with rfl | h1
    · exact absurd rfl hw
    · refine (KeepsTags.of_eq ?_).marks hK
      rw [h1]
      rfl
  · obtain ⟨T, L, ts, ts', h1, h2, h3, h4, h5⟩ := (applyRules_sat _ _ _ _ _ _ _).ok hr
    obtain ⟨hrem, hplain, hb⟩ := h T h1
    have hread : readable base files n = some ts := by
      have := (readable_ledger (sys := s.sys base files) (by rw [hfile]; exact hin) h2).1
      rw [C62_read] at h3
      split at h3
      · cases h3
      · cases h3; exact this
    have hpar : ∀ x ∈ ts', Parsed x.trn.comment ∧ ∀ p ∈ x.posts, Parsed p.comment := by
      refine update_inv (A := fun x => Parsed x.comment) (B := fun p => Parsed p.comment) (fun as h => plain_inside h) changes_parsed hplain
        h4 fun x hx => ?_
      rw [C62_read] at h3
      split at h3
      · cases h3
      · cases h3
        obtain ⟨t, _, rfl⟩ := List.mem_map.1 hx
        exact ofTransaction_parsed t
    have hb' := hb ts ts' hread h4
    rw [intoLedger_order HashOrder.sorted (s.outside.orders 0)] at hb'
    obtain ⟨L', hL', hk'⟩ := comesBack_into (sys := s.sys base files) hb' (fun t ht => (hpar t ht).2)
    have hwritten : contentsAfter files w.log n =
        some (encodeUtf8 ((s.sys base files).render (TransactionPostings.intoLedger (s.outside.orders 0) ts'))) := by
      rw [h5, contentsAfter_whole, if_pos (by rw [hfile]; exact hout)]
    have hkeep := updateTransactions_keeps_tags hrem h4
    intro us hus
    rw [hread] at hus
    cases hus
    refine ⟨(transactionsOf L'.items).map TransactionPostings.ofTransaction, ?_, ?_⟩
    · show readable (s.sys base files) _ n = _
      rw [readable_written hwritten, hL']
      rfl
    · intro X hX _
      obtain ⟨Y, hY, h6⟩ := forall₂_mem_left hkeep hX
      obtain ⟨Z, hZ, h7⟩ := hk' Y hY
      refine ⟨Z, hZ, fun p hp => ?_⟩
      obtain ⟨q, hq, h8⟩ := forall₂_mem_left h6 hp
      obtain ⟨r, hr, h9⟩ := h7 q hq
      refine ⟨r, hr, fun t hkt ht => h9 t (h8 t hkt ht) ?_⟩
      rintro rfl
      exact hK hkt

/-- **C86.** Take tags of any kind, with the mark for unknown accounts not among them. Start with any files, and run the program any number
of times: each time with `fmt`, `generate-fingerprints` or `merge` on the journal as in C84, or with `apply-rules` on the journal with any
rules that never remove tags of that kind from postings and that add nothing that cannot be told apart in a comment, or with anything
at all that does not write to the journal. All postings that stood together in one transaction at the beginning stand together in one
transaction at the end, with all their tags of that kind. -/
theorem C86_marks {K : Str → Prop} (hK : ¬ K unknownTag) (base : Sys) (n : Nat) (files : Nat → Option Bytes) (steps : List Step)
    (h : EveryStep base (CareOfMarks K base n) files steps) : KeepsMarks K base n files (afterSession base files steps) := by
  induction steps generalizing files with
  | nil => exact (KeepsTags.refl _ _ _).marks hK
  | cons s ss ih => exact (step_marks hK base files s n h.1).trans (ih _ h.2)

/-- **C86.** No fingerprint is lost in such a session. -/
theorem C86_fingerprints (base : Sys) (n : Nat) (files : Nat → Option Bytes) (steps : List Step)
    (h : EveryStep base (CareOfMarks IsFp base n) files steps) : KeepsMarks IsFp base n files (afterSession base files steps) :=
  C86_marks (by decide +kernel) base n files steps h

/-! ### Simple conditions -/

/-- As `SimpleStep`, or a run of `apply-rules` on the journal with rules that, whatever they are read from, remove no tags of the kind and add
nothing that cannot be told apart. -/
def SimpleRules (K : Str → Prop) (base : Sys) (n : Nat) (s : Step) : Prop :=
  SimpleStep base n s ∨
  (s.killed = none ∧ (∀ k, s.fault k = none) ∧ ∃ rules input output, s.cmd = .applyRules rules input output ∧
    fileOf base input = some n ∧ fileOf base output = some n ∧ ∀ files T, rules files = some T → NeverRemoves K T ∧ PlainTable T)

/-- **C86.** With a printer that is exact about comments, conditions on the commands are enough, whatever the files contain. -/
theorem C86_simple {K : Str → Prop} (hK : ¬ K unknownTag) (base : Sys) (n : Nat) (files : Nat → Option Bytes) (steps : List Step)
    (hb : ∀ L, CommentsComeBack base L) (h : ∀ s ∈ steps, SimpleRules K base n s) :
    KeepsMarks K base n files (afterSession base files steps) := by
  induction steps generalizing files with
  | nil => exact (KeepsTags.refl _ _ _).marks hK
  | cons s ss ih =>
    refine KeepsMarks.trans ?_ (ih (s.after base files) fun s' hs' => h s' (List.mem_cons_of_mem _ hs'))
    rcases h s (by simp) with h | ⟨hk, hf, rules, input, output, hc, hin, hout, h⟩
    · exact (C84_simple base n files [s] hb (fun s' hs' => by rw [List.mem_singleton.1 hs']; exact h)).marks hK
    · refine step_marks hK base files s n (.inr ⟨hk, ?_, rules, input, output, hc, hin, hout, fun T hT => ?_⟩)
      · unfold Step.run
        rw [hc]
        exact applyRules_noFault hf _ _ _ _ _ _
      · exact ⟨(h files T hT).1, (h files T hT).2, fun _ _ _ _ => hb _⟩

/-! ### Cases that meet the hypotheses -/

/-- Four runs: fingerprints are generated, rules are applied, another file is merged into the journal, and the journal is reformatted. -/
noncomputable def exRules (a b : Ledger) : List Step :=
  [calm a b (.generateFingerprints [Ex.file "a"]),
   calm a b (.applyRules (fun _ => some Ex.pipeRules) (Ex.file "a") (Ex.file "a")),
   calm a b (.merge ⟨[Ex.file "a", Ex.file "b"], none, Ex.file "a"⟩),
   calm a b (.format [Ex.file "a"])]

/-- Whatever is in the two files, the fingerprints of the journal are kept. The rules set accounts and remove a tag. -/
example (a b : Ledger) : KeepsMarks IsFp (Ex.exactSystem a b) 97 (Ex.exactSystem a b).start
    (afterSession (Ex.exactSystem a b) (Ex.exactSystem a b).start (exRules a b)) := by
  refine C86_simple (by decide +kernel) _ _ _ _ (fun L => ⟨L, Ex.exactSystem_comesBack a b L, rfl⟩) ?_
  intro s hs
  rcases List.mem_cons.1 hs with rfl | hs
  · refine .inl (.inr ⟨rfl, fun _ => rfl, ?_⟩)
    intro k c hc
    obtain rfl := (List.mem_replicate.1 hc).2
    decide
  rcases List.mem_cons.1 hs with rfl | hs
  · refine .inr ⟨rfl, fun _ => rfl, _, _, _, rfl, rfl, rfl, ?_⟩
    intro files T hT
    obtain rfl := Option.some.inj hT
    refine ⟨?_, ?_⟩
    · refine Ex.pipe_all (P := fun a => ∀ tag, RemovesTag a tag → ¬ IsFp tag) ?_
      intro tag ht
      cases ht with
      | inside ha h =>
        simp only [List.mem_cons, List.not_mem_nil, or_false] at ha
        rcases ha with rfl | rfl | rfl <;> cases h
        decide +kernel
    · refine Ex.pipe_all (P := PlainAction) ⟨?_, ?_⟩
      · intro tag ht
        cases ht with
        | inside hm ht =>
          simp only [List.mem_cons, List.not_mem_nil, or_false] at hm
          rcases hm with rfl | rfl | rfl <;> cases ht
          decide +kernel
      · intro k v ht
        cases ht with
        | inside hm ht =>
          simp only [List.mem_cons, List.not_mem_nil, or_false] at hm
          rcases hm with rfl | rfl | rfl <;> cases ht
  rcases List.mem_cons.1 hs with rfl | hs
  · exact .inl (.inr ⟨rfl, fun _ => rfl, rfl, rfl, Ex.file "a", by simp, rfl⟩)
  · rw [List.mem_singleton.1 hs]
    exact .inl (.inr ⟨rfl, fun _ => rfl, trivial⟩)

end Verif
