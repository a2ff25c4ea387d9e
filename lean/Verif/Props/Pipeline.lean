import Verif.Spec.Pipeline
import Verif.Props.KeepTags
import Verif.Props.NewRules
import Verif.Props.RewriteAgain
import Verif.Props.ImportMerge
import Verif.Props.ImportCmd

/-!
# C72: from a statement to the journal, through files
-/

namespace Verif
open Spec Spec.Book Spec.Rules Verif.Rules

/-! ### What rules cannot spoil -/

/-- Something that is run consists of actions with this property. -/
def JobAll (P : Action → Prop) : Job → Prop
  | .action a => P a
  | .actions as => ∀ a ∈ as, P a
  | .rules rs => ∀ r ∈ rs, P r.action

theorem runs_inv {lower : Str → Str} {T : Table} {I : Ctx → Prop} {P : Action → Prop}
    (hall : ∀ as, P (.all as) → ∀ a ∈ as, P a) (hch : ∀ {a c c'}, Changes a c c' → P a → I c → I c')
    (hT : ∀ (name : Str) (ch : Chain), T[name]? = some ch → ∀ r ∈ ch, P r.action) {j : Job} {c : Ctx} {r : Res}
    (h : Runs lower T j c r) : JobAll P j → I c → ∀ c', r = .ok c' → I c' := by
  induction h with
  | change h => intro hj hc c' he; cases he; exact hch h hj hc
  | report => intro _ _ _ h; cases h
  | all _ ih => intro hj; exact ih (hall _ hj)
  | jump hn _ ih => intro _; exact ih (hT _ _ hn)
  | noChain => intro _ _ _ h; cases h
  | actionsNil => intro _ hc _ h; cases h; exact hc
  | actionsCons _ _ ih1 ih2 =>
    intro hj hc c' h
    exact ih2 (fun a ha => hj a (List.mem_cons_of_mem _ ha)) (ih1 (hj _ List.mem_cons_self) hc _ rfl) _ h
  | actionsError => intro _ _ _ h; cases h
  | rulesNil => intro _ hc _ h; cases h; exact hc
  | skip _ _ ih => intro hj; exact ih fun r hr => hj r (List.mem_cons_of_mem _ hr)
  | continue_ _ _ _ ih1 ih2 =>
    intro hj hc c' h
    exact ih2 (fun r hr => hj r (List.mem_cons_of_mem _ hr)) (ih1 (hj _ List.mem_cons_self) hc _ rfl) _ h
  | return_ _ _ ih => intro hj; exact ih (hj _ List.mem_cons_self)
  | ruleError => intro _ _ _ h; cases h

theorem runsPosts_inv {lower : Str → Str} {T : Table} {A : TransactionInternal → Prop} {B : PostingInternal → Prop}
    {P : Action → Prop} (hall : ∀ as, P (.all as) → ∀ a ∈ as, P a)
    (hch : ∀ {a c c'}, Changes a c c' → P a → A c.trn ∧ B c.post → A c'.trn ∧ B c'.post)
    (hT : ∀ (name : Str) (ch : Chain), T[name]? = some ch → ∀ r ∈ ch, P r.action) {start : List Rule}
    (hs : ∀ r ∈ start, P r.action) {t : TransactionInternal} {ps : List PostingInternal} {r}
    (h : RunsPosts lower T start t ps r) : A t → (∀ p ∈ ps, B p) → ∀ t' ps', r = .ok (t', ps') → A t' ∧ ∀ p ∈ ps', B p := by
  induction h with
  | nil => intro ha _ _ _ h; cases h; exact ⟨ha, by intro p hp; cases hp⟩
  | cons h1 _ ih =>
    intro ha hb t' ps' h
    cases h
    obtain ⟨a1, b1⟩ := runs_inv (I := fun c => A c.trn ∧ B c.post) hall hch hT h1 hs ⟨ha, hb _ List.mem_cons_self⟩ _ rfl
    obtain ⟨a2, b2⟩ := ih a1 (fun p hp => hb p (List.mem_cons_of_mem _ hp)) _ _ rfl
    refine ⟨a2, ?_⟩
    intro p hp
    rcases List.mem_cons.1 hp with rfl | hp
    · exact b1
    · exact b2 p hp
  | error => intro _ _ _ _ h; cases h
  | later => intro _ _ _ _ h; cases h

theorem update_inv {lower : Str → Str} {T : Table} {A : TransactionInternal → Prop} {B : PostingInternal → Prop}
    {P : Action → Prop} (hall : ∀ as, P (.all as) → ∀ a ∈ as, P a)
    (hch : ∀ {a c c'}, Changes a c c' → P a → A c.trn ∧ B c.post → A c'.trn ∧ B c'.post)
    (hT : ∀ (name : Str) (ch : Chain), T[name]? = some ch → ∀ r ∈ ch, P r.action) {fuel : Nat}
    {ts ts' : List TransactionPostings} (h : T.updateTransactions lower fuel ts = .ok ts')
    (hts : ∀ t ∈ ts, A t.trn ∧ ∀ p ∈ t.posts, B p) : ∀ t ∈ ts', A t.trn ∧ ∀ p ∈ t.posts, B p := by
  rw [updateTransactions_ok] at h
  intro t' ht'
  obtain ⟨t, ht, hu⟩ := forall₂_mem_right h ht'
  have hr := (C31_semantics lower T t).1 fuel (by rw [hu]; simp)
  rw [hu] at hr
  cases hr with
  | ok hc h => exact runsPosts_inv hall hch hT (hT _ _ hc) h (hts t ht).1 (hts t ht).2 _ _ rfl

theorem plain_inside {as : List Action} (h : PlainAction (.all as)) : ∀ a ∈ as, PlainAction a :=
  fun _ ha => ⟨fun tag ht => h.1 tag (.inside ha ht), fun k v hv => h.2 k v (.inside ha hv)⟩

/-- The parts of the comment can be told apart. -/
theorem changes_parsed {a : Action} {c c' : Ctx} (h : Changes a c c') (hp : PlainAction a)
    (hc : Parsed c.trn.comment ∧ Parsed c.post.comment) : Parsed c'.trn.comment ∧ Parsed c'.post.comment := by
  obtain ⟨ht, hq⟩ := hc
  have value : ∀ {d : Comment} {values : StrMap} {key value : Str}, Parsed d → values[key]? = some value →
      (∀ k, k ≠ key → values[k]? = d.valueTags[k]?) → Word key ∧ Trimmed key ∧ '\n' ∉ key ∧ '\n' ∉ value →
      Parsed ⟨d.lines, d.tags, values⟩ := by
    intro d values key value hd h1 h2 h3
    refine ⟨hd.tags, ?_, hd.lines⟩
    intro k v hkv
    by_cases hk : k = key
    · subst hk
      rw [show values[k]? = some value from h1] at hkv
      cases hkv
      exact ⟨h3.1, h3.2.2.1, h3.2.2.2⟩
    · exact hd.keys k v (by rw [← h2 k hk]; exact hkv)
  have novalue : ∀ {d : Comment} {values : StrMap} {key : Str}, Parsed d → values[key]? = none →
      (∀ k, k ≠ key → values[k]? = d.valueTags[k]?) → Parsed ⟨d.lines, d.tags, values⟩ := by
    intro d values key hd h1 h2
    refine ⟨hd.tags, ?_, hd.lines⟩
    intro k v hkv
    by_cases hk : k = key
    · subst hk
      rw [show values[k]? = none from h1] at hkv
      cases hkv
    · exact hd.keys k v (by rw [← h2 k hk]; exact hkv)
  cases h with
  | addPostingFlagTag h =>
    refine ⟨ht, ⟨?_, hq.keys, hq.lines⟩⟩
    intro t hm
    rcases (h t).1 hm with rfl | hm
    · exact hp.1 _ .post
    · exact hq.tags t hm
  | removePostingFlagTag h => exact ⟨ht, ⟨fun t hm => hq.tags t ((h t).1 hm).2, hq.keys, hq.lines⟩⟩
  | addPostingValueTag h1 h2 => exact ⟨ht, value hq h1 h2 (hp.2 _ _ .post)⟩
  | removePostingValueTag h1 h2 => exact ⟨ht, novalue hq h1 h2⟩
  | addTransactionFlagTag h =>
    refine ⟨⟨?_, ht.keys, ht.lines⟩, hq⟩
    intro t hm
    rcases (h t).1 hm with rfl | hm
    · exact hp.1 _ .trn
    · exact ht.tags t hm
  | removeTransactionFlagTag h => exact ⟨⟨fun t hm => ht.tags t ((h t).1 hm).2, ht.keys, ht.lines⟩, hq⟩
  | addTransactionValueTag h1 h2 => exact ⟨value ht h1 h2 (hp.2 _ _ .trn), hq⟩
  | removeTransactionValueTag h1 h2 => exact ⟨novalue ht h1 h2, hq⟩
  | setAccount => exact ⟨ht, hq⟩
  | replaceTransactionDescription => exact ⟨ht, hq⟩
  | noop => exact ⟨ht, hq⟩

/-! ### The three commands, one after the other -/

theorem fromLedger_import (ts : List Transaction) :
    TransactionPostings.fromLedger (ledgerFromTransactions ts) = some (ts.map TransactionPostings.ofTransaction) := by
  have h1 : ∀ l : List Transaction, transactionsOf (intersperse .emptyLine (l.map .transaction)) = l := by
    intro l
    induction l with
    | nil => rfl
    | cons a l ih =>
      cases l with
      | nil => rfl
      | cons b l =>
        show transactionsOf (.transaction a :: .emptyLine :: intersperse .emptyLine ((b :: l).map .transaction)) = _
        unfold transactionsOf at ih ⊢
        rw [List.filterMap_cons, List.filterMap_cons, ih]
  rw [C62_read, if_neg, show (ledgerFromTransactions ts).items = intersperse .emptyLine (ts.map .transaction) from rfl, h1]
  rw [Bool.not_eq_true, List.any_eq_false]
  intro i hi
  rcases mem_intersperse hi with rfl | hi
  · simp [isOther]
  · obtain ⟨t, _, rfl⟩ := List.mem_map.1 hi
    simp [isOther]

/-- A statement is imported to the file `raw`, and rules are applied to it with the result in the file `ruled`. Both commands are
successful. Afterwards the system is `next`. Between commands only their own effects on files are seen; standard input, faults and random
values can be others for each command. -/
structure Prepared (sys : Sys) (L : ImportLib) (importer : ImportCmd.Importer) (lower : Str → Str) (T : Table)
    (raw ruled : Str) (imp : Import) (next : Sys) where
  args : ImportCmd.Args
  hasParent : Str → Bool
  fuel : Nat
  order : HashOrder
  w1 : World
  w2 : World
  between : Sys
  imports : importer.doImport L = .ok imp
  output : WritesTo args imp.userFpNamespace (.path raw)
  run1 : ImportCmd.run sys L hasParent importer args World.start = (.ok (), w1)
  between_eq : ∃ i f r, between = sysAfter sys w1.log i f r
  run2 : applyRules between order lower fuel (some T) (.path raw) (.path ruled) World.start = (.ok (), w2)
  next_eq : ∃ i f r, next = sysAfter between w2.log i f r

/-- The printed ledgers that are read by the next command are read as they were printed. -/
structure Prepared.Faithful {sys L importer lower T raw ruled imp next} (P : Prepared sys L importer lower T raw ruled imp next) :
    Prop where
  raw : sys.parse (sys.render (ledgerFromTransactions imp.transactions)) = some (ledgerFromTransactions imp.transactions)
  ruled : ∀ ts, T.updateTransactions lower P.fuel imp.postings = .ok ts →
    sys.parse (sys.render (TransactionPostings.intoLedger P.order ts)) = some (TransactionPostings.intoLedger P.order ts)

/-- The result is merged with other files, before it and after it, to the file `merged`, successfully. At the end the contents of files
are `files`. -/
def Merges (next : Sys) (before : List FileSpec) (ruled : Str) (after : List FileSpec) (merged : Str) (files : Nat → Option Bytes) : Prop :=
  ∃ orders w, MergeCmd.run next orders ⟨before ++ .path ruled :: after, none, .path merged⟩ World.start = (.ok (), w) ∧
    files = contentsAfter next.start w.log

section
variable {sys : Sys} {L : ImportLib} {importer : ImportCmd.Importer} {lower : Str → Str} {T : Table} {raw ruled merged : Str}
  {before after : List FileSpec} {imp : Import} {next : Sys} {files : Nat → Option Bytes}

/-- What is merged: the rules are applied to what was imported, and the result is read again. -/
theorem Prepared.reads (P : Prepared sys L importer lower T raw ruled imp next) (hF : P.Faithful) :
    ∃ ts, T.updateTransactions lower P.fuel imp.postings = .ok ts ∧
      ∀ again, ledgerAt next next.start again (.path ruled) = some (TransactionPostings.intoLedger P.order ts) := by
  obtain ⟨i1, f1, r1, e1⟩ := P.between_eq
  obtain ⟨i2, f2, r2, e2⟩ := P.next_eq
  -- the import
  have h1 := C57_run sys L P.hasParent importer P.args
  rw [P.run1] at h1
  obtain ⟨imp', f, hi, hw, _, hlog⟩ := h1
  rw [P.imports] at hi
  cases hi
  have hf : f = .path raw := by
    have a := (C57_output ..).2 hw
    rw [(C57_output ..).2 P.output] at a
    exact (Option.some.inj a).symm
  subst hf
  simp only at hlog
  -- the rules
  obtain ⟨T', l, us, ts, hT, hl, hus, hts, hlog2⟩ := (applyRules_sat P.between P.order lower P.fuel (some T) (.path raw) (.path ruled)).ok P.run2
  cases hT
  have hl1 : ledgerAt P.between P.between.start false (.path raw) = some (ledgerFromTransactions imp.transactions) := by
    rw [e1]
    unfold ledgerAt
    show ((contentsAfter sys.start P.w1.log (sys.file raw)).bind decodeUtf8).bind sys.parse = _
    rw [hlog, contentsAfter_whole, if_pos (show fileOf sys (.path raw) = some (sys.file raw) from rfl), Option.bind_some,
      decode_encode, Option.bind_some, hF.raw]
  rw [hl1] at hl
  cases hl
  rw [fromLedger_import] at hus
  cases hus
  refine ⟨ts, hts, fun again => ?_⟩
  suffices ∀ n, n = sysAfter P.between P.w2.log i2 f2 r2 → ledgerAt n n.start again (.path ruled) = some (TransactionPostings.intoLedger P.order ts)
    from this next e2
  rintro _ rfl
  unfold ledgerAt
  show ((contentsAfter P.between.start P.w2.log (P.between.file ruled)).bind decodeUtf8).bind P.between.parse = _
  rw [hlog2, contentsAfter_whole, if_pos (show fileOf P.between (.path ruled) = some (P.between.file ruled) from rfl), Option.bind_some,
    decode_encode, Option.bind_some, e1]
  exact hF.ruled ts hts

theorem Prepared.same (P : Prepared sys L importer lower T raw ruled imp next) : next.file = sys.file ∧ next.render = sys.render := by
  obtain ⟨i1, f1, r1, e1⟩ := P.between_eq
  obtain ⟨i2, f2, r2, e2⟩ := P.next_eq
  rw [e2, e1]
  exact ⟨rfl, rfl⟩

/-- What is in the file at the end. -/
theorem merges_writes (hM : Merges next before ruled after merged files) :
    ∃ gs h, mergeInputs next false (before ++ .path ruled :: after) = some gs ∧ ¬ Refused Book.empty gs ∧ leftOver Book.empty gs = [] ∧
      files (next.file merged) =
        some (encodeUtf8 (next.render (TransactionPostings.intoLedger h ((bookAfter gs).journal.map unsourced)))) := by
  obtain ⟨orders, w, hrun, rfl⟩ := hM
  obtain ⟨gs, u, h, hin, hb, hu, h4, hlog⟩ := (mergeCmd_sat next orders _).ok hrun
  have hu0 : u = [] := h4.elim id (fun h => absurd rfl h)
  refine ⟨gs, h, hin, hb, ?_, ?_⟩
  · have := handedBackAll_nil hu
    rw [hu0] at this
    exact List.forall₂_nil_right_iff.1 this
  · rw [hlog, hu0]
    have : mergePlan next h ⟨before ++ .path ruled :: after, none, .path merged⟩ [] ((bookAfter gs).journal.map unsourced) =
        [(.path merged, next.render (TransactionPostings.intoLedger h ((bookAfter gs).journal.map unsourced)))] := rfl
    rw [this, show wholeWrites next [(FileSpec.path merged, next.render (TransactionPostings.intoLedger h ((bookAfter gs).journal.map unsourced)))] =
      wholeWrite next (.path merged) (next.render (TransactionPostings.intoLedger h ((bookAfter gs).journal.map unsourced))) by
        simp [wholeWrites], contentsAfter_whole]
    exact if_pos rfl

theorem ofTransaction_parsed (t : Transaction) : Parsed (TransactionPostings.ofTransaction t).trn.comment ∧
    ∀ p ∈ (TransactionPostings.ofTransaction t).posts, Parsed p.comment := by
  refine ⟨C28_parts _, ?_⟩
  intro p hp
  obtain ⟨q, _, rfl⟩ := List.mem_map.1 (show p ∈ t.postings.map PostingInternal.ofPosting from hp)
  exact C28_parts _

/-- C72: a statement is imported, rules are applied, and the result is merged with other files, all successfully and with nothing
left unmerged. If no rule touches fingerprints and what the rules add can be told apart in comments, then every imported transaction is in
the written journal: one transaction there has all its postings, recognised by all their fingerprints. And no fingerprint is there
twice. -/
theorem C72_nothing_lost (P : Prepared sys L importer lower T raw ruled imp next) (hF : P.Faithful)
    (hM : Merges next before ruled after merged files) (hT : LeavesFingerprints T) (hT' : PlainTable T) :
    ∃ js h, files (sys.file merged) = some (encodeUtf8 (sys.render (TransactionPostings.intoLedger h js))) ∧
      (∀ t ∈ imp.transactions, t.postings ≠ [] ∧
        ∃ J ∈ js, ∀ p ∈ t.postings, ∃ q ∈ J.posts, ∀ f, fingerprintsIn p f → f ∈ tagsOf q) ∧
      (postingsOf js).Pairwise (fun p q => ∀ f ∈ tagsOf p, IsFp f → f ∉ tagsOf q) := by
  obtain ⟨ts, hts, hread⟩ := P.reads hF
  obtain ⟨gs, h, hin, hb, hl, hfinal⟩ := merges_writes hM
  rw [P.same.1, P.same.2] at hfinal
  obtain ⟨hr, hm⟩ := made_of_calls reached_empty made_empty hb hl
  rw [List.nil_append] at hm
  change Reached (bookAfter gs) at hr
  change Made (bookAfter gs) _ at hm
  refine ⟨_, h, hfinal, ?_, ?_⟩
  · intro t ht
    -- the transaction, after the rules and as it is read from the file
    have hmarks := updateTransactions_marks hT hts
    obtain ⟨u, hu, hmk⟩ := forall₂_mem_left hmarks (List.mem_map.2 ⟨t, ht, rfl⟩ : _ ∈ imp.postings)
    have hpar : ∀ x ∈ ts, Parsed x.trn.comment ∧ ∀ p ∈ x.posts, Parsed p.comment :=
      update_inv (A := fun x => Parsed x.comment) (B := fun p => Parsed p.comment) (fun as h => plain_inside h) changes_parsed hT' hts
        (fun x hx => by obtain ⟨t', _, rfl⟩ := List.mem_map.1 hx; exact ofTransaction_parsed t')
    -- the group in which it is merged
    obtain ⟨gs₁, gs₂, again, rfl, hin2⟩ := mergeInputs_append hin
    rw [mergeInputs, hread, Option.bind_some, C62_reread, Option.bind_some, Option.map_eq_some_iff] at hin2
    obtain ⟨gs₃, _, rfl⟩ := hin2
    have hmem : sourced ((FileSpec.path ruled).display next) (Spec.reread P.order u) ∈
        (Sources.groups HashOrder.sorted ((FileSpec.path ruled).display next) (ts.map (Spec.reread P.order))).flatten := by
      rw [(C23_nothing_lost _ _ _).1.mem_iff]
      exact List.mem_map_of_mem (List.mem_map_of_mem hu)
    obtain ⟨g, hg, hug⟩ := List.mem_flatten.1 hmem
    have hset := hm.settled g (List.mem_append_right _ (List.mem_append_left _ hg))
    have hcon := hset.contains hr.wf
    have hposts : (sourced ((FileSpec.path ruled).display next) (Spec.reread P.order u)).posts = u.posts.map (rereadPost P.order) := rfl
    constructor
    · intro he
      have h0 := hset.nonempty _ hug
      rw [hposts] at h0
      have hlen := hmk.length_eq
      rw [show (TransactionPostings.ofTransaction t).posts = t.postings.map PostingInternal.ofPosting from rfl, he] at hlen
      exact h0 (by rw [List.map_eq_nil_iff]; exact List.length_eq_zero_iff.1 hlen.symm)
    · obtain ⟨J, hJ, hh⟩ := hcon.home _ hug
      refine ⟨unsourced J, List.mem_map_of_mem hJ, ?_⟩
      intro p hp
      obtain ⟨v, hv, hpv⟩ := forall₂_mem_left hmk (List.mem_map.2 ⟨p, hp, rfl⟩ : PostingInternal.ofPosting p ∈ t.postings.map PostingInternal.ofPosting)
      obtain ⟨q, hq, hfp⟩ := hh (rereadPost P.order v) (by rw [hposts]; exact List.mem_map_of_mem hv)
      refine ⟨q, hq, ?_⟩
      rintro f ⟨hf, hfm⟩
      have h1 : f ∈ tagsOf v := (hpv f (.inl hf)).2 hfm
      have h2 : f ∈ tagsOf (rereadPost P.order v) := ((hpar u hu).2 v hv).keeps P.order f h1
      exact (mem_fps.1 (hfp f (mem_fps.2 ⟨h2, hf⟩))).1
  · have e : postingsOf ((bookAfter gs).journal.map unsourced) = postingsOf (bookAfter gs).journal := by
      unfold postingsOf allPosts
      rw [List.flatMap_map]
      rfl
    rw [e]
    refine (pairwise_journal hr.wf).imp ?_
    intro p q hpq f hf hfp hf'
    exact hpq ⟨f, mem_fps.2 ⟨hf, hfp⟩, mem_fps.2 ⟨hf', hfp⟩⟩

/-! ### With no other files -/

/-- The comment of an imported transaction after the rules: it has no text, and it does not name a source. -/
structure Quiet (c : Comment) : Prop where
  parsed : Parsed c
  lines : c.lines = []
  keys : ∀ (k v : Str), c.valueTags[k]? = some v → Trimmed k
  source : c.valueTags[srcKey]? = none

/-- The parts of the comment can be told apart, and no key is blank. -/
def Clear (c : Comment) : Prop := Parsed c ∧ ∀ (k v : Str), c.valueTags[k]? = some v → k.trim ≠ []

theorem changes_clear {a : Action} {c c' : Ctx} (h : Changes a c c') (hp : PlainAction a ∧ ∀ v, ¬ AddsValue a srcKey v)
    (hc : Quiet c.trn.comment ∧ Clear c.post.comment) : Quiet c'.trn.comment ∧ Clear c'.post.comment := by
  obtain ⟨h1, h2⟩ := changes_parsed h hp.1 ⟨hc.1.parsed, hc.2.1⟩
  have hw : ∀ {k : Str}, Word k → Trimmed k → k.trim ≠ [] := fun hw ht => by rw [trim_trimmed ht]; exact hw.1
  cases h with
  | addPostingFlagTag h => exact ⟨hc.1, h2, hc.2.2⟩
  | removePostingFlagTag h => exact ⟨hc.1, h2, hc.2.2⟩
  | addPostingValueTag e1 e2 =>
    rename_i key value values
    refine ⟨hc.1, h2, ?_⟩
    intro k v hkv
    have := hp.1.2 _ _ .post
    by_cases hk : k = key
    · subst hk; exact hw this.1 this.2.1
    · exact hc.2.2 k v (by rw [← e2 k hk]; exact hkv)
  | removePostingValueTag e1 e2 =>
    rename_i key values
    refine ⟨hc.1, h2, ?_⟩
    intro k v hkv
    by_cases hk : k = key
    · subst hk; cases e1.symm.trans hkv
    · exact hc.2.2 k v (by rw [← e2 k hk]; exact hkv)
  | addTransactionFlagTag h => exact ⟨⟨h1, hc.1.lines, hc.1.keys, hc.1.source⟩, hc.2⟩
  | removeTransactionFlagTag h => exact ⟨⟨h1, hc.1.lines, hc.1.keys, hc.1.source⟩, hc.2⟩
  | addTransactionValueTag e1 e2 =>
    rename_i key value values
    have := hp.1.2 _ _ .trn
    refine ⟨⟨h1, hc.1.lines, ?_, ?_⟩, hc.2⟩
    · intro k v hkv
      by_cases hk : k = key
      · subst hk; exact this.2.1
      · exact hc.1.keys k v (by rw [← e2 k hk]; exact hkv)
    · have hne : srcKey ≠ key := by rintro rfl; exact hp.2 _ .trn
      exact (e2 _ hne).trans hc.1.source
  | removeTransactionValueTag e1 e2 =>
    rename_i key values
    refine ⟨⟨h1, hc.1.lines, ?_, ?_⟩, hc.2⟩
    · intro k v hkv
      by_cases hk : k = key
      · subst hk; cases e1.symm.trans hkv
      · exact hc.1.keys k v (by rw [← e2 k hk]; exact hkv)
    · by_cases hk : srcKey = key
      · subst hk; exact e1
      · exact (e2 _ hk).trans hc.1.source
  | setAccount => exact hc
  | replaceTransactionDescription => exact hc
  | noop => exact hc

theorem unsourced_of_none {t : TransactionPostings} (h : t.trn.comment.valueTags[srcKey]? = none) : unsourced t = t := by
  have : t.trn.comment.valueTags.erase srcKey = t.trn.comment.valueTags := by
    apply Std.ExtTreeMap.ext_getElem?
    intro k
    rw [Std.ExtTreeMap.getElem?_erase]
    split
    · rename_i hk
      rw [Std.LawfulEqCmp.compare_eq_iff_eq] at hk
      subst hk
      exact h.symm
    · rfl
  unfold unsourced
  rw [this]

theorem unsourced_sourced_of_none {d : Str} {t : TransactionPostings} (h : t.trn.comment.valueTags[srcKey]? = none) :
    unsourced (sourced d t) = t := by
  have := unsourced_sourced d t
  rwa [unsourced_of_none h] at this

/-- No imported transaction has a comment, and in the comments of postings no key is blank. -/
structure PlainImport (imp : Import) : Prop where
  comment : ∀ t ∈ imp.transactions, t.comment = none
  keys : ∀ t ∈ imp.transactions, ∀ p ∈ t.postings, ∀ (k v : Str), (Comment.fromOptComment p.comment).valueTags[k]? = some v → k.trim ≠ []

/-- What is read from the file with the rules applied: the transactions of the import, in its order. -/
theorem Prepared.content (P : Prepared sys L importer lower T raw ruled imp next) (hF : P.Faithful) (hT : LeavesFingerprints T)
    (hT' : PlainTable T) (hs : NotesNoSource T) (hi : PlainImport imp) :
    ∃ rs : List TransactionPostings, List.Forall₂ (fun t R => IsImported t R ∧ List.Forall₂ (fun p q => SameMarks (.ofPosting p) q) t.postings R.posts)
        imp.transactions rs ∧
      (∀ R ∈ rs, R.trn.comment.valueTags[srcKey]? = none) ∧
      ∀ again, (ledgerAt next next.start again (.path ruled)).bind TransactionPostings.fromLedger = some rs := by
  obtain ⟨ts, hts, hread⟩ := P.reads hF
  have hinv : ∀ x ∈ ts, Quiet x.trn.comment ∧ ∀ p ∈ x.posts, Clear p.comment := by
    refine update_inv (A := fun x => Quiet x.comment) (B := fun p => Clear p.comment)
      (P := fun a => PlainAction a ∧ ∀ v, ¬ AddsValue a srcKey v) (fun as h a ha => ⟨plain_inside h.1 a ha, fun v hv => h.2 v (.inside ha hv)⟩)
      changes_clear (fun n ch hn r hr => ⟨hT' n ch hn r hr, hs n ch hn r hr⟩) hts ?_
    intro x hx
    obtain ⟨t, ht, rfl⟩ := List.mem_map.1 hx
    refine ⟨?_, ?_⟩
    · have : (TransactionPostings.ofTransaction t).trn.comment = Comment.fromOptComment t.comment := rfl
      rw [this, hi.comment t ht]
      refine ⟨C28_parts none, rfl, ?_, ?_⟩
      · intro k v hkv
        have : (∅ : StrMap)[k]? = some v := hkv
        rw [Std.ExtTreeMap.getElem?_empty] at this
        cases this
      · exact Std.ExtTreeMap.getElem?_empty
    · intro p hp
      obtain ⟨q, hq, rfl⟩ := List.mem_map.1 (show p ∈ t.postings.map PostingInternal.ofPosting from hp)
      exact ⟨C28_parts _, hi.keys t ht q hq⟩
  have hnone : ∀ R ∈ ts.map (Spec.reread P.order), R.trn.comment.valueTags[srcKey]? = none := by
    intro R hR
    obtain ⟨t, ht, rfl⟩ := List.mem_map.1 hR
    have hq := (hinv t ht).1
    exact no_new_key hq.parsed hq.lines hq.keys P.order hq.source
  refine ⟨ts.map (Spec.reread P.order), ?_, hnone, ?_⟩
  · have h34 := C34_unchanged lower T P.fuel _ _ hts
    have hmk := updateTransactions_marks hT hts
    unfold Import.postings at h34 hmk
    rw [List.forall₂_map_left_iff] at h34 hmk
    rw [List.forall₂_map_right_iff, List.forall₂_iff_get]
    refine ⟨h34.length_eq, ?_⟩
    intro i h1 h2
    have ha := (List.forall₂_iff_get.1 h34).2 i h1 h2
    have hb := (List.forall₂_iff_get.1 hmk).2 i h1 h2
    have hc := hinv (ts.get ⟨i, h2⟩) (List.get_mem ..)
    generalize imp.transactions.get ⟨i, h1⟩ = t at ha hb
    generalize ts.get ⟨i, h2⟩ = u at ha hb hc
    have hbb : List.Forall₂ (fun (p : Posting) q => SamePosting (.ofPosting p) q ∧ SameMarks (.ofPosting p) q ∧ Clear q.comment) t.postings u.posts := by
      have a1 : List.Forall₂ SamePosting (t.postings.map PostingInternal.ofPosting) u.posts := ha.2
      have b1 : List.Forall₂ SameMarks (t.postings.map PostingInternal.ofPosting) u.posts := hb
      rw [List.forall₂_map_left_iff] at a1 b1
      rw [List.forall₂_iff_get] at a1 b1 ⊢
      exact ⟨a1.1, fun j g1 g2 => ⟨a1.2 j g1 g2, b1.2 j g1 g2, hc.2 _ (List.get_mem ..)⟩⟩
    have hkeep : ∀ {p : Posting} {q : PostingInternal}, SamePosting (.ofPosting p) q ∧ SameMarks (.ofPosting p) q ∧ Clear q.comment →
        SameMarks (.ofPosting p) (rereadPost P.order q) := by
      intro p q h tag ht
      have : tagsOf (rereadPost P.order q) = tagsOf q := h.2.2.1.keeps_iff h.2.2.2 P.order
      rw [this]
      exact h.2.1 tag ht
    refine ⟨⟨ha.1.date, ha.1.effectiveDate, ha.1.status, ha.1.code, ?_⟩, ?_⟩
    · show List.Forall₂ _ t.postings (u.posts.map (rereadPost P.order))
      rw [List.forall₂_map_right_iff]
      refine hbb.imp ?_
      intro p q h
      refine ⟨h.1.amount, h.1.balance, h.1.status, h.1.reality, fun f => ?_⟩
      rw [mem_fps]
      have := hkeep h f
      constructor
      · intro hf; exact ⟨hf.2, (this (.inl hf.2)).1 hf.1⟩
      · intro hf; exact ⟨(this (.inl hf.1)).2 hf.2, hf.1⟩
    · show List.Forall₂ _ t.postings (u.posts.map (rereadPost P.order))
      rw [List.forall₂_map_right_iff]
      exact hbb.imp fun _ _ h => hkeep h
  · intro again
    rw [hread, Option.bind_some, C62_reread]

/-- The one group of transactions that is merged, in the order of the import. -/
theorem Prepared.group (P : Prepared sys L importer lower T raw ruled imp next) (hF : P.Faithful) (hT : LeavesFingerprints T)
    (hT' : PlainTable T) (hs : NotesNoSource T) (hi : PlainImport imp) :
    ∃ rs : List TransactionPostings, List.Forall₂ (fun t R => IsImported t R ∧ List.Forall₂ (fun p q => SameMarks (.ofPosting p) q) t.postings R.posts)
        imp.transactions rs ∧
      (∀ R ∈ rs, R.trn.comment.valueTags[srcKey]? = none) ∧
      mergeInputs next false [.path ruled] = some (if rs = [] then [] else [rs.map (sourced ((FileSpec.path ruled).display next))]) := by
  obtain ⟨rs, hrs, hnone, hread⟩ := P.content hF hT hT' hs hi
  refine ⟨rs, hrs, hnone, ?_⟩
  obtain ⟨l, hl, hrd⟩ := Option.bind_eq_some_iff.1 (hread false)
  rw [mergeInputs, hl, Option.bind_some, hrd, Option.bind_some, mergeInputs, Option.map_some, List.append_nil]
  have : rs = rs.map unsourced := by
    conv_lhs => rw [← List.map_id rs]
    exact List.map_congr_left fun R hR => (unsourced_of_none (hnone R hR)).symm
  rw [this, groups_unsourced, ← this]
  congr 1
  split
  · rfl
  · congr 1
    exact List.map_congr_left fun R hR => by rw [unsourced_of_none (hnone R hR)]

/-- C72, with no other files: if the merge is successful, the journal has exactly the imported transactions, sorted by date and among equal dates in the
order of the import, each with its date and its postings, with the same money and the same fingerprints. -/
theorem C72_fresh (P : Prepared sys L importer lower T raw ruled imp next) (hF : P.Faithful)
    (hM : Merges next [] ruled [] merged files) (hT : LeavesFingerprints T) (hT' : PlainTable T) (hs : NotesNoSource T) (hi : PlainImport imp) :
    ∃ js h, files (sys.file merged) = some (encodeUtf8 (sys.render (TransactionPostings.intoLedger h js))) ∧
      js.Pairwise (fun t u => (compare t.trn.raw.date u.trn.raw.date).isLE = true) ∧
      ∀ d : Date, List.Forall₂ IsImported (imp.transactions.filter fun t => t.date = d) (js.filter fun J => J.trn.raw.date = d) := by
  obtain ⟨rs, hrs, hnone, hin⟩ := P.group hF hT hT' hs hi
  obtain ⟨gs, h, hin', hb, hl, hfinal⟩ := merges_writes hM
  rw [P.same.1, P.same.2] at hfinal
  rw [List.nil_append, hin] at hin'
  cases hin'
  have hj : (bookAfter (if rs = [] then [] else [rs.map (sourced ((FileSpec.path ruled).display next))])).journal.map unsourced = byDate rs := by
    split
    · rename_i e
      subst e
      rw [journal_eq]
      show (([] : List TransactionPostings).mergeSort _).map unsourced = [].mergeSort _
      rw [List.mergeSort_nil, List.map_nil]
    · rename_i e
      rw [if_neg e] at hl
      rw [show bookAfter [rs.map (sourced ((FileSpec.path ruled).display next))] = Book.empty.after (rs.map (sourced ((FileSpec.path ruled).display next))) from rfl,
        journal_eq, entries_empty_after]
      · unfold byDate
        rw [List.map_mergeSort (r := fun a b => (compare (dateOf a) (dateOf b)).isLE) (f := unsourced)
          (s := fun a b => (compare (dateOf a) (dateOf b)).isLE) (fun _ _ _ _ => rfl), List.map_map]
        congr 1
        conv_rhs => rw [← List.map_id rs]
        exact List.map_congr_left fun R hR => unsourced_sourced_of_none (hnone R hR)
      · intro t ht
        have := (leftOver_cons_nil.1 hl).1 t ht
        rwa [empty_undecided] at this
  rw [hj] at hfinal
  refine ⟨_, h, hfinal, sorted_mergeSort dateOf rs, ?_⟩
  intro d
  have := filter_byDate rs d
  rw [show (fun J : TransactionPostings => decide (J.trn.raw.date = d)) = (fun t => decide (dateOf t = d)) from rfl, this]
  refine forall₂_filter (fun t R h => ?_) (hrs.imp fun _ _ h => h.1)
  rw [decide_eq_decide]
  show t.date = d ↔ R.trn.raw.date = d
  rw [h.date]

/-- What is needed of imported transactions so that they can be merged: all have postings, all postings have fingerprints and no candidate
tags, and no fingerprint is there twice. -/
structure Mergeable (ts : List Transaction) : Prop where
  postings : ∀ t ∈ ts, t.postings ≠ []
  fingerprint : ∀ t ∈ ts, ∀ p ∈ t.postings, ∃ f, fingerprintsIn p f
  candidate : ∀ t ∈ ts, ∀ p ∈ t.postings, ∀ c ∈ (Comment.fromOptComment p.comment).tags, ¬ IsCand c
  distinct : NationwideCsv.DistinctFingerprints ts

theorem pairwise_forall₂ {α β : Type} {r : α → β → Prop} {s : α → α → Prop} {s' : β → β → Prop} {as : List α} {bs : List β}
    (h : List.Forall₂ r as bs) (hs : ∀ {a a' b b'}, r a b → r a' b' → (s a a' ↔ s' b b')) : as.Pairwise s ↔ bs.Pairwise s' := by
  induction h with
  | nil => simp
  | @cons a b as bs hab h ih =>
    rw [List.pairwise_cons, List.pairwise_cons, ih]
    refine and_congr_left fun _ => ?_
    constructor
    · intro hall b' hb'
      obtain ⟨a', ha', hr⟩ := forall₂_mem_right h hb'
      exact (hs hab hr).1 (hall a' ha')
    · intro hall a' ha'
      obtain ⟨b', hb', hr⟩ := forall₂_mem_left h ha'
      exact (hs hab hr).2 (hall b' hb')

/-- C72, with no other files: unless an operation on files fails, the merge is successful exactly if the imported transactions can be
merged at all. The rules make no difference, and neither does writing the files and reading them again. -/
theorem C72_succeeds (P : Prepared sys L importer lower T raw ruled imp next) (hF : P.Faithful) (hT : LeavesFingerprints T)
    (hT' : PlainTable T) (hs : NotesNoSource T) (hi : PlainImport imp) (hf : ∀ n, next.fault n = none) (orders : Nat → HashOrder)
    (out : FileSpec) :
    (MergeCmd.run next orders ⟨[.path ruled], none, out⟩ World.start).1 = .ok () ↔ Mergeable imp.transactions := by
  obtain ⟨rs, hrs, hnone, hin⟩ := P.group hF hT hT' hs hi
  have hposts : List.Forall₂ SameMarks (allPosts imp.postings) (allPosts (rs.map (sourced ((FileSpec.path ruled).display next)))) := by
    unfold allPosts Import.postings
    rw [List.flatMap_map, List.flatMap_map]
    refine List.rel_flatMap hrs ?_
    intro t R h
    show List.Forall₂ SameMarks (t.postings.map PostingInternal.ofPosting) R.posts
    rw [List.forall₂_map_left_iff]
    exact h.2
  have hdis : NationwideCsv.DistinctFingerprints imp.transactions ↔
      (allPosts (rs.map (sourced ((FileSpec.path ruled).display next)))).Pairwise (fun p q => ¬ SharesFp p q) := by
    rw [distinct_iff]
    refine pairwise_forall₂ hposts ?_
    intro p p' q q' h1 h2
    unfold SharesFp
    constructor
    · rintro h ⟨f, hf, hf'⟩
      rw [mem_fps] at hf hf'
      exact h f ((h1 f (.inl hf.2)).1 hf.1) hf.2 ((h2 f (.inl hf.2)).1 hf'.1)
    · intro h f hf hfp hf'
      exact h ⟨f, mem_fps.2 ⟨(h1 f (.inl hfp)).2 hf, hfp⟩, mem_fps.2 ⟨(h2 f (.inl hfp)).2 hf', hfp⟩⟩
  have hok : ((∀ t ∈ imp.transactions, ∀ p ∈ t.postings, ∃ f, fingerprintsIn p f) ∧
      ∀ t ∈ imp.transactions, ∀ p ∈ t.postings, ∀ c ∈ (Comment.fromOptComment p.comment).tags, ¬ IsCand c) ↔
      ∀ q ∈ allPosts (rs.map (sourced ((FileSpec.path ruled).display next))), PostOK q := by
    have hmem : ∀ p, p ∈ allPosts imp.postings ↔ ∃ t ∈ imp.transactions, ∃ p' ∈ t.postings, p = .ofPosting p' := by
      intro p
      unfold allPosts
      rw [List.mem_flatMap]
      constructor
      · rintro ⟨t, ht, hp⟩
        exact import_post ht hp
      · rintro ⟨t, ht, p', hp', rfl⟩
        exact ⟨_, List.mem_map_of_mem ht, List.mem_map_of_mem hp'⟩
    constructor
    · rintro ⟨h1, h2⟩ q hq
      obtain ⟨p, hp, hm⟩ := forall₂_mem_right hposts hq
      obtain ⟨t, ht, p', hp', rfl⟩ := (hmem p).1 hp
      refine ⟨fun c hc hcand => h2 t ht p' hp' c ((hm c (.inr hcand)).1 hc) hcand, ?_⟩
      obtain ⟨f, hfp, hfm⟩ := h1 t ht p' hp'
      have : f ∈ fps q := mem_fps.2 ⟨(hm f (.inl hfp)).2 hfm, hfp⟩
      exact List.ne_nil_of_mem this
    · intro h
      have hq : ∀ t ∈ imp.transactions, ∀ p ∈ t.postings, ∃ q, PostOK q ∧ SameMarks (.ofPosting p) q := by
        intro t ht p hp
        obtain ⟨q, hq, hm⟩ := forall₂_mem_left hposts ((hmem _).2 ⟨t, ht, p, hp, rfl⟩)
        exact ⟨q, h q hq, hm⟩
      refine ⟨fun t ht p hp => ?_, fun t ht p hp c hc hcand => ?_⟩
      · obtain ⟨q, hok, hm⟩ := hq t ht p hp
        obtain ⟨f, hf⟩ := List.exists_mem_of_ne_nil _ hok.2
        rw [mem_fps] at hf
        exact ⟨f, hf.2, (hm f (.inl hf.2)).1 hf.1⟩
      · obtain ⟨q, hok, hm⟩ := hq t ht p hp
        exact hok.1 c ((hm c (.inr hcand)).2 hc) hcand
  have hne : (∀ t ∈ imp.transactions, t.postings ≠ []) ↔ ∀ R ∈ rs.map (sourced ((FileSpec.path ruled).display next)), R.posts ≠ [] := by
    have hnil : ∀ {t : Transaction} {R : TransactionPostings}, List.Forall₂ (fun p q => SameMarks (.ofPosting p) q) t.postings R.posts →
        (t.postings = [] ↔ R.posts = []) := by
      intro t R h
      rw [← List.length_eq_zero_iff, ← List.length_eq_zero_iff, h.length_eq]
    constructor
    · intro h R hR
      obtain ⟨R', hR', rfl⟩ := List.mem_map.1 hR
      obtain ⟨t, ht, hm⟩ := forall₂_mem_right hrs hR'
      exact fun e => h t ht ((hnil hm.2).2 e)
    · intro h t ht e
      obtain ⟨R, hR, hm⟩ := forall₂_mem_left hrs ht
      exact h _ (List.mem_map_of_mem hR) ((hnil hm.2).1 e)
  have hgs : (¬ Refused Book.empty (if rs = [] then [] else [rs.map (sourced ((FileSpec.path ruled).display next))]) ∧
      leftOver Book.empty (if rs = [] then [] else [rs.map (sourced ((FileSpec.path ruled).display next))]) = []) ↔
      Mergeable imp.transactions := by
    constructor
    · rintro ⟨h1, h2⟩
      by_cases e : rs = []
      · subst e
        obtain ⟨h3, h4⟩ := hok.2 fun q hq => by cases hq
        exact ⟨hne.2 fun R hR => (by cases hR), h3, h4, hdis.2 .nil⟩
      · rw [if_neg e] at h1 h2
        have hg : Good Book.empty _ := good_iff.2 fun hb => h1 (.inl hb)
        obtain ⟨h3, h4⟩ := hok.2 hg.ok
        refine ⟨hne.2 fun R hR => ?_, h3, h4, hdis.2 hg.disjoint⟩
        have := (leftOver_cons_nil.1 h2).1 R hR
        rwa [empty_undecided] at this
    · intro h
      have hg : Good Book.empty _ := good_empty (hok.1 ⟨h.fingerprint, h.candidate⟩) (hdis.1 h.distinct)
      by_cases e : rs = []
      · rw [if_pos e]
        exact ⟨id, rfl⟩
      · rw [if_neg e]
        refine ⟨?_, leftOver_cons_nil.2 ⟨fun R hR => ?_, rfl⟩⟩
        · rintro (hb | hb)
          · exact good_iff.1 hg hb
          · exact hb
        · rw [empty_undecided]
          exact hne.1 h.postings R hR
  rw [← hgs]
  constructor
  · intro h
    rcases hr : MergeCmd.run next orders ⟨[.path ruled], none, out⟩ World.start with ⟨r, w⟩
    rw [hr] at h
    simp only at h
    subst h
    obtain ⟨gs, u, h, hin', hb, hu, h4, hlog⟩ := (mergeCmd_sat next orders _).ok hr
    have hu0 : u = [] := h4.elim id (fun h => absurd rfl h)
    have := handedBackAll_nil hu
    rw [hu0] at this
    have := List.forall₂_nil_right_iff.1 this
    change mergeInputs next false [.path ruled] = _ at hin'
    rw [hin] at hin'
    cases hin'
    exact ⟨hb, this⟩
  · rintro ⟨h1, h2⟩
    exact C25_succeeds_otherwise next orders _ _ hf hin h1 (.inl h2)

end

/-! ### Statements of Nationwide as CSV files -/

/-- No key of an imported posting is blank. -/
theorem Spec.Says.read_keys {h : HashOrder} {p : Posting} {account : Str} {amount : Amount} {balance : Option Amount} {status : Option Status}
    {tags : List Str} {values : List (Str × Str)} (hs : Says h p account amount balance status tags values)
    (hw : ∀ t ∈ tags, Word t ∧ '\n' ∉ t) (hv : ∀ e ∈ values, Word e.1 ∧ Trimmed e.1 ∧ '\n' ∉ e.1 ∧ '\n' ∉ e.2) (k v : Str)
    (hk : (Comment.fromOptComment p.comment).valueTags[k]? = some v) : k.trim ≠ [] := by
  obtain ⟨c, hc, e⟩ := hs.comment
  have hkeys : ∀ (k v : Str), c.valueTags[k]? = some v → Word k ∧ Trimmed k ∧ '\n' ∉ k ∧ '\n' ∉ v := by
    intro k v hkv
    rw [hc.values] at hkv
    exact hv _ (lookup_mem hkv)
  have hp : Parsed c := ⟨fun t ht => hw t ((hc.tags t).1 ht), fun k v hkv => ⟨(hkeys k v hkv).1, (hkeys k v hkv).2.2⟩, by rw [hc.lines]; simp⟩
  cases hn : c.valueTags[k]? with
  | none =>
    rw [e, no_new_key hp hc.lines (fun k v hkv => (hkeys k v hkv).2.1) h hn] at hk
    cases hk
  | some v' =>
    have := hkeys k v' hn
    rw [trim_trimmed this.2.1]
    exact this.1.1

namespace NationwideCsv
open Nationwide

theorem plain_import {L : ImportLib} {fpNs : FpNamespace} {legacy : Bool} {records : List (Option Row)} {imp : Import}
    (h : getTransactions L fpNs legacy records = .ok imp) (hpl : PlainFields records) : PlainImport imp := by
  suffices H : ∀ t ∈ imp.transactions, t.comment = none ∧ ∀ p ∈ t.postings, ∀ (k v : Str),
      (Comment.fromOptComment p.comment).valueTags[k]? = some v → k.trim ≠ [] from ⟨fun t ht => (H t ht).1, fun t ht => (H t ht).2⟩
  intro t ht
  obtain ⟨account, columns, rows, hs, _, hc⟩ := (getTransactions_iff ..).1 h
  obtain ⟨hacc, hrows⟩ := shape_plain hs hpl
  obtain ⟨i, hi, rfl⟩ := List.getElem_of_mem ht
  have hgood : GoodNamespace imp.userFpNamespace := by
    refine (good_of_row h hs).resolve_left ?_
    rintro rfl
    rcases hc with ⟨rfl, _⟩ | ⟨rfl, _⟩
    · rw [(C45_five h hs).2.1] at hi; cases hi
    · rw [(C45_six h hs).2.1] at hi; cases hi
  rcases hc with ⟨rfl, _⟩ | ⟨rfl, _⟩
  · obtain ⟨_, hl, rs, hl', hr⟩ := C45_five h hs
    obtain ⟨⟨row, e1, hrow⟩, t, e2, amt, p, q, _, hts, hp, hq⟩ := hr i (by omega)
    rw [List.getElem?_eq_getElem hi] at e2
    rw [Option.some.inj e2, hts.postings]
    refine ⟨hts.comment, ?_⟩
    have hnl : '\n' ∉ rs[i].transactions ∧ '\n' ∉ rs[i].location := by
      obtain ⟨d, o, i', _, rfl, _⟩ := hrow
      have := hrows _ (List.mem_of_getElem? e1)
      exact ⟨(this _ (by simp)).2, (this _ (by simp)).2⟩
    have hv := five_values_plain hacc hnl.1 hnl.2
    have hw := five_words L rs[i] hgood (sinceChange (rs.map RecordFive.date) i)
    intro x hx
    rcases List.mem_cons.1 hx with rfl | hx
    · exact hp.read_keys hw.1 (seq_plain hgood _ hv)
    · obtain rfl := List.mem_singleton.1 hx
      exact hq.read_keys hw.2 hv
  · obtain ⟨_, hl, rs, hl', hr⟩ := C45_six h hs
    obtain ⟨⟨row, e1, hrow⟩, t, e2, amt, p, q, _, hts, hp, hq⟩ := hr i (by omega)
    rw [List.getElem?_eq_getElem hi] at e2
    rw [Option.some.inj e2, hts.postings]
    refine ⟨hts.comment, ?_⟩
    have hnl : '\n' ∉ rs[i].type_ := by
      obtain ⟨d, o, i', b, _, rfl, _⟩ := hrow
      exact (hrows _ (List.mem_of_getElem? e1) _ (by simp)).2
    have hv := six_values_plain hacc hnl
    have hw := six_words L rs[i] hgood (sinceChange (rs.map RecordSix.date) i) legacy (selfAndPeerAccountAmount amt ownAccount)
    intro x hx
    rcases List.mem_cons.1 hx with rfl | hx
    · exact hp.read_keys hw.1 (seq_plain hgood _ hv)
    · obtain rfl := List.mem_singleton.1 hx
      exact hq.read_keys hw.2 hv

/-- C72 for CSV files of Nationwide: unless an operation on files fails, what was imported from a file with plain fields, after rules, is
merged exactly if its fingerprints are distinct (for which see C46); and then the journal has exactly the imported transactions. -/
theorem C72_nationwide_csv {sys : Sys} {L : ImportLib} {lower : Str → Str} {T : Table} {raw ruled merged : Str} {imp : Import}
    {next : Sys} {fpNs : FpNamespace} {legacy : Bool} {records : List (Option Row)}
    (P : Prepared sys L (.nationwideCsv fpNs legacy records) lower T raw ruled imp next) (hF : P.Faithful) (hpl : PlainFields records)
    (hT : LeavesFingerprints T) (hT' : PlainTable T) (hs : NotesNoSource T) :
    ((∀ n, next.fault n = none) → ∀ (orders : Nat → HashOrder) (out : FileSpec),
      (MergeCmd.run next orders ⟨[.path ruled], none, out⟩ World.start).1 = .ok () ↔ DistinctFingerprints imp.transactions) ∧
    ∀ files, Merges next [] ruled [] merged files → ∃ js h,
      files (sys.file merged) = some (encodeUtf8 (sys.render (TransactionPostings.intoLedger h js))) ∧
      js.Pairwise (fun t u => (compare t.trn.raw.date u.trn.raw.date).isLE = true) ∧
      ∀ d : Date, List.Forall₂ IsImported (imp.transactions.filter fun t => t.date = d) (js.filter fun J => J.trn.raw.date = d) := by
  have h : getTransactions L fpNs legacy records = .ok imp := P.imports
  refine ⟨fun hf orders out => ?_, fun files hM => C72_fresh P hF hM hT hT' hs (plain_import h hpl)⟩
  rw [C72_succeeds P hF hT hT' hs (plain_import h hpl) hf]
  refine ⟨fun hm => hm.distinct, fun hd => ⟨fun t ht => (import_tags h hpl ht).1, ?_, ?_, hd⟩⟩
  · intro t ht p hp
    obtain ⟨f, hf, hfp⟩ := C47_nationwide_csv h ht hp
    exact ⟨f, hfp, hf⟩
  · intro t ht p hp c hc
    rcases (import_tags h hpl ht).2 p hp c hc with h | h
    · exact fp_not_cand h
    · exact fixed_not_cand c h

end NationwideCsv

/-! ### An example -/

open NationwideCsv

/-- The statement that is imported. -/
def Ex.pipeImport : Import := match getTransactions Ex.plainLib .generated false Ex.file5 with
  | .ok imp => imp
  | .error _ => ⟨[], []⟩

/-- Rules that know the shop: its postings get an account and a tag. -/
def Ex.pipeRules : Table := Std.ExtTreeMap.ofList
  [("start".toList, [⟨.all [.postingHasFlagTag "import-peer".toList, .transactionDescription (.eq "FOO CO @ FOO.CO/THING#".toList)],
    .all [.setAccount "expenses:food".toList, .removePostingFlagTag "unknown-account".toList, .addTransactionFlagTag "shop".toList], .return_⟩])] compare

/-- What the rules make of the statement. -/
def Ex.pipeRuled : List TransactionPostings := match Ex.pipeRules.updateTransactions id 2 Ex.pipeImport.postings with
  | .ok ts => ts
  | .error _ => []

/-- The two ledgers that can be read. -/
def Ex.pipeParse (s : Str) : Option Ledger :=
  if s = "raw".toList then some (ledgerFromTransactions Ex.pipeImport.transactions)
  else if s = "ruled".toList then some (TransactionPostings.intoLedger HashOrder.sorted Ex.pipeRuled) else none

/-- A system that can print two ledgers, told apart by the account that the rules set. -/
def Ex.pipeSystem : Sys := { Ex.system "" "" (fun _ => none) with
  parse := Ex.pipeParse
  render := fun l => if l.items.any fun i => match i with | .transaction t => t.postings.any (·.account = "expenses:food".toList) | _ => false
    then "ruled".toList else "raw".toList }

theorem Ex.pipe_raw : Ex.pipeSystem.parse "raw".toList = some (ledgerFromTransactions Ex.pipeImport.transactions) := by
  rw [show Ex.pipeSystem.parse = Ex.pipeParse from rfl]
  unfold Ex.pipeParse
  rw [if_pos rfl]

theorem Ex.pipe_ruled : Ex.pipeSystem.parse "ruled".toList = some (TransactionPostings.intoLedger HashOrder.sorted Ex.pipeRuled) := by
  rw [show Ex.pipeSystem.parse = Ex.pipeParse from rfl]
  unfold Ex.pipeParse
  rw [if_neg (by decide), if_pos rfl]

/-- The system after the import. -/
def Ex.pipeBetween : Sys := sysAfter Ex.pipeSystem
  (ImportCmd.run Ex.pipeSystem Ex.plainLib (fun _ => true) (.nationwideCsv .generated false Ex.file5) ⟨.path "a".toList, false, false⟩ World.start).2.log
  [] (fun _ => none) (fun _ => [])

/-- The system after the rules. -/
def Ex.pipeNext : Sys := sysAfter Ex.pipeBetween
  (applyRules Ex.pipeBetween HashOrder.sorted id 2 (some Ex.pipeRules) (.path "a".toList) (.path "b".toList) World.start).2.log
  [] (fun _ => none) (fun _ => [])

theorem Ex.pipe_output (ns : Str) : WritesTo ⟨.path "a".toList, false, false⟩ ns (.path "a".toList) := (C57_output ..).1 rfl

set_option maxRecDepth 100000 in
theorem Ex.pipe_import : getTransactions Ex.plainLib .generated false Ex.file5 = .ok Ex.pipeImport := by decide +kernel
set_option maxRecDepth 100000 in
theorem Ex.pipe_rules : Ex.pipeRules.updateTransactions id 2 Ex.pipeImport.postings = .ok Ex.pipeRuled := by decide +kernel
set_option maxRecDepth 100000 in
theorem Ex.pipe_run1 : (ImportCmd.run Ex.pipeSystem Ex.plainLib (fun _ => true) (.nationwideCsv .generated false Ex.file5) ⟨.path "a".toList, false, false⟩ World.start).1 = .ok () := by decide +kernel
set_option maxRecDepth 100000 in
theorem Ex.pipe_run2 : (applyRules Ex.pipeBetween HashOrder.sorted id 2 (some Ex.pipeRules) (.path "a".toList) (.path "b".toList) World.start).1 = .ok () := by decide +kernel

theorem Ex.pipe_all {P : Action → Prop} (h : P (.all [.setAccount "expenses:food".toList, .removePostingFlagTag "unknown-account".toList,
    .addTransactionFlagTag "shop".toList])) : ∀ (name : Str) (ch : Chain), Ex.pipeRules[name]? = some ch → ∀ r ∈ ch, P r.action := by
  intro name ch hn r hr
  rw [Ex.only_chain hn] at hr
  obtain rfl := List.mem_singleton.1 hr
  exact h


set_option maxRecDepth 100000 in
theorem Ex.pipe_render : Ex.pipeSystem.render (ledgerFromTransactions Ex.pipeImport.transactions) = "raw".toList ∧
    Ex.pipeSystem.render (TransactionPostings.intoLedger HashOrder.sorted Ex.pipeRuled) = "ruled".toList := by decide +kernel

/-- The two commands in the example. -/
def Ex.pipe : Prepared Ex.pipeSystem Ex.plainLib (.nationwideCsv .generated false Ex.file5) id Ex.pipeRules "a".toList "b".toList
    Ex.pipeImport Ex.pipeNext where
  args := ⟨.path "a".toList, false, false⟩
  hasParent := fun _ => true
  fuel := 2
  order := HashOrder.sorted
  w1 := (ImportCmd.run Ex.pipeSystem Ex.plainLib (fun _ => true) (.nationwideCsv .generated false Ex.file5) ⟨.path "a".toList, false, false⟩ World.start).2
  w2 := (applyRules Ex.pipeBetween HashOrder.sorted id 2 (some Ex.pipeRules) (.path "a".toList) (.path "b".toList) World.start).2
  between := Ex.pipeBetween
  imports := Ex.pipe_import
  output := Ex.pipe_output _
  run1 := by rw [← Ex.pipe_run1]
  between_eq := ⟨_, _, _, rfl⟩
  run2 := by rw [← Ex.pipe_run2]
  next_eq := ⟨_, _, _, rfl⟩

theorem Ex.pipe_faithful : Ex.pipe.Faithful := by
  refine ⟨?_, ?_⟩
  · rw [Ex.pipe_render.1, Ex.pipe_raw]
  · intro ts h
    obtain rfl : Ex.pipeRuled = ts := Except.ok.inj (Ex.pipe_rules.symm.trans h)
    show Ex.pipeSystem.parse (Ex.pipeSystem.render (TransactionPostings.intoLedger HashOrder.sorted Ex.pipeRuled)) =
      some (TransactionPostings.intoLedger HashOrder.sorted Ex.pipeRuled)
    rw [Ex.pipe_render.2, Ex.pipe_ruled]

set_option maxRecDepth 100000 in
/-- The hypotheses are met: a statement with three transactions is imported, the rules change one of them, and the result is merged. -/
example : Ex.pipe.Faithful ∧ PlainFields Ex.file5 ∧ LeavesFingerprints Ex.pipeRules ∧ PlainTable Ex.pipeRules ∧ NotesNoSource Ex.pipeRules ∧
    PlainImport Ex.pipeImport ∧ Mergeable Ex.pipeImport.transactions ∧ Ex.pipeImport.transactions.length = 3 ∧
    (∃ files, Merges Ex.pipeNext [] "b".toList [] "c".toList files) ∧ Ex.pipeRuled ≠ Ex.pipeImport.postings := by
  have hpl : PlainFields Ex.file5 := by unfold PlainFields; decide +kernel
  have hT : LeavesFingerprints Ex.pipeRules := by
    refine Ex.pipe_all (P := fun a => ∀ tag, Touches a tag → ¬ IsFp tag ∧ ¬ IsCand tag) ?_
    intro tag ht
    cases ht with
    | inside hm ht =>
      simp only [List.mem_cons, List.not_mem_nil, or_false] at hm
      rcases hm with rfl | rfl | rfl
      · cases ht
      · cases ht
        decide +kernel
      · cases ht
  have hT' : PlainTable Ex.pipeRules := by
    refine Ex.pipe_all (P := PlainAction) ⟨?_, ?_⟩
    · intro tag ht
      cases ht with
      | inside hm ht =>
        simp only [List.mem_cons, List.not_mem_nil, or_false] at hm
        rcases hm with rfl | rfl | rfl <;> cases ht
        decide +kernel
    · intro k v ht
      cases ht with
      | inside hm ht =>
        simp only [List.mem_cons, List.not_mem_nil, or_false] at hm
        rcases hm with rfl | rfl | rfl <;> cases ht
  have hs : NotesNoSource Ex.pipeRules := by
    refine Ex.pipe_all (P := fun a => ∀ value, ¬ AddsValue a srcKey value) ?_
    intro v ht
    cases ht with
    | inside hm ht =>
      simp only [List.mem_cons, List.not_mem_nil, or_false] at hm
      rcases hm with rfl | rfl | rfl <;> cases ht
  have hd : DistinctFingerprints Ex.pipeImport.transactions :=
    (C47_nationwide_csv_merge Ex.pipe_import hpl HashOrder.sorted).1 (by decide +kernel)
  have hi := plain_import Ex.pipe_import hpl
  have hok := ((C72_nationwide_csv (merged := "c".toList) Ex.pipe Ex.pipe_faithful hpl hT hT' hs).1 (fun _ => rfl) (fun _ => HashOrder.sorted)
    (.path "c".toList)).2 hd
  refine ⟨Ex.pipe_faithful, hpl, hT, hT', hs, hi,
    (C72_succeeds Ex.pipe Ex.pipe_faithful hT hT' hs hi (fun _ => rfl) (fun _ => HashOrder.sorted) (.path "c".toList)).1 hok,
    by decide +kernel, ?_, by decide +kernel⟩
  rcases hr : MergeCmd.run Ex.pipeNext (fun _ => HashOrder.sorted) ⟨[.path "b".toList], none, .path "c".toList⟩ World.start with ⟨r, w⟩
  rw [hr] at hok
  obtain rfl : r = .ok () := hok
  exact ⟨_, fun _ => HashOrder.sorted, w, hr, rfl⟩
end Verif
