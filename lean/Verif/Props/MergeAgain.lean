import Verif.Proofs.MergeAgain
import Verif.Props.Commands
import Verif.Props.Comments

/-!
# C66: running the `merge` command again
-/

namespace Verif
open Spec Spec.Book Comment

theorem decode_encode (s : Str) : decodeUtf8 (encodeUtf8 s) = some s := by
  show (ByteArray.utf8Decode? (List.utf8Encode s)).map Array.toList = some s
  rw [List.utf8Decode?_utf8Encode]
  simp

theorem intoLedger_order (h h' : HashOrder) (ts : List TransactionPostings) :
    TransactionPostings.intoLedger h ts = TransactionPostings.intoLedger h' ts := by
  have hc : ∀ c, intoOptComment h c = intoOptComment h' c := by intro c; rw [C30_layout, C30_layout]
  have hp : PostingInternal.intoPosting h = PostingInternal.intoPosting h' := by
    funext p; unfold PostingInternal.intoPosting; rw [hc]
  have ht : TransactionPostings.intoTransaction h = TransactionPostings.intoTransaction h' := by
    funext t
    unfold TransactionPostings.intoTransaction TransactionInternal.intoTransaction
    rw [hc, hp]
  unfold TransactionPostings.intoLedger
  rw [ht]

theorem mergeInputs_append {sys : Sys} {again : Bool} {fs fs' : List FileSpec} {gs : List (List TransactionPostings)}
    (h : mergeInputs sys again (fs ++ fs') = some gs) : ∃ gs₁ gs₂ again', gs = gs₁ ++ gs₂ ∧ mergeInputs sys again' fs' = some gs₂ := by
  induction fs generalizing again gs with
  | nil => exact ⟨[], gs, again, rfl, h⟩
  | cons f fs ih =>
    rw [List.cons_append, mergeInputs, Option.bind_eq_some_iff] at h
    obtain ⟨L, _, h⟩ := h
    rw [Option.bind_eq_some_iff] at h
    obtain ⟨ts, _, h⟩ := h
    rw [Option.map_eq_some_iff] at h
    obtain ⟨gs', h1, rfl⟩ := h
    obtain ⟨gs₁, gs₂, again', rfl, h2⟩ := ih h1
    exact ⟨_, gs₂, again', by rw [List.append_assoc], h2⟩

/-- What is read from files that did not change. -/
theorem mergeInputs_unchanged {sys : Sys} {start : Nat → Option Bytes} {fs : List FileSpec}
    (hfs : ∀ f ∈ fs, ∃ q, f = .path q ∧ start (sys.file q) = sys.start (sys.file q)) (again again' : Bool) :
    mergeInputs { sys with start := start } again' fs = mergeInputs sys again fs := by
  induction fs generalizing again again' with
  | nil => rfl
  | cons f fs ih =>
    obtain ⟨q, rfl, hq⟩ := hfs f (by simp)
    have e : ledgerAt { sys with start := start } start again' (.path q) = ledgerAt sys sys.start again (.path q) := by
      unfold ledgerAt
      show ((start (sys.file q)).bind decodeUtf8).bind sys.parse = _
      rw [hq]; rfl
    rw [mergeInputs, mergeInputs]
    show (ledgerAt { sys with start := start } start again' (.path q)).bind _ = _
    rw [e]
    congr 1; funext L
    congr 1; funext ts
    rw [ih (fun f hf => hfs f (List.mem_cons_of_mem _ hf)) (again || FileSpec.path q = .stdio) (again' || FileSpec.path q = .stdio)]
    rfl

theorem mergeInputs_tidy {sys : Sys} {again : Bool} {fs : List FileSpec} {gs : List (List TransactionPostings)}
    (h : mergeInputs sys again fs = some gs) :
    ∀ g ∈ gs, ∀ t ∈ g, t.trn.raw.comment = none ∧ t.trn.raw.postings = [] ∧ ∀ p ∈ t.posts, p.raw.comment = none := by
  induction fs generalizing again gs with
  | nil => cases h; simp
  | cons f fs ih =>
    rw [mergeInputs, Option.bind_eq_some_iff] at h
    obtain ⟨L, _, h⟩ := h
    rw [Option.bind_eq_some_iff] at h
    obtain ⟨ts, hts, h⟩ := h
    rw [Option.map_eq_some_iff] at h
    obtain ⟨gs', h1, rfl⟩ := h
    intro g hg t ht
    rcases List.mem_append.1 hg with hg | hg
    · have : t ∈ (Sources.groups HashOrder.sorted (f.display sys) ts).flatten := List.mem_flatten.2 ⟨g, hg, ht⟩
      rw [(C23_nothing_lost _ _ _).1.mem_iff] at this
      obtain ⟨t', ht', rfl⟩ := List.mem_map.1 this
      rw [C62_read] at hts
      split at hts
      · cases hts
      · cases hts
        obtain ⟨trn, _, rfl⟩ := List.mem_map.1 ht'
        refine ⟨rfl, rfl, ?_⟩
        intro p hp
        obtain ⟨q, _, rfl⟩ := List.mem_map.1 (show p ∈ trn.postings.map PostingInternal.ofPosting from hp)
        rfl
    · exact ih h1 g hg t ht

theorem sourceOf_unsourced (d : Str) (t : TransactionPostings) : sourceOf d (unsourced t) = d := by
  unfold sourceOf unsourced
  simp

theorem unsourced_sourced (d : Str) (t : TransactionPostings) : unsourced (sourced d (unsourced t)) = unsourced t := by
  unfold unsourced sourced
  simp only
  congr 3
  apply Std.ExtTreeMap.ext_getElem?
  intro k
  simp only [Std.ExtTreeMap.getElem?_erase, Std.ExtTreeMap.getElem?_insert]
  split <;> simp_all

/-- Transactions without noted sources are all of one source. -/
theorem groups_unsourced (h : HashOrder) (d : Str) (ts : List TransactionPostings) :
    Sources.groups h d (ts.map unsourced) = if ts = [] then [] else [ts.map (fun t => sourced d (unsourced t))] := by
  obtain ⟨ks, h1, h2, h3⟩ := C23_groups h d (ts.map unsourced)
  rw [h3]
  have hk : ∀ k ∈ ks, k = d := by
    intro k hk
    obtain ⟨t, ht, rfl⟩ := (h2 k).1 hk
    obtain ⟨t', _, rfl⟩ := List.mem_map.1 ht
    exact sourceOf_unsourced d t'
  by_cases hts : ts = []
  · rw [if_pos hts]
    subst hts
    cases ks with
    | nil => rfl
    | cons k ks => obtain ⟨t, ht, _⟩ := (h2 k).1 (by simp); simp at ht
  · rw [if_neg hts]
    obtain ⟨t, ht⟩ := List.exists_mem_of_ne_nil _ hts
    have hd : d ∈ ks := (h2 d).2 ⟨unsourced t, List.mem_map_of_mem ht, sourceOf_unsourced d t⟩
    have hks : ks = [d] := by
      cases ks with
      | nil => cases hd
      | cons k ks =>
        have e := hk k (by simp)
        subst e
        cases ks with
        | nil => rfl
        | cons k' ks =>
          have e := hk k' (by simp)
          subst e
          rw [List.pairwise_cons] at h1
          have := h1.1 k' (by simp)
          have hself : compare k' k' = .eq := Std.ReflCmp.compare_self
          rw [hself] at this
          cases this
    rw [hks]
    simp only [List.map_cons, List.map_nil, ofSource]
    rw [List.filter_eq_self.2, List.map_map]
    · rfl
    · intro t ht
      obtain ⟨t', _, rfl⟩ := List.mem_map.1 ht
      simp [sourceOf_unsourced]

/-- C66: `merge` is run with some input files, is successful and leaves nothing unmerged. Then running it again on the
journal it wrote and the last of the inputs (all of them, or only those after the previous journal) is successful, and no
file changes. The comments of the inputs have to be in normal form (see C27), the input files that are read again must
not be the journal, and the printed journal must be parsed as what was printed. -/
theorem C66_merge_again (sys : Sys) (ho ho' : Nat → HashOrder) (before imports : List FileSpec) (p : Str) (w : World)
    (gs : List (List TransactionPostings)) (hf : ∀ n, sys.fault n = none)
    (hi : ∀ f ∈ imports, ∃ q, f = .path q ∧ sys.file q ≠ sys.file p)
    (hrun : MergeCmd.run sys ho ⟨before ++ imports, none, .path p⟩ World.start = (.ok (), w))
    (hgs : mergeInputs sys false (before ++ imports) = some gs)
    (hplain : ∀ g ∈ gs, ∀ t ∈ g, Plain (unsourced t).trn.comment ∧ ∀ q ∈ t.posts, Plain q.comment)
    (hparse : ∀ L, L = TransactionPostings.intoLedger HashOrder.sorted ((bookAfter gs).journal.map unsourced) →
      sys.parse (sys.render L) = some L) :
    ∃ w', MergeCmd.run { sys with start := contentsAfter sys.start w.log } ho' ⟨.path p :: imports, none, .path p⟩ World.start =
        (.ok (), w') ∧
      contentsAfter (contentsAfter sys.start w.log) w'.log = contentsAfter sys.start w.log := by
  have hparse := hparse _ rfl
  obtain ⟨gs', u, h, e1, hb, hu, h4, hlog⟩ := (mergeCmd_sat sys ho _).ok hrun
  have e1 : mergeInputs sys false (before ++ imports) = some gs' := e1
  rw [hgs] at e1; cases e1
  have hu0 : u = [] := h4.elim id (fun h => absurd rfl h)
  have hl : leftOver Book.empty gs = [] := by
    have := handedBackAll_nil hu
    rw [hu0] at this
    exact List.forall₂_nil_right_iff.1 this
  -- the text that was written
  set L := TransactionPostings.intoLedger HashOrder.sorted ((bookAfter gs).journal.map unsourced) with hL
  have hlog : w.log = wholeWrite sys (.path p) (sys.render L) := by
    rw [hlog, hu0, hL, intoLedger_order HashOrder.sorted h]
    simp [mergePlan, wholeWrites]
  set sys' : Sys := { sys with start := contentsAfter sys.start w.log } with hsys
  have hstart : ∀ n, contentsAfter sys.start w.log n = if sys.file p = n then some (encodeUtf8 (sys.render L)) else sys.start n := by
    intro n
    rw [hlog, contentsAfter_whole]
    simp [fileOf]
  -- what the journal is read as
  have htidy : ∀ t ∈ (bookAfter gs).journal.map unsourced, Tidy t := by
    have hin := mergeInputs_tidy hgs
    obtain ⟨g1, g2⟩ := holds_of_calls (A := fun x => x.raw.comment = none ∧ x.raw.postings = [] ∧ Normal (unsourced ⟨x, []⟩).trn.comment)
      (B := fun q => q.raw.comment = none ∧ Plain q.comment) (J := Book.empty) (gs := gs)
      (fun d s hd hs => ⟨hd.1, plain_absorb hd.2 hs.2⟩)
      (fun g hg t ht => ⟨⟨(hin g hg t ht).1, (hin g hg t ht).2.1, (hplain g hg t ht).1.toNormal⟩,
        fun q hq => ⟨(hin g hg t ht).2.2 q hq, (hplain g hg t ht).2 q hq⟩⟩)
      (by intro x hx; cases hx) (by intro r hr; cases hr)
    intro t ht
    obtain ⟨T, hT, rfl⟩ := List.mem_map.1 ht
    obtain ⟨⟨k1, k2, k3⟩, k4⟩ := holds_of_journal (B := fun q => q.raw.comment = none ∧ Plain q.comment) g1 g2 T hT
    exact ⟨k1, k2, k3, fun q hq => (k4 q hq).1, fun q hq => (k4 q hq).2.toNormal⟩
  have hread : ledgerAt sys' sys'.start false (.path p) = some L := by
    unfold ledgerAt
    show ((contentsAfter sys.start w.log (sys.file p)).bind decodeUtf8).bind sys.parse = some L
    rw [hstart, if_pos rfl, Option.bind_some, decode_encode, Option.bind_some, hparse]
  have hfrom : TransactionPostings.fromLedger L = some ((bookAfter gs).journal.map unsourced) := C62_round_trip _ _ htidy
  -- the inputs of the second run
  obtain ⟨gs₁, late, again', rfl, hlate⟩ := mergeInputs_append hgs
  have hin' : ∀ again, mergeInputs sys' again imports = some late := by
    intro again
    rw [← hlate]
    apply mergeInputs_unchanged
    intro f hfm
    obtain ⟨q, rfl, hq⟩ := hi f hfm
    exact ⟨q, rfl, by rw [hstart, if_neg (fun h => hq h.symm)]⟩
  set d := (FileSpec.path p).display sys' with hd
  set f : TransactionPostings → TransactionPostings := fun t => sourced d (unsourced t) with hfd
  have hrel : Relabel f := fun t => ⟨rfl, rfl⟩
  obtain ⟨a1, a2, a3⟩ := merge_again hb hl hrel
  set js := (bookAfter (gs₁ ++ late)).journal
  -- an empty journal is no merge call at all
  have hin2 : mergeInputs sys' false (.path p :: imports) =
      some ((if js = [] then [] else [js.map f]) ++ late) := by
    rw [mergeInputs, hread, Option.bind_some, hfrom, Option.bind_some, hin', Option.map_some, groups_unsourced]
  have hcalls : ¬ Refused Book.empty ((if js = [] then [] else [js.map f]) ++ late) ∧
      leftOver Book.empty ((if js = [] then [] else [js.map f]) ++ late) = [] ∧
      (bookAfter ((if js = [] then [] else [js.map f]) ++ late)).journal = js.map f := by
    by_cases hjs : js = []
    · rw [if_pos hjs]
      rw [hjs] at a1 a2 a3 ⊢
      exact ⟨fun h => a1 (.inr h), (leftOver_cons_nil.1 a2).2, a3⟩
    · rw [if_neg hjs]; exact ⟨a1, a2, a3⟩
  obtain ⟨b1, b2, b3⟩ := hcalls
  have hok := C25_succeeds_otherwise sys' ho' ⟨.path p :: imports, none, .path p⟩ _ hf hin2 b1 (.inl b2)
  rcases hr2 : MergeCmd.run sys' ho' ⟨.path p :: imports, none, .path p⟩ World.start with ⟨r, w'⟩
  rw [hr2] at hok
  simp only at hok
  subst hok
  refine ⟨w', rfl, ?_⟩
  obtain ⟨gs'', u', h', c1, _, c3, c4, c5⟩ := (mergeCmd_sat sys' ho' _).ok hr2
  have c1 : mergeInputs sys' false (.path p :: imports) = some gs'' := c1
  rw [hin2] at c1; cases c1
  have hu' : u' = [] := c4.elim id (fun h => absurd rfl h)
  have hmap : (js.map f).map unsourced = js.map unsourced := by
    rw [List.map_map]
    apply List.map_congr_left
    intro t _
    exact unsourced_sourced d t
  have hlog' : w'.log = wholeWrite sys (.path p) (sys.render L) := by
    rw [c5, hu', b3, hmap, hL, intoLedger_order HashOrder.sorted h']
    simp [mergePlan, wholeWrites]
    rfl
  funext n
  rw [hlog', contentsAfter_whole, hstart]
  simp only [fileOf, Option.some.injEq]
  split <;> rfl

/-! Example: the journal of the files `a` and `b` is written to `o`; its text is `J`. -/

/-- The journal of the two files. -/
def exMerged : Ledger :=
  match mergeInputs (Ex.system "ab" "c" (fun _ => none)) false [Ex.file "a", Ex.file "b"] with
  | some gs => TransactionPostings.intoLedger HashOrder.sorted ((bookAfter gs).journal.map unsourced)
  | none => ⟨[]⟩

/-- A system that can write and read this journal. -/
def exAgain : Sys :=
  { Ex.system "ab" "c" (fun _ => none) with
    parse := fun s => if s = ['J'] then some exMerged else Ex.parseLetters s
    render := fun _ => ['J'] }

/-- There is nothing but tags in the comment. -/
def OnlyTags (c : Comment) : Prop := c.lines = [] ∧ c.valueTags.toList = [] ∧ ∀ t ∈ c.tags.toList, Word t ∧ '\n' ∉ t
instance (c) : Decidable (OnlyTags c) := by unfold OnlyTags; infer_instance

theorem OnlyTags.plain {c : Comment} (h : OnlyTags c) : Plain c := by
  obtain ⟨h1, h2, h3⟩ := h
  have hv : c.valueTags = ∅ := Std.ExtTreeMap.toList_eq_nil_iff.1 h2
  refine ⟨⟨fun t ht => h3 t (Std.ExtTreeSet.mem_toList.2 ht), ?_, ?_, ?_, ?_⟩, ?_⟩
  · intro k v h; rw [hv] at h; simp at h
  · intro k v h; rw [hv] at h; simp at h
  · intro l hl; rw [h1] at hl; cases hl
  · intro l hl; rw [h1] at hl; split at hl <;> cases hl
  · intro l hl; rw [h1] at hl; cases hl

set_option maxRecDepth 100000 in
/-- The hypotheses of `C66_merge_again` are met: nothing changes. -/
example (ho ho' : Nat → HashOrder) : ∃ w w',
    MergeCmd.run exAgain ho ⟨[Ex.file "a", Ex.file "b"], none, Ex.file "o"⟩ World.start = (.ok (), w) ∧
    MergeCmd.run { exAgain with start := contentsAfter exAgain.start w.log } ho'
      ⟨[Ex.file "o", Ex.file "a", Ex.file "b"], none, Ex.file "o"⟩ World.start = (.ok (), w') ∧
    contentsAfter (contentsAfter exAgain.start w.log) w'.log = contentsAfter exAgain.start w.log := by
  have key : (match mergeInputs exAgain false [Ex.file "a", Ex.file "b"] with
      | some gs => decide (unmergedCount gs = some 0 ∧
          (∀ g ∈ gs, ∀ t ∈ g, OnlyTags (unsourced t).trn.comment ∧ ∀ q ∈ t.posts, OnlyTags q.comment) ∧
          mergeInputs (Ex.system "ab" "c" (fun _ => none)) false [Ex.file "a", Ex.file "b"] = some gs)
      | none => false) = true := by
    simp only [mergeInputs, groups_eval]; decide +kernel
  split at key
  · rename_i gs hgs
    obtain ⟨k1, k2, k3⟩ := of_decide_eq_true key
    obtain ⟨h2, h3⟩ := not_refused_of_count k1
    have hok := C25_succeeds_otherwise exAgain ho ⟨[Ex.file "a", Ex.file "b"], none, Ex.file "o"⟩ gs (fun _ => rfl) hgs h2
      (.inl (List.length_eq_zero_iff.1 h3))
    rcases hr : MergeCmd.run exAgain ho ⟨[Ex.file "a", Ex.file "b"], none, Ex.file "o"⟩ World.start with ⟨r, w⟩
    rw [hr] at hok
    simp only at hok
    subst hok
    obtain ⟨w', h4, h5⟩ := C66_merge_again exAgain ho ho' [] [Ex.file "a", Ex.file "b"] "o".toList w gs (fun _ => rfl)
      (by
        intro f hf
        rcases List.mem_cons.1 hf with rfl | hf
        · exact ⟨_, rfl, by decide +kernel⟩
        · rw [List.mem_singleton.1 hf]
          exact ⟨_, rfl, by decide +kernel⟩)
      hr hgs
      (fun g hg t ht => ⟨(k2 g hg t ht).1.plain, fun q hq => ((k2 g hg t ht).2 q hq).plain⟩)
      (by
        rintro L rfl
        show (some exMerged : Option Ledger) = _
        unfold exMerged
        rw [k3])
    exact ⟨w, w', rfl, h4, h5⟩
  · cases key

end Verif
