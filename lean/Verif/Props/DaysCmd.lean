import Verif.Spec.DaysCmd
import Verif.Proofs.Relabel
import Verif.Props.Days
import Verif.Props.Session
import Verif.Props.OrderCmd
import Verif.Props.Recover

/-!
# C92 with files: downloads of whole days, merged into the journal by runs of the `merge` command
-/

namespace Verif
open Spec Spec.Book Comment

/-! ### Calls without transactions -/

theorem after_none (J : Book) : J.after [] = J := rfl

theorem bad_none (J : Book) : ¬ J.Bad [] := by
  intro h
  simp [Bad, HasCandidate, LacksFingerprint, DuplicateFp, SameDest, Conflicting, Split, allPosts, allDests] at h

theorem calls_skip (J : Book) (gs : List (List TransactionPostings)) :
    (Refused J (gs.filter fun g => decide (g ≠ [])) ↔ Refused J gs) ∧ leftOver J (gs.filter fun g => decide (g ≠ [])) = leftOver J gs ∧
    (gs.filter fun g => decide (g ≠ [])).foldl Book.after J = gs.foldl Book.after J := by
  induction gs generalizing J with
  | nil => exact ⟨Iff.rfl, rfl, rfl⟩
  | cons g gs ih =>
    by_cases hg : g = []
    · subst hg
      rw [List.filter_cons_of_neg (by simp)]
      obtain ⟨h1, h2, h3⟩ := ih J
      exact ⟨h1.trans ⟨fun h => .inr h, fun h => h.resolve_left (bad_none J)⟩, h2, h3⟩
    · rw [List.filter_cons_of_pos (by simpa using hg)]
      obtain ⟨h1, h2, h3⟩ := ih (J.after g)
      refine ⟨?_, ?_, h3⟩
      · show J.Bad g ∨ Refused (J.after g) _ ↔ J.Bad g ∨ Refused (J.after g) gs
        rw [h1]
      · show g.filter _ ++ leftOver (J.after g) _ = g.filter _ ++ leftOver (J.after g) gs
        rw [h2]

/-! ### The command and the calls -/

theorem unsourced_self {t : TransactionPostings} (h : srcKey ∉ t.trn.comment.valueTags) : unsourced t = t := by
  obtain ⟨⟨raw, c⟩, posts⟩ := t
  obtain ⟨lines, tags, vals⟩ := c
  unfold unsourced
  simp only
  congr 3
  apply Std.ExtTreeMap.ext_getElem?
  intro k
  rw [Std.ExtTreeMap.getElem?_erase]
  split
  · rename_i hk
    have hk := Std.LawfulEqCmp.eq_of_compare hk
    subst hk
    exact (Std.ExtTreeMap.getElem?_eq_none h).symm
  · rfl

theorem map_unsourced_self {ts : List TransactionPostings} (h : NoSources ts) : ts.map unsourced = ts := by
  conv_rhs => rw [← List.map_id ts]
  apply List.map_congr_left
  intro t ht
  exact unsourced_self (h t ht)

/-- The header without a note of the source. -/
def unsourcedHead (x : TransactionInternal) : TransactionInternal := (unsourced ⟨x, []⟩).trn

theorem withHead_unsourced : withHead unsourcedHead = unsourced := rfl

/-- What the files of the command line ask for, if they note no sources. -/
theorem mergeInputs_paths (sys : Sys) (again : Bool) (qs : List Str) (c : Str → List TransactionPostings)
    (h : ∀ q ∈ qs, contentOf sys sys.start q = some (c q) ∧ NoSources (c q)) :
    ∃ gs, mergeInputs sys again (qs.map .path) = some gs ∧ gs.map (·.map unsourced) = (qs.map c).filter fun g => decide (g ≠ []) := by
  induction qs generalizing again with
  | nil => exact ⟨[], rfl, rfl⟩
  | cons q qs ih =>
    obtain ⟨h1, h2⟩ := h q (by simp)
    obtain ⟨gs, h3, h4⟩ := ih (again || FileSpec.path q = .stdio) fun q' hq' => h q' (by simp [hq'])
    obtain ⟨L, hL, hts⟩ := Option.bind_eq_some_iff.1 h1
    have hg := groups_unsourced HashOrder.sorted ((FileSpec.path q).display sys) (c q)
    rw [map_unsourced_self h2] at hg
    have hL' : ledgerAt sys sys.start again (.path q) = some L := hL
    refine ⟨_, by rw [List.map_cons, mergeInputs, hL', Option.bind_some, hts, Option.bind_some, h3, Option.map_some, hg], ?_⟩
    rw [List.map_append, h4, List.map_cons]
    by_cases hc : c q = []
    · rw [if_pos hc, List.filter_cons_of_neg (by simpa using hc)]
      rfl
    · rw [if_neg hc, List.filter_cons_of_pos (by simpa using hc), List.map_cons, List.map_nil, List.map_map]
      have : (c q).map (unsourced ∘ fun t => sourced ((FileSpec.path q).display sys) (unsourced t)) = c q := by
        conv_rhs => rw [← map_unsourced_self h2]
        apply List.map_congr_left
        intro t _
        exact unsourced_sourced _ t
      rw [this]
      rfl

/-- **The `merge` command is the calls of its inputs.** Without a file for what is unmerged, with inputs that note no sources, and with
no operation failing: if the inputs make a journal, the run succeeds and writes it; otherwise it fails and writes nothing. -/
theorem C92_run (sys : Sys) (ho : Nat → HashOrder) (qs : List Str) (c : Str → List TransactionPostings) (out : FileSpec) (orders : Str → HashOrder)
    (hf : ∀ n, sys.fault n = none) (h : ∀ q ∈ qs, contentOf sys sys.start q = some (c q) ∧ NoSources (c q)) :
    ∃ res w, MergeCmd.run sys ho ⟨qs.map .path, none, out⟩ World.start = (res, w) ∧
      match journalOf (qs.map fun q => (orders q, c q)) with
      | some j => res = .ok () ∧ w.log = wholeWrite sys out (textOf sys j)
      | none => (∃ err, res = .error err) ∧ w.log = [] := by
  obtain ⟨gs, h1, h2⟩ := mergeInputs_paths sys false qs c h
  have hin : inputs (qs.map fun q => (orders q, c q)) = qs.map c := by
    unfold inputs
    rw [List.map_map]
    rfl
  obtain ⟨k1, k2, k3⟩ := calls_skip Book.empty (qs.map c)
  rw [← h2] at k1 k2 k3
  have hg : ∀ x, (unsourcedHead x).raw.date = x.raw.date := fun _ => rfl
  have r1 := refused_relabel hg Book.empty gs
  have r2 := leftOver_relabel hg Book.empty gs
  have r3 := foldl_after_relabel hg Book.empty gs
  rw [withHead_unsourced, show Spec.Book.relabel unsourcedHead Book.empty = Book.empty from rfl] at r1 r2 r3
  have hj := journal_relabel hg (bookAfter gs)
  rw [withHead_unsourced] at hj
  have e1 : Refused Book.empty gs ↔ Refused Book.empty (qs.map c) := r1.symm.trans k1
  have e2 : leftOver Book.empty gs = [] ↔ leftOver Book.empty (qs.map c) = [] := by
    rw [← k2, r2, List.map_eq_nil_iff]
  have e3 : (bookAfter gs).journal.map unsourced = (bookAfter (qs.map c)).journal := by
    rw [← hj]
    unfold bookAfter
    rw [← k3, r3]
  rcases hrun : MergeCmd.run sys ho ⟨qs.map .path, none, out⟩ World.start with ⟨res, w⟩
  refine ⟨res, w, rfl, ?_⟩
  cases hjo : journalOf (qs.map fun q => (orders q, c q)) with
  | some j =>
    obtain ⟨j1, j2, rfl⟩ := journalOf_books.1 hjo
    rw [hin] at j1 j2 ⊢
    have hok := C25_succeeds_otherwise sys ho ⟨qs.map .path, none, out⟩ gs hf h1 (fun hx => j1 (e1.1 hx)) (.inl (e2.2 j2))
    rw [hrun] at hok
    simp only at hok
    subst hok
    refine ⟨rfl, ?_⟩
    obtain ⟨_, _, hlog⟩ := run_without_unmerged h1 hrun
    rw [hlog, e3]
    rfl
  | none =>
    have : Refused Book.empty gs ∨ leftOver Book.empty gs ≠ [] := by
      by_contra hx
      rw [not_or, not_not] at hx
      have := journalOf_books.2 ⟨by rw [hin]; exact fun hy => hx.1 (e1.2 hy), by rw [hin]; exact e2.1 hx.2, rfl⟩
      rw [hjo] at this
      cases this
    obtain ⟨a1, a2, _⟩ := C25_fails_before_writing sys ho ⟨qs.map .path, none, out⟩ res w hrun (.inr ⟨gs, h1, this.imp_right fun hx => ⟨hx, rfl⟩⟩)
    exact ⟨a1, a2⟩

/-! ### Sessions -/

/-- What holds of all transactions that are read from files: nothing is left in the raw comments. Besides, there are no sources and the
comments are plain. -/
def Readable1 (t : TransactionPostings) : Prop :=
  (t.trn.raw.comment = none ∧ t.trn.raw.postings = [] ∧ srcKey ∉ t.trn.comment.valueTags ∧ Plain t.trn.comment) ∧
    ∀ p ∈ t.posts, p.raw.comment = none ∧ Plain p.comment

theorem readable1_of_content {sys : Sys} {files : Nat → Option Bytes} {q : Str} {ts : List TransactionPostings} (h : contentOf sys files q = some ts)
    (hs : NoSources ts) (hp : PlainComments ts) : ∀ t ∈ ts, Readable1 t := by
  intro t ht
  obtain ⟨L, _, hts⟩ := Option.bind_eq_some_iff.1 h
  rw [C62_read] at hts
  split at hts
  · cases hts
  · cases hts
    refine ⟨⟨?_, ?_, hs t ht, (hp t ht).1⟩, fun p hpm => ⟨?_, (hp t ht).2 p hpm⟩⟩
    all_goals obtain ⟨trn, _, rfl⟩ := List.mem_map.1 ht
    · rfl
    · rfl
    · obtain ⟨x, _, rfl⟩ := List.mem_map.1 (show p ∈ trn.postings.map PostingInternal.ofPosting from hpm)
      rfl

theorem readable1_journal {calls : History} {j : List TransactionPostings} (h : journalOf calls = some j)
    (hr : ∀ ts ∈ inputs calls, ∀ t ∈ ts, Readable1 t) : ∀ t ∈ j, Readable1 t := by
  obtain ⟨_, _, rfl⟩ := journalOf_books.1 h
  obtain ⟨g1, g2⟩ := holds_of_calls
    (A := fun x => x.raw.comment = none ∧ x.raw.postings = [] ∧ srcKey ∉ x.comment.valueTags ∧ Plain x.comment)
    (B := fun q => q.raw.comment = none ∧ Plain q.comment) (J := Book.empty) (gs := inputs calls)
    (fun d s hd hs => ⟨hd.1, plain_absorb hd.2 hs.2⟩) hr (by intro x hx; cases hx) (by intro r hr; cases hr)
  exact holds_of_journal (B := fun q => q.raw.comment = none ∧ Plain q.comment) g1 g2

theorem content_of_text {sys : Sys} {files : Nat → Option Bytes} {p : Str} {j : List TransactionPostings} (hr : ∀ t ∈ j, Readable1 t)
    (hp : ParsedBack sys j) (hf : files (sys.file p) = some (encodeUtf8 (textOf sys j))) : contentOf sys files p = some j := by
  have h1 : ledgerAt sys files false (.path p) = some (TransactionPostings.intoLedger HashOrder.sorted j) := by
    unfold ledgerAt
    show ((files (sys.file p)).bind decodeUtf8).bind sys.parse = _
    rw [hf, Option.bind_some, decode_encode, Option.bind_some]
    exact hp
  unfold contentOf
  rw [h1, Option.bind_some]
  apply C62_round_trip
  intro t ht
  obtain ⟨⟨a, b, _, d⟩, e⟩ := hr t ht
  exact ⟨a, b, d.toNormal, fun q hq => (e q hq).1, fun q hq => (e q hq).2.toNormal⟩

/-- The calls of one run. -/
def runOf (D : Str → List TransactionPostings) (qs : List Str) : HashOrder × History := (.sorted, qs.map fun q => (.sorted, D q))

/-- One run after the other: if they all make a journal that can be read again, then that is what is in the file at the end. -/
theorem session_runs (base : Sys) (p : Str) (D : Str → List TransactionPostings) (files : Nat → Option Bytes) (js : List TransactionPostings)
    (steps : List (Step × List Str)) (hm : ∀ s ∈ steps, MergesInto p s.1 s.2) (hJ : contentOf base files p = some js) (hJr : ∀ t ∈ js, Readable1 t)
    (hD : ∀ s ∈ steps, ∀ q ∈ s.2, base.file q ≠ base.file p ∧ contentOf base files q = some (D q) ∧ ∀ t ∈ D q, Readable1 t)
    (hruns : ∀ rs, rs ≠ [] → rs <+: steps.map (fun s => runOf D s.2) → ∃ j, journalAfter js rs = some j ∧ ParsedBack base j) :
    EveryStep base (fun f s => (s.run base f).1 = .ok ()) files (steps.map (·.1)) ∧
    ∀ j, journalAfter js (steps.map fun s => runOf D s.2) = some j → steps ≠ [] →
      ∀ n, afterSession base files (steps.map (·.1)) n = if n = base.file p then some (encodeUtf8 (textOf base j)) else files n := by
  induction steps generalizing files js with
  | nil => exact ⟨trivial, fun _ _ h => absurd rfl h⟩
  | cons s ss ih =>
    obtain ⟨s, qs⟩ := s
    obtain ⟨m1, m2, m3⟩ := hm (s, qs) (by simp)
    obtain ⟨j1, hj1, hb1⟩ := hruns [runOf D qs] (by simp) (by simp)
    have hj1' : journalOf ((.sorted, js) :: qs.map fun q => (HashOrder.sorted, D q)) = some j1 := by
      rw [journalAfter] at hj1
      obtain ⟨j', h1, h2⟩ := Option.bind_eq_some_iff.1 hj1
      cases h2
      exact h1
    -- the run
    have hDq : ∀ q ∈ qs, base.file q ≠ base.file p ∧ contentOf base files q = some (D q) ∧ ∀ t ∈ D q, Readable1 t := hD (s, qs) (by simp)
    set c : Str → List TransactionPostings := fun q => if q = p then js else D q with hc
    have hcq : ∀ q ∈ qs, c q = D q := by
      intro q hq
      rw [hc]
      exact if_neg fun h => (hDq q hq).1 (by rw [h])
    have hcp : c p = js := if_pos rfl
    obtain ⟨res, w, h1, h2⟩ := C92_run (s.sys base files) s.outside.orders (p :: qs) c (.path p) (fun _ => .sorted) m2 (by
      intro q hq
      rcases List.mem_cons.1 hq with rfl | hq
      · rw [hcp]
        exact ⟨hJ, fun t ht => (hJr t ht).1.2.2.1⟩
      · rw [hcq q hq]
        exact ⟨(hDq q hq).2.1, fun t ht => ((hDq q hq).2.2 t ht).1.2.2.1⟩)
    have hcalls : (p :: qs).map (fun q => (HashOrder.sorted, c q)) = (.sorted, js) :: qs.map fun q => (HashOrder.sorted, D q) := by
      rw [List.map_cons, hcp]
      congr 1
      apply List.map_congr_left
      intro q hq
      rw [hcq q hq]
    rw [hcalls, hj1'] at h2
    obtain ⟨rfl, hlog⟩ := h2
    have hrun : s.run base files = (.ok (), w) := by
      unfold Step.run
      rw [m1]
      exact h1
    have hafter : ∀ n, s.after base files n = if n = base.file p then some (encodeUtf8 (textOf base j1)) else files n := by
      intro n
      unfold Step.after
      rw [m3, hrun]
      simp only
      rw [hlog, contentsAfter_whole]
      by_cases hn : n = base.file p
      · rw [if_pos hn, if_pos (show fileOf (s.sys base files) (.path p) = some n by rw [hn]; rfl)]
        rfl
      · rw [if_neg hn, if_neg (show fileOf (s.sys base files) (.path p) ≠ some n from fun h => hn (Option.some.inj h).symm)]
    have hj1r : ∀ t ∈ j1, Readable1 t := by
      refine readable1_journal hj1' ?_
      intro ts hts
      rcases List.mem_cons.1 (show ts ∈ js :: inputs (qs.map fun q => (HashOrder.sorted, D q)) from hts) with rfl | hts
      · exact hJr
      · unfold inputs at hts
        rw [List.map_map] at hts
        obtain ⟨q, hq, rfl⟩ := List.mem_map.1 hts
        exact (hDq q hq).2.2
    have hstep : ∀ rs, journalAfter js (runOf D qs :: rs) = journalAfter j1 rs := by
      intro rs
      rw [journalAfter]
      show (journalOf ((.sorted, js) :: qs.map fun q => (HashOrder.sorted, D q))).bind _ = _
      rw [hj1', Option.bind_some]
    obtain ⟨i1, i2⟩ := ih (s.after base files) j1 (fun s' hs' => hm s' (by simp [hs']))
      (content_of_text hj1r hb1 (by rw [hafter, if_pos rfl])) hj1r
      (by
        intro s' hs' q hq
        obtain ⟨a, b, d⟩ := hD s' (by simp [hs']) q hq
        refine ⟨a, ?_, d⟩
        rw [← b]
        unfold contentOf ledgerAt
        show (((s.after base files (base.file q)).bind decodeUtf8).bind base.parse).bind _ = (((files (base.file q)).bind decodeUtf8).bind base.parse).bind _
        rw [hafter, if_neg a])
      (by
        intro rs hne hpre
        obtain ⟨j, hj, hb⟩ := hruns (runOf D qs :: rs) (by simp) (by rw [List.map_cons]; exact (List.prefix_cons_inj _).2 hpre)
        rw [hstep] at hj
        exact ⟨j, hj, hb⟩)
    refine ⟨⟨congrArg Prod.fst hrun, i1⟩, ?_⟩
    intro j hj _ n
    rw [List.map_cons, hstep] at hj
    show afterSession base (s.after base files) (ss.map (·.1)) n = _
    by_cases hss : ss = []
    · subst hss
      cases hj
      exact hafter n
    · rw [i2 j hj hss, hafter]
      split <;> rfl

/-- **C92 with files.** `p` is the journal and has the transactions `js`; `W` are all transactions that can ever be downloaded, and they could
be merged into the journal at once. Each download is a file of whole days. Runs of `merge`, each with the journal and some of the
downloads, write the journal to `p` again. Then every run succeeds, and after the last the journal is that of merging the days that were
downloaded into the journal of the beginning at once; nothing else has changed.
No file notes a source, comments are plain, and journals that are printed are parsed again as they were. -/
theorem C92_commands (base : Sys) (p : Str) (files : Nat → Option Bytes) (js W js' : List TransactionPostings) (h₀ h₁ : HashOrder)
    (D : Str → List TransactionPostings) (steps : List (Step × List Str)) (hm : ∀ s ∈ steps, MergesInto p s.1 s.2) (hne : steps ≠ [])
    (hJ : contentOf base files p = some js) (hJs : NoSources js) (hJc : PlainComments js)
    (hD : ∀ s ∈ steps, ∀ q ∈ s.2, base.file q ≠ base.file p ∧ contentOf base files q = some (D q) ∧ NoSources (D q) ∧ PlainComments (D q) ∧
      WholeDays W (D q))
    (hW : journalOf [(h₀, js), (h₁, W)] = some js') (hd : DatesAgree js W)
    (hback : ∀ X j, X.Sublist W → journalOf [(h₀, js), (h₁, X)] = some j → ParsedBack base j) :
    ∃ j, journalOf [(h₀, js), (h₁, soFar W (steps.flatMap fun s => s.2.map D))] = some j ∧
      ((∀ t ∈ W, Downloaded (steps.flatMap fun s => s.2.map D) (dateOf t)) → j = js') ∧
      EveryStep base (fun f s => (s.run base f).1 = .ok ()) files (steps.map (·.1)) ∧
      ∀ n, afterSession base files (steps.map (·.1)) n = if n = base.file p then some (encodeUtf8 (textOf base j)) else files n := by
  have hfiles : ∀ l : List (Step × List Str), filesOf (l.map fun s => runOf D s.2) = l.flatMap fun s => s.2.map D := by
    intro l
    unfold filesOf runOf inputs
    rw [List.flatMap_map]
    simp only [List.map_map]
    rfl
  have hpre : ∀ rs, rs ≠ [] → rs <+: steps.map (fun s => runOf D s.2) →
      ∃ j, journalAfter js rs = some j ∧ journalOf [(h₀, js), (h₁, soFar W (filesOf rs))] = some j ∧
        ((∀ t ∈ W, Downloaded (filesOf rs) (dateOf t)) → j = js') := by
    intro rs hrs hpre
    apply C92_days h₀ h₁ h₀ h₁ js W js' hW hd rs hrs
    intro X hX
    have : X ∈ filesOf (steps.map fun s => runOf D s.2) := by
      obtain ⟨r, hr, hx⟩ := List.mem_flatMap.1 hX
      exact List.mem_flatMap.2 ⟨r, hpre.subset hr, hx⟩
    rw [hfiles] at this
    obtain ⟨s, hs, hx⟩ := List.mem_flatMap.1 this
    obtain ⟨q, hq, rfl⟩ := List.mem_map.1 hx
    exact (hD s hs q hq).2.2.2.2
  obtain ⟨k1, k2⟩ := session_runs base p D files js steps hm hJ (readable1_of_content hJ hJs hJc)
    (fun s hs q hq => by
      obtain ⟨a, b, c, d, _⟩ := hD s hs q hq
      exact ⟨a, b, readable1_of_content b c d⟩)
    (fun rs hrs hp => by
      obtain ⟨j, h1, h2, _⟩ := hpre rs hrs hp
      exact ⟨j, h1, hback _ j List.filter_sublist h2⟩)
  obtain ⟨j, h1, h2, h3⟩ := hpre _ (by simpa using hne) List.prefix_rfl
  rw [hfiles] at h2 h3
  exact ⟨j, h2, h3, k1, k2 j h1 hne⟩

/-! ### An example: the runs of `Props/Days`, with files -/

/-- The downloads: `a` is the last day only, `b` has the newest day first, `c` is the first day, and everything else is everything. -/
def dayFile (q : Str) : List TransactionPostings :=
  if q = "a".toList then day3 else if q = "b".toList then day2 ++ day1 else if q = "c".toList then day1 else day1 ++ day2 ++ day3

/-- A system with an exact printer. -/
noncomputable def daySystem : Sys := Ex.exactSystem ⟨[]⟩ ⟨[]⟩

/-- The journal is in the file `j` (number 106). -/
noncomputable def dayFiles (n : Nat) : Option Bytes :=
  if n = 106 then some (encodeUtf8 (textOf daySystem daysBefore)) else some (encodeUtf8 (textOf daySystem (dayFile [Char.ofNat n])))

/-- A run that merges downloads into the journal. -/
def dayStep (order : HashOrder) (qs : List Str) : Step × List Str :=
  (mergeStep ⟨.path "j".toList :: qs.map .path, none, .path "j".toList⟩ order (fun _ => none) none, qs)

/-- Three runs. -/
def daySteps : List (Step × List Str) :=
  [dayStep .rev ["a".toList], dayStep .sorted ["b".toList, "c".toList], dayStep .rev ["d".toList]]

theorem Simple.readable1 {t : TransactionPostings} (h : Simple t) : Readable1 t := by
  have hv : t.trn.comment.valueTags = ∅ := Std.ExtTreeMap.toList_eq_nil_iff.1 h.2.2.1.2.1
  exact ⟨⟨h.1, h.2.1, by rw [hv]; simp, h.2.2.1.plain⟩, fun q hq => ⟨(h.2.2.2 q hq).1, (h.2.2.2 q hq).2.plain⟩⟩

theorem daySystem_back (j : List TransactionPostings) : ParsedBack daySystem j := Ex.exactSystem_comesBack _ _ _

set_option maxRecDepth 100000 in
theorem day_simple : (∀ t ∈ daysBefore, Simple t) ∧ (∀ t ∈ day1, Simple t) ∧ (∀ t ∈ day2, Simple t) ∧ ∀ t ∈ day3, Simple t := by decide +kernel

theorem dayFile_simple (q : Str) : ∀ t ∈ dayFile q, Simple t := by
  obtain ⟨_, h1, h2, h3⟩ := day_simple
  have h21 : ∀ t ∈ day2 ++ day1, Simple t := fun t ht => (List.mem_append.1 ht).elim (h2 t) (h1 t)
  have h123 : ∀ t ∈ day1 ++ day2 ++ day3, Simple t :=
    fun t ht => (List.mem_append.1 ht).elim (fun h => (List.mem_append.1 h).elim (h1 t) (h2 t)) (h3 t)
  unfold dayFile
  split
  · exact h3
  · split
    · exact h21
    · split
      · exact h1
      · exact h123

/-- The hypotheses of `C92_commands` are met: three runs of `merge` succeed, and the journal is that of merging everything at once. -/
example : ∃ j, journalOf [(.sorted, daysBefore), (.sorted, day1 ++ day2 ++ day3)] = some j ∧
    EveryStep daySystem (fun f s => (s.run daySystem f).1 = .ok ()) dayFiles (daySteps.map (·.1)) ∧
    ∀ n, afterSession daySystem dayFiles (daySteps.map (·.1)) n = if n = 106 then some (encodeUtf8 (textOf daySystem j)) else dayFiles n := by
  have h1 : (journalOf [(.sorted, daysBefore), (.sorted, day1 ++ day2 ++ day3)]).isSome := by
    unfold journalOf
    simp only [Ex.build_eval]
    set_option maxRecDepth 100000 in decide +kernel
  obtain ⟨js', hW⟩ := Option.isSome_iff_exists.1 h1
  have hq : ∀ q ∈ ["a".toList, "b".toList, "c".toList, "d".toList], daySystem.file q ≠ daySystem.file "j".toList ∧
      contentOf daySystem dayFiles q = some (dayFile q) ∧ NoSources (dayFile q) ∧ PlainComments (dayFile q) ∧
      WholeDays (day1 ++ day2 ++ day3) (dayFile q) := by
    intro q hq
    have hf : daySystem.file q ≠ 106 ∧ [Char.ofNat (daySystem.file q)] = q := by
      simp only [List.mem_cons, List.not_mem_nil, or_false] at hq
      rcases hq with rfl | rfl | rfl | rfl <;> exact ⟨by decide +kernel, by decide +kernel⟩
    have hr : ∀ t ∈ dayFile q, Readable1 t := fun t ht => (dayFile_simple q t ht).readable1
    refine ⟨hf.1, ?_, fun t ht => (hr t ht).1.2.2.1, fun t ht => ⟨(hr t ht).1.2.2.2, fun p hp => ((hr t ht).2 p hp).2⟩, ?_⟩
    · apply content_of_text hr (daySystem_back _)
      unfold dayFiles
      rw [if_neg hf.1, hf.2]
    · rw [wholeDays_iff]
      simp only [List.mem_cons, List.not_mem_nil, or_false] at hq
      rcases hq with rfl | rfl | rfl | rfl <;> set_option maxRecDepth 100000 in decide +kernel
  have hr0 : ∀ t ∈ daysBefore, Readable1 t := fun t ht => (day_simple.1 t ht).readable1
  obtain ⟨j, _, k2, k3, k4⟩ := C92_commands daySystem "j".toList dayFiles daysBefore (day1 ++ day2 ++ day3) js' .sorted .sorted dayFile daySteps
    (by
      intro s hs
      simp only [daySteps, List.mem_cons, List.not_mem_nil, or_false] at hs
      rcases hs with rfl | rfl | rfl <;> exact ⟨rfl, fun _ => rfl, rfl⟩)
    (by simp [daySteps])
    (content_of_text hr0 (daySystem_back _) rfl)
    (fun t ht => (hr0 t ht).1.2.2.1) (fun t ht => ⟨(hr0 t ht).1.2.2.2, fun p hp => ((hr0 t ht).2 p hp).2⟩)
    (by
      intro s hs q hqs
      apply hq
      simp only [daySteps, List.mem_cons, List.not_mem_nil, or_false] at hs
      rcases hs with rfl | rfl | rfl <;> simp only [dayStep, List.mem_cons, List.not_mem_nil, or_false] at hqs ⊢
      · exact .inl hqs
      · exact hqs.elim (fun h => .inr (.inl h)) (fun h => .inr (.inr (.inl h)))
      · exact .inr (.inr (.inr hqs)))
    hW (by set_option maxRecDepth 100000 in decide +kernel) (fun _ j _ _ => daySystem_back j)
  have := k2 (by
    have e : (daySteps.flatMap fun s => s.2.map dayFile) = [day3, day2 ++ day1, day1, day1 ++ day2 ++ day3] := by rfl
    rw [e]
    set_option maxRecDepth 100000 in decide +kernel)
  subst this
  exact ⟨_, hW, k3, k4⟩

end Verif
