import Verif.Props.Again

/-!
# C98 with files: runs of the `merge` command with the same arguments
-/

namespace Verif
open Spec Spec.Book Comment

theorem oneRun_all {calls : History} (hb : ¬ Refused Book.empty (inputs calls)) :
    ∃ us, oneRun calls = some ((bookAfter (inputs calls)).journal, us) ∧ List.Forall₂ AsGiven (leftOver Book.empty (inputs calls)) us.flatten := by
  obtain ⟨us, m, h1, h2, h3⟩ := mergeEach_merged R_new hb
  refine ⟨us, ?_, h3⟩
  unfold oneRun
  rw [h1, Option.bind_some, h2.build]
  rfl

/-- **One run of the command.** With a file for what is unmerged, with inputs that note no sources, and with no operation failing: the
run succeeds if none of its calls is refused. Then it writes what was handed back, if there is any, and the journal. Otherwise
it writes nothing. -/
theorem C98_run (sys : Sys) (ho : Nat → HashOrder) (qs : List Str) (c : Str → List TransactionPostings) (v out : FileSpec) (orders : Str → HashOrder)
    (hf : ∀ n, sys.fault n = none) (h : ∀ q ∈ qs, contentOf sys sys.start q = some (c q) ∧ NoSources (c q)) :
    ∃ res w, MergeCmd.run sys ho ⟨qs.map .path, some v, out⟩ World.start = (res, w) ∧
      match oneRun (qs.map fun q => (orders q, c q)) with
      | some x => res = .ok () ∧ ∃ text,
          w.log = (if x.2.flatten = [] then [] else wholeWrite sys v text) ++ wholeWrite sys out (textOf sys x.1)
      | none => (∃ err, res = .error err) ∧ w.log = [] := by
  obtain ⟨gs, h1, h2⟩ := mergeInputs_paths sys false qs c h
  have hin : inputs (qs.map fun q => (orders q, c q)) = qs.map c := by
    unfold inputs
    rw [List.map_map]
    rfl
  obtain ⟨k1, k2, k3⟩ := calls_skip Book.empty (qs.map c)
  rw [← h2] at k1 k2 k3
  have hg : ∀ x, (unsourcedHead x).raw.date = x.raw.date := fun _ => rfl
  have r1 := refused_relabel hg Book.empty gs
  have r2 := leftOver_relabel hg Book.empty gs
  have r3 := foldl_after_relabel hg Book.empty gs
  rw [withHead_unsourced, show Spec.Book.relabel unsourcedHead Book.empty = Book.empty from rfl] at r1 r2 r3
  have hj := journal_relabel hg (bookAfter gs)
  rw [withHead_unsourced] at hj
  have e1 : Refused Book.empty gs ↔ Refused Book.empty (qs.map c) := r1.symm.trans k1
  have e2 : (leftOver Book.empty gs).length = (leftOver Book.empty (qs.map c)).length := by
    rw [← k2, r2, List.length_map]
  have e3 : (bookAfter gs).journal.map unsourced = (bookAfter (qs.map c)).journal := by
    rw [← hj]
    unfold bookAfter
    rw [← k3, r3]
  rcases hrun : MergeCmd.run sys ho ⟨qs.map .path, some v, out⟩ World.start with ⟨res, w⟩
  refine ⟨res, w, rfl, ?_⟩
  by_cases hb : Refused Book.empty (qs.map c)
  · rw [oneRun_refused (by rw [hin]; exact hb)]
    obtain ⟨a1, a2, _⟩ := C25_fails_before_writing sys ho ⟨qs.map .path, some v, out⟩ res w hrun (.inr ⟨gs, h1, .inl (e1.2 hb)⟩)
    exact ⟨a1, a2⟩
  · obtain ⟨us, o1, o2⟩ := oneRun_all (calls := qs.map fun q => (orders q, c q)) (by rw [hin]; exact hb)
    rw [hin] at o1 o2
    rw [o1]
    have hok := C25_succeeds_otherwise sys ho ⟨qs.map .path, some v, out⟩ gs hf h1 (fun hx => hb (e1.1 hx)) (.inr (by simp))
    rw [hrun] at hok
    simp only at hok
    subst hok
    refine ⟨rfl, ?_⟩
    obtain ⟨gs', u, h', f1, _, f3, _, f5⟩ := (mergeCmd_sat sys ho ⟨qs.map .path, some v, out⟩).ok hrun
    have f1 : mergeInputs sys false (qs.map .path) = some gs' := f1
    rw [h1] at f1
    cases f1
    refine ⟨sys.render (TransactionPostings.intoLedger h' u), ?_⟩
    have hu : u = [] ↔ us.flatten = [] := by
      rw [← List.length_eq_zero_iff, ← List.length_eq_zero_iff, ← o2.length_eq, ← (handedBackAll_nil f3).length_eq, e2]
    rw [f5, e3]
    unfold mergePlan wholeWrites textOf
    simp only
    rw [intoLedger_order h' HashOrder.sorted, intoLedger_order h' HashOrder.sorted]
    by_cases hx : u = []
    · rw [if_pos hx, if_pos (hu.1 hx)]
      simp
    · rw [if_neg hx, if_neg fun hy => hx (hu.2 hy)]
      simp

/-- The files, in every run. -/
def sameFiles (D : Str → List TransactionPostings) (qs : List Str) : Nat → HashOrder × History := fun _ => runOf D qs

theorem inputs_sameFiles (D : Str → List TransactionPostings) (qs : List Str) (n : Nat) : inputs (sameFiles D qs n).2 = qs.map D := by
  unfold sameFiles runOf inputs
  rw [List.map_map]
  rfl

theorem readable1_oneRun {calls : History} {x : List TransactionPostings × List (List TransactionPostings)} (h : oneRun calls = some x)
    (hr : ∀ ts ∈ inputs calls, ∀ t ∈ ts, Readable1 t) : ∀ t ∈ x.1, Readable1 t := by
  have hb : ¬ Refused Book.empty (inputs calls) := by
    intro hb
    rw [oneRun_refused hb] at h
    cases h
  obtain ⟨us, h1, _⟩ := oneRun_all hb
  rw [h] at h1
  cases h1
  obtain ⟨g1, g2⟩ := holds_of_calls
    (A := fun x => x.raw.comment = none ∧ x.raw.postings = [] ∧ srcKey ∉ x.comment.valueTags ∧ Plain x.comment)
    (B := fun q => q.raw.comment = none ∧ Plain q.comment) (J := Book.empty) (gs := inputs calls)
    (fun d s hd hs => ⟨hd.1, plain_absorb hd.2 hs.2⟩) hr (by intro x hx; cases hx) (by intro r hr; cases hr)
  exact holds_of_journal (B := fun q => q.raw.comment = none ∧ Plain q.comment) g1 g2

/-- The files after `k` runs. -/
structure AfterRuns (base : Sys) (p v : Str) (qs : List Str) (D : Str → List TransactionPostings) (files : Nat → Option Bytes)
    (js : List TransactionPostings) (k : Nat) (f : Nat → Option Bytes) : Prop where
  journal : contentOf base f p = some (runAgain (sameFiles D qs) js k)
  readable : ∀ t ∈ runAgain (sameFiles D qs) js k, Readable1 t
  others : ∀ n, n ≠ base.file p → n ≠ base.file v → f n = files n
  text : ∀ i, k = i + 1 → (resultOf (sameFiles D qs) js i).isSome → f (base.file p) = some (encodeUtf8 (textOf base (runAgain (sameFiles D qs) js k)))

section
variable {base : Sys} {p v : Str} {qs : List Str} {D : Str → List TransactionPostings} {files : Nat → Option Bytes} {js : List TransactionPostings}

theorem AfterRuns.step (hv : base.file v ≠ base.file p)
    (hD : ∀ q ∈ qs, base.file q ≠ base.file p ∧ base.file q ≠ base.file v ∧ contentOf base files q = some (D q) ∧ ∀ t ∈ D q, Readable1 t)
    (hback : ∀ n, ParsedBack base (runAgain (sameFiles D qs) js n)) {k : Nat} {f : Nat → Option Bytes}
    (ha : AfterRuns base p v qs D files js k f) {s : Step} (hs : MergesAgain p v qs s) :
    AfterRuns base p v qs D files js (k + 1) (s.after base f) ∧
    (resultOf (sameFiles D qs) js k = none → (∃ e, (s.run base f).1 = .error e) ∧ s.after base f = f) ∧
    ∀ x, resultOf (sameFiles D qs) js k = some x → (s.run base f).1 = .ok () ∧
      s.after base f (base.file p) = some (encodeUtf8 (textOf base x.1)) ∧ (x.2.flatten = [] → s.after base f (base.file v) = f (base.file v)) := by
  obtain ⟨m1, m2, m3⟩ := hs
  set c : Str → List TransactionPostings := fun q => if q = p then runAgain (sameFiles D qs) js k else D q with hc
  have hcq : ∀ q ∈ qs, c q = D q := by
    intro q hq
    rw [hc]
    exact if_neg fun h => (hD q hq).1 (by rw [h])
  have hcp : c p = runAgain (sameFiles D qs) js k := if_pos rfl
  obtain ⟨res, w, h1, h2⟩ := C98_run (s.sys base f) s.outside.orders (p :: qs) c (.path v) (.path p) (fun _ => .sorted) m2 (by
    intro q hq
    rcases List.mem_cons.1 hq with rfl | hq
    · rw [hcp]
      exact ⟨ha.journal, fun t ht => (ha.readable t ht).1.2.2.1⟩
    · rw [hcq q hq]
      obtain ⟨d1, d2, d3, d4⟩ := hD q hq
      refine ⟨?_, fun t ht => (d4 t ht).1.2.2.1⟩
      rw [← d3]
      unfold contentOf ledgerAt
      show (((f (base.file q)).bind decodeUtf8).bind base.parse).bind _ = (((files (base.file q)).bind decodeUtf8).bind base.parse).bind _
      rw [ha.others _ d1 d2])
  have hcalls : oneRun ((p :: qs).map (fun q => (HashOrder.sorted, c q))) = resultOf (sameFiles D qs) js k := by
    unfold resultOf sameFiles runOf
    rw [List.map_cons, hcp]
    congr 2
    apply List.map_congr_left
    intro q hq
    rw [hcq q hq]
  rw [hcalls] at h2
  have hrun : s.run base f = (res, w) := by
    unfold Step.run
    rw [m1]
    exact h1
  have hafter : s.after base f = contentsAfter f w.log := by
    unfold Step.after
    rw [m3, hrun]
  cases hx : resultOf (sameFiles D qs) js k with
  | none =>
    rw [hx] at h2
    obtain ⟨⟨e, rfl⟩, hlog⟩ := h2
    have hsame : s.after base f = f := by rw [hafter, hlog]; rfl
    refine ⟨?_, fun _ => ⟨⟨e, by rw [hrun]⟩, hsame⟩, by rintro x ⟨⟩⟩
    rw [hsame]
    have e1 := (resultOf_none hx).2
    refine ⟨by rw [e1]; exact ha.journal, by rw [e1]; exact ha.readable, ha.others, ?_⟩
    intro i hi hsome
    obtain rfl : k = i := by omega
    rw [hx] at hsome
    cases hsome
  | some x =>
    rw [hx] at h2
    obtain ⟨rfl, text, hlog⟩ := h2
    have hp : s.after base f (base.file p) = some (encodeUtf8 (textOf base x.1)) := by
      rw [hafter, hlog, contentsAfter_append, contentsAfter_whole, if_pos (show fileOf (s.sys base f) (.path p) = some (base.file p) from rfl)]
      rfl
    have hother : ∀ n, n ≠ base.file p → (x.2.flatten = [] ∨ n ≠ base.file v) → s.after base f n = f n := by
      intro n hn hn'
      rw [hafter, hlog, contentsAfter_append, contentsAfter_whole,
        if_neg (show fileOf (s.sys base f) (.path p) ≠ some n from fun h => hn (Option.some.inj h).symm)]
      split
      · rfl
      · rename_i hne
        rw [contentsAfter_whole, if_neg (show fileOf (s.sys base f) (.path v) ≠ some n from
          fun h => (hn'.resolve_left hne) (Option.some.inj h).symm)]
    obtain ⟨_, e1, _⟩ := resultOf_some hx
    have hread : ∀ t ∈ x.1, Readable1 t := by
      refine readable1_oneRun (calls := ((sameFiles D qs k).1, runAgain (sameFiles D qs) js k) :: (sameFiles D qs k).2) hx ?_
      intro ts hts
      rcases List.mem_cons.1 (show ts ∈ runAgain (sameFiles D qs) js k :: inputs (sameFiles D qs k).2 from hts) with rfl | hts
      · exact ha.readable
      · rw [inputs_sameFiles] at hts
        obtain ⟨q, hq, rfl⟩ := List.mem_map.1 hts
        exact (hD q hq).2.2.2
    refine ⟨⟨?_, by rw [e1]; exact hread, fun n h1 h2 => (hother n h1 (.inr h2)).trans (ha.others n h1 h2), ?_⟩, by rintro ⟨⟩, ?_⟩
    · rw [e1]
      exact content_of_text hread (by rw [← e1]; exact hback (k + 1)) hp
    · intro i hi _
      rw [e1]
      exact hp
    · rintro y ⟨⟩
      exact ⟨by rw [hrun], hp, fun hz => hother _ hv (.inl hz)⟩

theorem afterSession_append (base : Sys) (files : Nat → Option Bytes) (a b : List Step) :
    afterSession base files (a ++ b) = afterSession base (afterSession base files a) b := by
  induction a generalizing files with
  | nil => rfl
  | cons s a ih => exact ih _

theorem afterRuns_all (hv : base.file v ≠ base.file p)
    (hD : ∀ q ∈ qs, base.file q ≠ base.file p ∧ base.file q ≠ base.file v ∧ contentOf base files q = some (D q) ∧ ∀ t ∈ D q, Readable1 t)
    (hback : ∀ n, ParsedBack base (runAgain (sameFiles D qs) js n)) {k : Nat} {f : Nat → Option Bytes}
    (ha : AfterRuns base p v qs D files js k f) (steps : List Step) (hs : ∀ s ∈ steps, MergesAgain p v qs s) :
    AfterRuns base p v qs D files js (k + steps.length) (afterSession base f steps) := by
  induction steps generalizing k f with
  | nil => exact ha
  | cons s ss ih =>
    have := ih (ha.step hv hD hback (hs s (by simp))).1 fun s' hs' => hs s' (by simp [hs'])
    rw [List.length_cons, show k + (ss.length + 1) = k + 1 + ss.length by omega]
    exact this

end

/-- **C98 with files.** `merge` is run again and again with the journal `p`, the files `qs` and the file `v` for what it cannot decide, and
writes the journal to `p` again. Then the journal in `p` is that of `runAgain`, and no other file but `v` has changed. A run succeeds unless one of its
calls is refused. If a run hands back nothing, it does not touch `v`: what an earlier run has written there stays. And once
there were more runs than transactions in the files `qs`, the file `p` stays what it is, byte for byte.
No file notes a source, comments are plain, and journals that are printed are parsed again as they were. -/
theorem C98_commands (base : Sys) (p v : Str) (qs : List Str) (files : Nat → Option Bytes) (js : List TransactionPostings)
    (D : Str → List TransactionPostings) (hv : base.file v ≠ base.file p)
    (hJ : contentOf base files p = some js) (hJs : NoSources js) (hJc : PlainComments js)
    (hD : ∀ q ∈ qs, base.file q ≠ base.file p ∧ base.file q ≠ base.file v ∧ contentOf base files q = some (D q) ∧ NoSources (D q) ∧
      PlainComments (D q))
    (hback : ∀ n, ParsedBack base (runAgain (sameFiles D qs) js n)) (steps : List Step) (hs : ∀ s ∈ steps, MergesAgain p v qs s) :
    let now := afterSession base files steps
    contentOf base now p = some (runAgain (sameFiles D qs) js steps.length) ∧
    (∀ n, n ≠ base.file p → n ≠ base.file v → now n = files n) ∧
    (∀ s, MergesAgain p v qs s → ((s.run base now).1 = .ok () ↔ (resultOf (sameFiles D qs) js steps.length).isSome) ∧
      ∀ x, resultOf (sameFiles D qs) js steps.length = some x → x.2.flatten = [] → s.after base now (base.file v) = now (base.file v)) ∧
    ((qs.flatMap D).length < steps.length → ∀ more, (∀ s ∈ more, MergesAgain p v qs s) →
      afterSession base files (steps ++ more) (base.file p) = now (base.file p)) := by
  intro now
  have hD' : ∀ q ∈ qs, base.file q ≠ base.file p ∧ base.file q ≠ base.file v ∧ contentOf base files q = some (D q) ∧ ∀ t ∈ D q, Readable1 t :=
    fun q hq => ⟨(hD q hq).1, (hD q hq).2.1, (hD q hq).2.2.1, readable1_of_content (hD q hq).2.2.1 (hD q hq).2.2.2.1 (hD q hq).2.2.2.2⟩
  have h0 : AfterRuns base p v qs D files js 0 files :=
    ⟨hJ, readable1_of_content hJ hJs hJc, fun _ _ _ => rfl, fun i hi => by omega⟩
  have h1 := afterRuns_all hv hD' hback h0 steps hs
  rw [Nat.zero_add] at h1
  refine ⟨h1.journal, h1.others, ?_, ?_⟩
  · intro s hm
    obtain ⟨_, a2, a3⟩ := h1.step hv hD' hback hm
    constructor
    · cases hx : resultOf (sameFiles D qs) js steps.length with
      | none =>
        obtain ⟨⟨e, he⟩, _⟩ := a2 hx
        rw [he]
        simp
      | some x => exact ⟨fun _ => rfl, fun _ => (a3 x hx).1⟩
    · exact fun x hx hz => (a3 x hx).2.2 hz
  · intro hlen more hmore
    rw [afterSession_append]
    have hN : ((qs.map D).flatten).length + 1 ≤ steps.length := by rw [← List.flatMap_def]; exact hlen
    have hset := C98_settles (sameFiles D qs) js (qs.map D) (inputs_sameFiles D qs)
    -- one more run
    have hone : ∀ k f, steps.length ≤ k → AfterRuns base p v qs D files js k f → ∀ s, MergesAgain p v qs s →
        s.after base f (base.file p) = f (base.file p) := by
      intro k f hk ha s hm
      obtain ⟨_, a2, a3⟩ := ha.step hv hD' hback hm
      cases hx : resultOf (sameFiles D qs) js k with
      | none => rw [(a2 hx).2]
      | some x =>
        rw [(a3 x hx).2.1]
        obtain ⟨i, rfl⟩ : ∃ i, k = i + 1 := ⟨k - 1, by omega⟩
        have hi : (resultOf (sameFiles D qs) js i).isSome := by
          cases hy : resultOf (sameFiles D qs) js i with
          | some _ => rfl
          | none =>
            have := (C98_refused_for_good (sameFiles D qs) js (qs.map D) (inputs_sameFiles D qs) i hy 1).1
            rw [hx] at this
            cases this
        rw [ha.text i rfl hi]
        have e := (resultOf_some hx).2.1
        rw [← e, hset (i + 1 + 1) (by omega), hset (i + 1) (by omega)]
    have hall : ∀ (more : List Step) k f, steps.length ≤ k → AfterRuns base p v qs D files js k f → (∀ s ∈ more, MergesAgain p v qs s) →
        afterSession base f more (base.file p) = f (base.file p) := by
      intro more
      induction more with
      | nil => intro k f _ _ _; rfl
      | cons s ss ih =>
        intro k f hk ha hm
        have hsm := hm s (by simp)
        show afterSession base (s.after base f) ss (base.file p) = _
        rw [ih (k + 1) _ (by omega) (ha.step hv hD' hback hsm).1 fun s' hs' => hm s' (by simp [hs']), hone k f hk ha s hsm]
    exact hall more _ _ (le_refl _) h1 hmore

/-! ### An example: the runs of `Props/Again`, with files -/

/-- The only file. -/
def arrivalFile (_ : Str) : List TransactionPostings := [arrival, flatPaid]

/-- The journal is in the file `j` (number 106). -/
noncomputable def arrivalFiles (n : Nat) : Option Bytes :=
  if n = 106 then some (encodeUtf8 (textOf daySystem twoTransfers)) else some (encodeUtf8 (textOf daySystem [arrival, flatPaid]))

set_option maxRecDepth 100000 in
theorem arrival_simple : (∀ t ∈ twoTransfers, Simple t) ∧ ∀ t ∈ [arrival, flatPaid], Simple t := by decide +kernel

/-- A run of `merge j a --unmerged u --output j`. -/
def arrivalStep (order : HashOrder) : Step :=
  mergeStep ⟨[.path "j".toList, .path "a".toList], some (.path "u".toList), .path "j".toList⟩ order (fun _ => none) none

theorem arrivalStep_again (order : HashOrder) : MergesAgain "j".toList "u".toList ["a".toList] (arrivalStep order) := ⟨rfl, fun _ => rfl, rfl⟩

/-- The hypotheses of `C98_commands` are met. Three runs leave the journal of three runs, and any number of further runs does not change
the file. -/
example (more : List Step) (hm : ∀ s ∈ more, MergesAgain "j".toList "u".toList ["a".toList] s) :
    let steps := [arrivalStep .rev, arrivalStep .sorted, arrivalStep .rev]
    contentOf daySystem (afterSession daySystem arrivalFiles steps) "j".toList = some (runAgain (sameFiles arrivalFile ["a".toList]) twoTransfers 3) ∧
    afterSession daySystem arrivalFiles (steps ++ more) 106 = afterSession daySystem arrivalFiles steps 106 := by
  intro steps
  have hr0 : ∀ t ∈ twoTransfers, Readable1 t := fun t ht => (arrival_simple.1 t ht).readable1
  have hr1 : ∀ t ∈ [arrival, flatPaid], Readable1 t := fun t ht => (arrival_simple.2 t ht).readable1
  have hf : daySystem.file "a".toList ≠ 106 := by decide +kernel
  obtain ⟨h1, _, _, h4⟩ := C98_commands daySystem "j".toList "u".toList ["a".toList] arrivalFiles twoTransfers arrivalFile
    (by decide +kernel) (content_of_text hr0 (daySystem_back _) rfl)
    (fun t ht => (hr0 t ht).1.2.2.1) (fun t ht => ⟨(hr0 t ht).1.2.2.2, fun p hp => ((hr0 t ht).2 p hp).2⟩)
    (by
      intro q hq
      obtain rfl := List.mem_singleton.1 hq
      refine ⟨hf, by decide +kernel, ?_, fun t ht => (hr1 t ht).1.2.2.1, fun t ht => ⟨(hr1 t ht).1.2.2.2, fun p hp => ((hr1 t ht).2 p hp).2⟩⟩
      apply content_of_text hr1 (daySystem_back _)
      unfold arrivalFiles
      rw [if_neg hf])
    (fun n => daySystem_back _) steps (by
      intro s hs
      simp only [steps, List.mem_cons, List.not_mem_nil, or_false] at hs
      rcases hs with rfl | rfl | rfl <;> exact arrivalStep_again _)
  exact ⟨h1, h4 (by decide) more hm⟩

end Verif
