import Verif.Props.Crash
import Verif.Props.MergeAgain
import Verif.Props.FpGen

/-!
# C67: running `fmt` and `generate-fingerprints` again
-/

namespace Verif
open Spec Spec.Book

/-- The system after a run that had the effects `log`; standard input, faults and random values may be others. -/
def sysAfter (sys : Sys) (log : List Eff) (stdin : Bytes) (fault : Nat → Option Nat) (random : Nat → Str) : Sys :=
  { sys with start := contentsAfter sys.start log, stdin := stdin, fault := fault, random := random }

theorem ledgerAt_path {sys : Sys} {files : Nat → Option Bytes} {again : Bool} {f : FileSpec} {n : Nat} (hn : fileOf sys f = some n) :
    ledgerAt sys files again f = ((files n).bind decodeUtf8).bind sys.parse := by
  unfold ledgerAt; rw [hn]

/-- After the run, every file that it was given holds a text that `T` allows. -/
theorem rewritten_settled {sys : Sys} {T : Ledger → Str → Prop} {G : Ledger → Prop} {again again' : Bool} {log log' : List Eff}
    {fs : List FileSpec} (h : Rewritten sys T again log fs again' log')
    (hT : ∀ L text, G L → T L text → ∃ L', sys.parse text = some L' ∧ G L')
    (hG : ∀ f ∈ fs, ∀ n, fileOf sys f = some n → ∀ L, ((contentsAfter sys.start log n).bind decodeUtf8).bind sys.parse = some L → G L)
    (n : Nat) (hn : (∃ f ∈ fs, fileOf sys f = some n) ∨
      ∃ L text, G L ∧ T L text ∧ contentsAfter sys.start log n = some (encodeUtf8 text)) :
    ∃ L text, G L ∧ T L text ∧ contentsAfter sys.start log' n = some (encodeUtf8 text) := by
  induction h with
  | nil =>
    rcases hn with ⟨f, hf, _⟩ | h
    · cases hf
    · exact h
  | @cons again log f fs L text again' log' h1 h2 _ ih =>
    have hc : ∀ m, contentsAfter sys.start (log ++ wholeWrite sys f text) m =
        if fileOf sys f = some m then some (encodeUtf8 text) else contentsAfter sys.start log m := by
      intro m; rw [contentsAfter_append, contentsAfter_whole]
    have hGL : ∀ m, fileOf sys f = some m → G L := by
      intro m hm
      apply hG f (by simp) m hm
      rw [← ledgerAt_path (again := again) hm]
      exact h1
    apply ih
    · intro f' hf' m hm L' hL'
      rw [hc] at hL'
      split at hL'
      · rename_i hfm
        obtain ⟨L'', e, g⟩ := hT L text (hGL m hfm) h2
        rw [Option.bind_some, decode_encode, Option.bind_some, e] at hL'
        cases hL'
        exact g
      · exact hG f' (List.mem_cons_of_mem _ hf') m hm L' hL'
    · rw [hc]
      by_cases hfn : fileOf sys f = some n
      · right
        rw [if_pos hfn]
        exact ⟨L, text, hGL n hfn, h2, rfl⟩
      · rw [if_neg hfn]
        rcases hn with ⟨f', hf', hfn'⟩ | hn
        · rcases List.mem_cons.1 hf' with rfl | hf'
          · exact absurd hfn' hfn
          · exact .inl ⟨f', hf', hfn'⟩
        · exact .inr hn

/-- Files that hold texts that `T` allows are rewritten with the same texts. -/
theorem rewritten_same {sys : Sys} {T T' : Ledger → Str → Prop} {G : Ledger → Prop} {again again' : Bool} {log log' : List Eff}
    {fs : List FileSpec} (h : Rewritten sys T' again log fs again' log')
    (hT : ∀ L text, G L → T L text → ∃ L', sys.parse text = some L' ∧ ∀ text', T' L' text' → text' = text)
    (hs : ∀ f ∈ fs, ∀ n, fileOf sys f = some n → ∃ L text, G L ∧ T L text ∧ contentsAfter sys.start log n = some (encodeUtf8 text)) :
    contentsAfter sys.start log' = contentsAfter sys.start log := by
  induction h with
  | nil => rfl
  | @cons again log f fs L text again' log' h1 h2 _ ih =>
    have hc : contentsAfter sys.start (log ++ wholeWrite sys f text) = contentsAfter sys.start log := by
      funext m
      rw [contentsAfter_append, contentsAfter_whole]
      split
      · rename_i hm
        obtain ⟨L₀, text₀, g, t, e⟩ := hs f (by simp) m hm
        rw [ledgerAt_path hm, e, Option.bind_some, decode_encode, Option.bind_some] at h1
        obtain ⟨L', e', ht⟩ := hT L₀ text₀ g t
        rw [e'] at h1; cases h1
        rw [ht text h2, e]
      · rfl
    rw [hc] at ih
    exact ih (fun f' hf' => hs f' (List.mem_cons_of_mem _ hf'))

theorem rewritten_again {sys : Sys} {T T' : Ledger → Str → Prop} {G : Ledger → Prop} {fs : List FileSpec} {a a' : Bool}
    {log log' : List Eff} {stdin : Bytes} {fault : Nat → Option Nat} {random : Nat → Str}
    (h : Rewritten sys T false [] fs a log) (h' : Rewritten (sysAfter sys log stdin fault random) T' false [] fs a' log')
    (hT : ∀ L text, G L → T L text → ∃ L', sys.parse text = some L' ∧ G L' ∧ ∀ text', T' L' text' → text' = text)
    (hG : ∀ f ∈ fs, ∀ n, fileOf sys f = some n → ∀ L, ((sys.start n).bind decodeUtf8).bind sys.parse = some L → G L) :
    contentsAfter (contentsAfter sys.start log) log' = contentsAfter sys.start log := by
  have hfile : ∀ f, fileOf (sysAfter sys log stdin fault random) f = fileOf sys f := by intro f; cases f <;> rfl
  refine rewritten_same (sys := sysAfter sys log stdin fault random) (G := G) (T := T) h' ?_ ?_
  · intro L text g t
    obtain ⟨L', e, _, k⟩ := hT L text g t
    exact ⟨L', e, k⟩
  · intro f hf n hn
    rw [hfile] at hn
    refine rewritten_settled h (fun L text g t => ?_) hG n (.inl ⟨f, hf, hn⟩)
    obtain ⟨L', e, g', _⟩ := hT L text g t
    exact ⟨L', e, g'⟩

/-- C67: after a successful run of `fmt`, a second successful run with the same files leaves all files as they are,
provided that what is printed can be parsed and is printed in the same way again. -/
theorem C67_fmt_again (sys : Sys) (fs : List FileSpec) (w w' : World) (stdin : Bytes) (fault : Nat → Option Nat) (random : Nat → Str)
    (hp : ∀ s L, sys.parse s = some L → ∃ L', sys.parse (sys.render L) = some L' ∧ sys.render L' = sys.render L)
    (h : fmtRun sys fs World.start = (.ok (), w))
    (h' : fmtRun (sysAfter sys w.log stdin fault random) fs World.start = (.ok (), w')) :
    contentsAfter (contentsAfter sys.start w.log) w'.log = contentsAfter sys.start w.log := by
  have k := C58_fmt sys fs
  rw [h] at k
  obtain ⟨a, k⟩ := k
  have k' := C58_fmt (sysAfter sys w.log stdin fault random) fs
  rw [h'] at k'
  obtain ⟨a', k'⟩ := k'
  refine rewritten_again (G := fun L => ∃ s, sys.parse s = some L) k k' ?_ ?_
  · rintro L text ⟨s, hs⟩ rfl
    obtain ⟨L', e1, e2⟩ := hp s L hs
    exact ⟨L', e1, ⟨_, e1⟩, by rintro text' rfl; exact e2⟩
  · intro f _ n _ L hL
    obtain ⟨s, _, hs⟩ := Option.bind_eq_some_iff.1 hL
    exact ⟨s, hs⟩

/-- C67: after a successful run of `generate-fingerprints`, a second successful run with the same files, with other random
values, leaves all files as they are: no posting gets a second fingerprint. The comments in the files have to be in normal
form (see C27), the random values are words, and what is printed is parsed as what was printed. -/
theorem C67_generate_fingerprints_again (sys : Sys) (o o' : HashOrder) (fs : List FileSpec) (w w' : World) (stdin : Bytes)
    (fault : Nat → Option Nat) (random : Nat → Str)
    (hr : ∀ k, ∀ c ∈ sys.random k, c ≠ ':' ∧ c ≠ ' ' ∧ c ≠ '\n')
    (hG : ∀ f ∈ fs, ∀ n, fileOf sys f = some n → ∀ L, ((sys.start n).bind decodeUtf8).bind sys.parse = some L →
      ∀ ts, TransactionPostings.fromLedger L = some ts → (∀ t ∈ ts, Tidy t) ∧
        ∀ n L', L' = TransactionPostings.intoLedger o (FpGen.updateTransactions sys.random n ts).2 → sys.parse (sys.render L') = some L')
    (h : FpGen.run sys o fs World.start = (.ok (), w))
    (h' : FpGen.run (sysAfter sys w.log stdin fault random) o' fs World.start = (.ok (), w')) :
    contentsAfter (contentsAfter sys.start w.log) w'.log = contentsAfter sys.start w.log := by
  have k := C58_generate_fingerprints sys o fs
  rw [h] at k
  obtain ⟨a, k⟩ := k
  have k' := C58_generate_fingerprints (sysAfter sys w.log stdin fault random) o' fs
  rw [h'] at k'
  obtain ⟨a', k'⟩ := k'
  refine rewritten_again (G := fun L => ∀ ts, TransactionPostings.fromLedger L = some ts → (∀ t ∈ ts, Tidy t) ∧
        ∀ n L', L' = TransactionPostings.intoLedger o (FpGen.updateTransactions sys.random n ts).2 →
          sys.parse (sys.render L') = some L') k k' ?_ hG
  rintro L text g ⟨ts, n, hts, rfl⟩
  obtain ⟨g1, g2⟩ := g ts hts
  have g3 := g2 n _ rfl
  have ht' := updated_tidy sys.random n ts g1 hr
  have hback := C62_round_trip o _ ht'
  refine ⟨_, g3, ?_, ?_⟩
  · intro ts' hts'
    rw [hback] at hts'; cases hts'
    refine ⟨ht', ?_⟩
    intro m L' hL'
    rw [C38_idempotent] at hL'
    exact g2 n L' hL'
  · rintro text' ⟨ts', m, hts', rfl⟩
    rw [hback] at hts'; cases hts'
    rw [C38_idempotent, intoLedger_order o' o]
    rfl

/-! Examples: `fmt` on the files `a`, `b` and `a` again, and `generate-fingerprints` on a file with postings without
fingerprints. -/

set_option maxRecDepth 100000 in
/-- The hypotheses of `C67_fmt_again` are met. -/
example (w w' : World) (random : Nat → Str) (h : fmtRun exAgain [Ex.file "a", Ex.file "b", Ex.file "a"] World.start = (.ok (), w))
    (h' : fmtRun (sysAfter exAgain w.log [] (fun _ => none) random) [Ex.file "a", Ex.file "b", Ex.file "a"] World.start = (.ok (), w')) :
    contentsAfter (contentsAfter exAgain.start w.log) w'.log = contentsAfter exAgain.start w.log :=
  C67_fmt_again exAgain _ w w' [] (fun _ => none) random (fun _ _ _ => ⟨exMerged, rfl, rfl⟩) h h'

set_option maxRecDepth 100000 in
example : (fmtRun exAgain [Ex.file "a", Ex.file "b", Ex.file "a"] World.start).1 = .ok () ∧
    (fmtRun (sysAfter exAgain (fmtRun exAgain [Ex.file "a", Ex.file "b", Ex.file "a"] World.start).2.log [] (fun _ => none)
      (fun _ => [])) [Ex.file "a", Ex.file "b", Ex.file "a"] World.start).1 = .ok () ∧
    contentsAfter exAgain.start (fmtRun exAgain [Ex.file "a", Ex.file "b", Ex.file "a"] World.start).2.log 97 = some [74] := by
  decide +kernel

/-- The transactions of a file. -/
def exLacking : List TransactionPostings := (((Ex.parseLetters "n".toList).bind TransactionPostings.fromLedger).getD [])

/-- What is made of them. -/
def exFilled : Ledger := TransactionPostings.intoLedger HashOrder.sorted (FpGen.updateTransactions (fun _ => ['x']) 0 exLacking).2

/-- A system that can write and read this. -/
def exFp : Sys :=
  { Ex.system "n" "n" (fun _ => none) with
    random := fun _ => ['x']
    parse := fun s => if s = ['J'] then some exFilled else Ex.parseLetters s
    render := fun _ => ['J'] }

theorem updatePosts_const (c : Str) (n m : Nat) (ps : List PostingInternal) :
    (FpGen.updatePosts (fun _ => c) n ps).2 = (FpGen.updatePosts (fun _ => c) m ps).2 := by
  induction ps generalizing n m with
  | nil => rfl
  | cons p ps ih =>
    unfold FpGen.updatePosts
    split
    · simp only; rw [ih (n + 1) (m + 1)]
    · simp only; rw [ih n m]

theorem updateTransactions_const (c : Str) (n m : Nat) (ts : List TransactionPostings) :
    (FpGen.updateTransactions (fun _ => c) n ts).2 = (FpGen.updateTransactions (fun _ => c) m ts).2 := by
  induction ts generalizing n m with
  | nil => rfl
  | cons t ts ih =>
    unfold FpGen.updateTransactions
    simp only
    rw [updatePosts_const c n m, ih]

set_option maxRecDepth 100000 in
/-- The hypotheses of `C67_generate_fingerprints_again` are met. -/
example (o o' : HashOrder) (w w' : World) (random : Nat → Str) (h : FpGen.run exFp o [Ex.file "a"] World.start = (.ok (), w))
    (h' : FpGen.run (sysAfter exFp w.log [] (fun _ => none) random) o' [Ex.file "a"] World.start = (.ok (), w')) :
    contentsAfter (contentsAfter exFp.start w.log) w'.log = contentsAfter exFp.start w.log := by
  refine C67_generate_fingerprints_again exFp o o' _ w w' [] (fun _ => none) random ?_ ?_ h h'
  · intro k c hc
    have hc : c ∈ ['x'] := hc
    rw [List.mem_singleton.1 hc]; decide
  · intro f hf n hn L hL ts hts
    rw [List.mem_singleton.1 hf] at hn
    have hn : n = 97 := by
      have e : fileOf exFp (Ex.file "a") = some 97 := by decide +kernel
      rw [e] at hn; exact (Option.some.inj hn).symm
    subst hn
    have e : ((exFp.start 97).bind decodeUtf8).bind exFp.parse = Ex.parseLetters "n".toList := by decide +kernel
    rw [e] at hL
    have hts' : ts = exLacking := by unfold exLacking; rw [hL, Option.bind_some, hts]; rfl
    have key : ∀ t ∈ exLacking, t.trn.raw.comment = none ∧ t.trn.raw.postings = [] ∧ OnlyTags t.trn.comment ∧
        ∀ p ∈ t.posts, p.raw.comment = none ∧ OnlyTags p.comment := by decide +kernel
    subst hts'
    refine ⟨fun t ht => ?_, ?_⟩
    · obtain ⟨k1, k2, k3, k4⟩ := key t ht
      exact ⟨k1, k2, k3.plain.toNormal, fun p hp => (k4 p hp).1, fun p hp => (k4 p hp).2.plain.toNormal⟩
    · rintro m L' rfl
      show some exFilled = _
      have e : (FpGen.updateTransactions exFp.random m exLacking).2 = (FpGen.updateTransactions (fun _ => ['x']) 0 exLacking).2 :=
        updateTransactions_const ['x'] m 0 exLacking
      rw [e, intoLedger_order o HashOrder.sorted]
      rfl

end Verif
