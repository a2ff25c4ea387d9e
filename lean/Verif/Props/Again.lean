import Verif.Proofs.Again
import Verif.Props.DaysCmd

/-!
# C98: running `merge` again and again

Nothing that was merged is ever asked about again, and after a bounded number of runs the journal does not change any more.
-/

namespace Verif
open Spec Spec.Book Comment

/-! ### Runs and books -/

theorem asGiven_of_by {J : Book} {t u : TransactionPostings} (h : HandedBackBy J t u) : AsGiven t u :=
  ⟨h.1.1, h.1.2.imp fun _ _ ⟨named, _, ha⟩ => ⟨named, ha⟩⟩

theorem mergeEach_refused {m : Merger} {J : Book} (hR : R m J) {calls : History} (hb : Refused J (inputs calls)) : mergeEach m calls = none := by
  induction calls generalizing m J with
  | nil => exact hb.elim
  | cons c cs ih =>
    have hb : J.Bad c.2 ∨ Refused (J.after c.2) (inputs cs) := hb
    rw [mergeEach]
    rcases merge_spec hR c.1 c.2 with ⟨_, e, he, _⟩ | ⟨hn, m', he, hR'⟩
    · rw [he]
    · rw [he]
      simp only
      rw [ih hR' (hb.resolve_left hn)]
      rfl

theorem mergeEach_merged {m : Merger} {J : Book} (hR : R m J) {calls : History} (hb : ¬ Refused J (inputs calls)) :
    ∃ us m', mergeEach m calls = some (us, m') ∧ R m' ((inputs calls).foldl Book.after J) ∧
      List.Forall₂ AsGiven (leftOver J (inputs calls)) us.flatten := by
  induction calls generalizing m J with
  | nil => exact ⟨[], m, rfl, hR, .nil⟩
  | cons c cs ih =>
    have hb : ¬ (J.Bad c.2 ∨ Refused (J.after c.2) (inputs cs)) := hb
    obtain ⟨m', he, hR'⟩ := merge_of_not_bad hR c.1 fun h => hb (.inl h)
    obtain ⟨us, m'', h1, h2, h3⟩ := ih hR' fun h => hb (.inr h)
    refine ⟨J.handedBack (pickFp c.1 J) c.2 :: us, m'', ?_, h2, ?_⟩
    · rw [mergeEach, he]
      simp only
      rw [h1]
      rfl
    · show List.Forall₂ AsGiven (c.2.filter (fun t => decide (Undecided J t)) ++ leftOver (J.after c.2) (inputs cs)) _
      rw [List.flatten_cons]
      refine List.rel_append ?_ h3
      unfold handedBack
      rw [List.forall₂_map_right_iff, List.forall₂_same]
      intro t _
      exact asGiven_of_by (handBack_by hR.wf (fun i r hr => pickFp_mem hR.wf hr) t)

theorem oneRun_refused {calls : History} (hb : Refused Book.empty (inputs calls)) : oneRun calls = none := by
  unfold oneRun
  rw [mergeEach_refused R_new hb]
  rfl

/-- The first call takes the journal; what the others leave over is handed back, with candidate tags. -/
theorem oneRun_merged {h : HashOrder} {js : List TransactionPostings} {cs : History} (hb : ¬ Refused Book.empty (js :: inputs cs)) :
    ∃ u us, oneRun ((h, js) :: cs) = some ((bookAfter (js :: inputs cs)).journal, u :: us) ∧
      List.Forall₂ AsGiven (js.filter fun t => Undecided Book.empty t) u ∧
      List.Forall₂ AsGiven (leftOver (Book.empty.after js) (inputs cs)) us.flatten := by
  obtain ⟨m', he, hR'⟩ := merge_of_not_bad R_new h fun h => hb (.inl h)
  obtain ⟨us, m'', h1, h2, h3⟩ := mergeEach_merged hR' (calls := cs) fun h => hb (.inr h)
  refine ⟨Book.empty.handedBack (pickFp h Book.empty) js, us, ?_, ?_, h3⟩
  · unfold oneRun
    rw [mergeEach, he]
    simp only
    rw [h1]
    simp only [Option.map_some, Option.bind_some]
    rw [h2.build]
    rfl
  · unfold handedBack
    rw [List.forall₂_map_right_iff, List.forall₂_same]
    intro t _
    exact asGiven_of_by (handBack_by empty_wf (fun i r hr => pickFp_mem empty_wf hr) t)

theorem resultOf_some {runs : Nat → HashOrder × History} {js : List TransactionPostings} {n : Nat}
    {x : List TransactionPostings × List (List TransactionPostings)} (hx : resultOf runs js n = some x) :
    ¬ Refused Book.empty (runAgain runs js n :: inputs (runs n).2) ∧ runAgain runs js (n + 1) = x.1 ∧
      x.1 = (bookAfter (runAgain runs js n :: inputs (runs n).2)).journal ∧
      ∃ u us, x.2 = u :: us ∧ List.Forall₂ AsGiven ((runAgain runs js n).filter fun t => Undecided Book.empty t) u ∧
        List.Forall₂ AsGiven (leftOver (Book.empty.after (runAgain runs js n)) (inputs (runs n).2)) us.flatten := by
  unfold resultOf at hx
  have hb : ¬ Refused Book.empty (runAgain runs js n :: inputs (runs n).2) := by
    intro hb
    rw [oneRun_refused (calls := ((runs n).1, runAgain runs js n) :: (runs n).2) hb] at hx
    cases hx
  obtain ⟨u, us, h1, h2, h3⟩ := oneRun_merged (h := (runs n).1) hb
  rw [runAgain]
  rw [h1] at hx ⊢
  cases hx
  exact ⟨hb, rfl, rfl, u, us, rfl, h2, h3⟩

theorem resultOf_none {runs : Nat → HashOrder × History} {js : List TransactionPostings} {n : Nat} (hx : resultOf runs js n = none) :
    Refused Book.empty (runAgain runs js n :: inputs (runs n).2) ∧ runAgain runs js (n + 1) = runAgain runs js n := by
  unfold resultOf at hx
  constructor
  · by_contra hb
    obtain ⟨u, us, h1, _⟩ := oneRun_merged (h := (runs n).1) hb
    rw [hx] at h1
    cases h1
  · rw [runAgain, hx]

/-! ### The theorems -/

/-- **C98: what was merged is not asked about again.** Two runs, one after the other, with the same files. Of the files, the second hands
back only transactions that the first has handed back too, and nothing of the journal. If it does not hand back fewer than the first, then
the journal is the same after it as before it. -/
theorem C98_less_and_less (runs : Nat → HashOrder × History) (js : List TransactionPostings) (gs : List (List TransactionPostings))
    (hgs : ∀ n, inputs (runs n).2 = gs) (n : Nat) (x y : List TransactionPostings × List (List TransactionPostings))
    (hx : resultOf runs js n = some x) (hy : resultOf runs js (n + 1) = some y) :
    ∃ l l', l'.Sublist l ∧ l.Sublist gs.flatten ∧ List.Forall₂ AsGiven l x.2.tail.flatten ∧ List.Forall₂ AsGiven l' y.2.tail.flatten ∧
      y.2.head? = some [] ∧ (y.2.tail.flatten.length = x.2.tail.flatten.length → y.1 = x.1) := by
  obtain ⟨hb, e1, e2, u, us, e3, _, f2⟩ := resultOf_some hx
  obtain ⟨hb', _, e2', u', us', e3', f1', f2'⟩ := resultOf_some hy
  rw [hgs] at hb e2 f2 hb' e2' f2'
  rw [e1, e2] at hb' e2' f1' f2'
  obtain ⟨s1, s2, s3⟩ := second_run hb hb'
  refine ⟨_, _, s2, leftOver_sublist _ _, by rw [e3]; exact f2, by rw [e3']; exact f2', ?_, ?_⟩
  · have : ((bookAfter (runAgain runs js n :: gs)).journal.filter fun t => decide (Undecided Book.empty t)) = [] :=
      List.filter_eq_nil_iff.2 fun t ht h => s1 t ht (of_decide_eq_true h)
    rw [this] at f1'
    cases f1'
    rw [e3']
    rfl
  · intro hlen
    rw [e3, e3'] at hlen
    rw [e2, e2']
    apply s3
    rw [f2'.length_eq, f2.length_eq]
    exact hlen

/-- A run that is refused is refused for ever, and the journal stays what it is. -/
theorem C98_refused_for_good (runs : Nat → HashOrder × History) (js : List TransactionPostings) (gs : List (List TransactionPostings))
    (hgs : ∀ n, inputs (runs n).2 = gs) (n : Nat) (hx : resultOf runs js n = none) (k : Nat) :
    resultOf runs js (n + k) = none ∧ runAgain runs js (n + k) = runAgain runs js n := by
  induction k with
  | zero => exact ⟨hx, rfl⟩
  | succ k ih =>
    obtain ⟨hb, _⟩ := resultOf_none hx
    have e : runAgain runs js (n + k + 1) = runAgain runs js n := (resultOf_none ih.1).2.trans ih.2
    refine ⟨?_, e⟩
    rw [← Nat.add_assoc]
    unfold resultOf
    apply oneRun_refused
    show Refused Book.empty (runAgain runs js (n + k + 1) :: inputs (runs (n + k + 1)).2)
    rw [e, hgs, ← hgs n]
    exact hb

/-- The same journal again leads to the same journal for ever. -/
theorem again_same {runs : Nat → HashOrder × History} {js : List TransactionPostings} {gs : List (List TransactionPostings)}
    (hgs : ∀ n, inputs (runs n).2 = gs) {n : Nat} (h : runAgain runs js (n + 1) = runAgain runs js n) (k : Nat) :
    runAgain runs js (n + k) = runAgain runs js n := by
  induction k with
  | zero => rfl
  | succ k ih =>
    rw [← Nat.add_assoc]
    cases hx : resultOf runs js (n + k) with
    | none => rw [(resultOf_none hx).2, ih]
    | some x =>
      obtain ⟨_, e1, e2, _⟩ := resultOf_some hx
      rw [e1, e2, ih, hgs, ← hgs n]
      cases hy : resultOf runs js n with
      | none =>
        have := C98_refused_for_good runs js gs hgs n hy k
        rw [hx] at this
        cases this.1
      | some y =>
        obtain ⟨_, e1', e2', _⟩ := resultOf_some hy
        rw [← e2', ← e1', h]

/-- **C98: it settles.** `merge` is run again and again with the journal that it wrote before and the same files. If there are `N`
transactions in the files, then the journal is the same after `N + 1` runs and after any larger number of runs. -/
theorem C98_settles (runs : Nat → HashOrder × History) (js : List TransactionPostings) (gs : List (List TransactionPostings))
    (hgs : ∀ n, inputs (runs n).2 = gs) (n : Nat) (hn : gs.flatten.length + 1 ≤ n) :
    runAgain runs js n = runAgain runs js (gs.flatten.length + 1) := by
  -- as long as it has not settled, fewer and fewer are handed back
  have key : ∀ k, (∃ i ≤ k, runAgain runs js (i + 1) = runAgain runs js i) ∨
      ∃ x, resultOf runs js k = some x ∧ x.2.tail.flatten.length + k ≤ gs.flatten.length := by
    intro k
    induction k with
    | zero =>
      cases hx : resultOf runs js 0 with
      | none => exact .inl ⟨0, le_refl _, (resultOf_none hx).2⟩
      | some x =>
        obtain ⟨_, _, _, u, us, e3, _, f2⟩ := resultOf_some hx
        refine .inr ⟨x, rfl, ?_⟩
        rw [e3, List.tail_cons, ← f2.length_eq, hgs]
        exact (leftOver_sublist _ _).length_le
    | succ k ih =>
      rcases ih with ⟨i, hi, h⟩ | ⟨x, hx, hl⟩
      · exact .inl ⟨i, by omega, h⟩
      · cases hy : resultOf runs js (k + 1) with
        | none => exact .inl ⟨k + 1, le_refl _, (resultOf_none hy).2⟩
        | some y =>
          obtain ⟨l, l', s1, _, f1, f2, _, hsame⟩ := C98_less_and_less runs js gs hgs k x y hx hy
          by_cases hlen : y.2.tail.flatten.length = x.2.tail.flatten.length
          · refine .inl ⟨k + 1, le_refl _, ?_⟩
            rw [(resultOf_some hy).2.1, hsame hlen, (resultOf_some hx).2.1]
          · refine .inr ⟨y, rfl, ?_⟩
            have := s1.length_le
            rw [f1.length_eq, f2.length_eq] at this
            omega
  have hex : ∃ i ≤ gs.flatten.length + 1, runAgain runs js (i + 1) = runAgain runs js i := by
    rcases key (gs.flatten.length + 1) with h | ⟨x, _, hl⟩
    · exact h
    · omega
  obtain ⟨i, hi, h⟩ := hex
  rw [show n = i + (n - i) by omega, again_same hgs h, show gs.flatten.length + 1 = i + (gs.flatten.length + 1 - i) by omega, again_same hgs h]

/-! ### Examples -/

section Example
open Ex

/-- Two transfers of the same day; the accounts that they went to are not known yet. -/
def twoTransfers : List TransactionPostings :=
  [trn 2 "first" [post "assets:b" (-100) ["fp-1"], post "expenses" 100 ["fp-2", "unknown-account"]],
   trn 2 "second" [post "assets:b" (-100) ["fp-3"], post "expenses" 100 ["fp-4", "unknown-account"]]]

/-- A statement of the account `a`: it could be either of them. But it also says what the second was. -/
def arrival : TransactionPostings := trn 2 "arrival" [post "assets:a" 100 ["fp-5"]]
def flatPaid : TransactionPostings := trn 2 "second" [post "assets:b" (-100) ["fp-3"], post "expenses:flat" 100 ["fp-4"]]

/-- The runs: each with one file. -/
def arrivalRuns : Nat → HashOrder × History := fun n => (.sorted, [(if n % 2 = 0 then .sorted else .rev, [arrival, flatPaid])])

theorem arrivalRuns_inputs (n : Nat) : inputs (arrivalRuns n).2 = [[arrival, flatPaid]] := rfl

/-- What is in a journal: descriptions, accounts and fingerprints. -/
def outline (j : List TransactionPostings) : List (Str × List (Str × List Str)) :=
  j.map fun t => (t.trn.raw.description, t.posts.map fun p => (p.raw.account, fps p))

set_option maxRecDepth 100000 in
/-- The first run hands the arrival back, because it could be either of the transfers. It learns what the second transfer was, so that the
second run can merge the arrival. After that nothing changes any more. -/
theorem arrival_results :
    ((resultOf arrivalRuns twoTransfers 0).map fun x => x.2.map (·.length)) = some [0, 1] ∧
    ((resultOf arrivalRuns twoTransfers 0).map fun x => outline x.1) = some
      [("first".toList, [("assets:b".toList, ["fp-1".toList]), ("expenses".toList, ["fp-2".toList])]),
       ("second".toList, [("assets:b".toList, ["fp-3".toList]), ("expenses:flat".toList, ["fp-4".toList])])] ∧
    ((resultOf arrivalRuns twoTransfers 1).map fun x => x.2.map (·.length)) = some [0, 0] ∧
    ((resultOf arrivalRuns twoTransfers 1).map fun x => outline x.1) = some
      [("first".toList, [("assets:b".toList, ["fp-1".toList]), ("assets:a".toList, ["fp-2".toList, "fp-5".toList])]),
       ("second".toList, [("assets:b".toList, ["fp-3".toList]), ("expenses:flat".toList, ["fp-4".toList])])] := by
  unfold resultOf oneRun
  simp only [runAgain, oneRun, build_eval]
  refine ⟨?_, ?_, ?_, ?_⟩ <;> decide +kernel

/-- The hypotheses of `C98_less_and_less` are met by these runs, with one transaction handed back and then none. -/
example : ∃ x y, resultOf arrivalRuns twoTransfers 0 = some x ∧ resultOf arrivalRuns twoTransfers 1 = some y ∧ x.1 ≠ y.1 ∧
    ∃ l l', l'.Sublist l ∧ l.Sublist [arrival, flatPaid] ∧ l.length = 1 ∧ l' = [] := by
  obtain ⟨h1, h2, h3, h4⟩ := arrival_results
  obtain ⟨x, hx, ex⟩ := Option.map_eq_some_iff.1 h1
  obtain ⟨y, hy, ey⟩ := Option.map_eq_some_iff.1 h3
  obtain ⟨l, l', s1, s2, f1, f2, _⟩ := C98_less_and_less arrivalRuns twoTransfers [[arrival, flatPaid]] arrivalRuns_inputs 0 x y hx hy
  rw [hx, Option.map_some, Option.some.injEq] at h2
  rw [hy, Option.map_some, Option.some.injEq] at h4
  refine ⟨x, y, hx, hy, ?_, l, l', s1, s2, ?_, ?_⟩
  · intro he
    rw [he, h4] at h2
    revert h2
    decide +kernel
  · rw [f1.length_eq, List.length_flatten, List.map_tail, ex]
    rfl
  · rw [← List.length_eq_zero_iff, f2.length_eq, List.length_flatten, List.map_tail, ey]
    rfl

/-- `C98_settles` says that three runs are enough. -/
example (n : Nat) (hn : 3 ≤ n) : runAgain arrivalRuns twoTransfers n = runAgain arrivalRuns twoTransfers 3 :=
  C98_settles arrivalRuns twoTransfers [[arrival, flatPaid]] arrivalRuns_inputs n hn

/-- The same with a file that has the first transfer as well. -/
def clashRuns : Nat → HashOrder × History := fun _ =>
  (.sorted, [(.sorted, [arrival, flatPaid, trn 2 "first" [post "assets:b" (-100) ["fp-1"], post "expenses" 100 ["fp-2", "unknown-account"]]])])

set_option maxRecDepth 100000 in
/-- **A run that succeeds can fail when it is repeated.** In the first run the arrival is unclear and is handed back. In the second run it is
clear, but now two postings of the file would go into the same posting of the journal, and this is refused; from then on every run fails. -/
theorem C98_repeated_run_fails : (resultOf clashRuns twoTransfers 0).isSome ∧ ∀ n, 1 ≤ n → resultOf clashRuns twoTransfers n = none := by
  have h0 : (resultOf clashRuns twoTransfers 0).isSome := by
    unfold resultOf oneRun
    simp only [build_eval]
    decide +kernel
  have h1 : resultOf clashRuns twoTransfers 1 = none := by
    have : (resultOf clashRuns twoTransfers 1).isNone := by
      unfold resultOf runAgain oneRun
      simp only [build_eval, runAgain]
      decide +kernel
    exact Option.isNone_iff_eq_none.1 this
  refine ⟨h0, fun n hn => ?_⟩
  have := (C98_refused_for_good clashRuns twoTransfers _ (fun _ => rfl) 1 h1 (n - 1)).1
  rwa [show 1 + (n - 1) = n by omega] at this

end Example

end Verif
