import Verif.Proofs.FileKept

/-!
# C97: runs that write to the same file at the same time
-/

namespace Verif
open Spec

section
variable {ι : Type} [DecidableEq ι]

/-- **C97 (what is in the file).** However the steps of processes come in turn, and whatever they read and write: what is in a file is at any moment
given by what happened to it. -/
theorem C97_what_is_kept (base : Sys) (files : Nat → Option Bytes) (runs : ι → Step) (order : List ι) (n : Nat) :
    Kept (files n) (history ⟨files, fun i => (runs i).proc base⟩ order) n ((together base files runs order).files n) :=
  (together_kept ⟨files, fun i => (runs i).proc base⟩ (fun _ _ _ => writesAt_next) order).1 n

/-- **C97 (any mixture).** Two runs that read before they write, and that write to the same file: for every text that has at each place a byte of
one of their texts, and is as long as the longer one, there is an order of steps in which both runs come to an end with the results that they have
alone, and this text is in the file. Of the two texts only the bytes that they share at a place are safe. -/
theorem C97_any_mixture (base : Sys) (files : Nat → Option Bytes) (runs : ι → Step) {i j : ι} (hij : i ≠ j) (hri : ReadsFirst (runs i).cmd)
    (hrj : ReadsFirst (runs j).cmd) {n : Nat} (hi : Eff.create n ∈ ((runs i).run base files).2.log)
    (hj : Eff.create n ∈ ((runs j).run base files).2.log) {a b c : Bytes}
    (ha : contentsAfter files ((runs i).run base files).2.log n = some a) (hb : contentsAfter files ((runs j).run base files).2.log n = some b)
    (hc : Mixed a b c) :
    ∃ order, ((together base files runs order).procs i).Finished ((runs i).run base files).1 ∧
      ((together base files runs order).procs j).Finished ((runs j).run base files).1 ∧ (together base files runs order).files n = some c := by
  obtain ⟨a', b', G, P, si, sj, wi, wj, ri, rj, ki, kj, resti, restj, k1, k2, k3, k4, h1, h2, h3, h4, h5, h6, h7⟩ :=
    both_created base files runs hij hri hrj hi hj
  obtain rfl := Option.some.inj (ha.symm.trans h1)
  obtain rfl := Option.some.inj (hb.symm.trans h2)
  have hji : j ≠ i := fun e => hij e.symm
  obtain ⟨o, ho⟩ := reach_mixed (n := n) hij (si := si) (sj := sj) (ri := ri) (rj := rj) (ki := ki) (kj := kj) a b c [] hc G P wi wj
  obtain ⟨k5, e5⟩ := run_reaches (P := put (put P i ⟨si, { wi with log := wi.log ++ a.map (.write n) }, .next (ki ri)⟩) j
    ⟨sj, { wj with log := wj.log ++ b.map (.write n) }, .next (kj rj)⟩) (i := i) (F := setFile G n ([] ++ c))
    (by rw [put_other _ hij, put_same]; exact h4 _)
  obtain ⟨k6, e6⟩ := run_reaches (P := put (put (put P i ⟨si, { wi with log := wi.log ++ a.map (.write n) }, .next (ki ri)⟩) j
    ⟨sj, { wj with log := wj.log ++ b.map (.write n) }, .next (kj rj)⟩) i ⟨si, ((runs i).run base files).2, .next (.done ((runs i).run base files).1)⟩)
    (i := j) (F := contentsAfter (setFile G n ([] ++ c)) resti)
    (by rw [put_other _ hji, put_same]; exact h5 _)
  refine ⟨(List.replicate k1 i ++ (List.replicate k2 j ++ (List.replicate k3 i ++ List.replicate k4 j))) ++
    (o ++ (List.replicate k5 i ++ List.replicate k6 j)), ?_⟩
  have := (run_append ⟨files, fun k => (runs k).proc base⟩ (List.replicate k1 i ++ (List.replicate k2 j ++ (List.replicate k3 i ++ List.replicate k4 j)))
    (o ++ (List.replicate k5 i ++ List.replicate k6 j)))
  unfold together at h3 ⊢
  rw [this, h3, run_append, show (0 : Nat) = ([] : Bytes).length from rfl, ho, run_append, e5, e6]
  simp only
  refine ⟨?_, ?_, ?_⟩
  · rw [put_other _ hij, put_same]; rfl
  · rw [put_same]; rfl
  · rw [h7, h6]; exact setFile_get _ _ _

/-- **C97 (the end of the longer text).** The same when each run writes its text in one go: both create the file, then the first writes its text, then
the second. The file begins with the text of the second, and if the first text is longer, then its end is still there. -/
theorem C97_end_of_the_longer (base : Sys) (files : Nat → Option Bytes) (runs : ι → Step) {i j : ι} (hij : i ≠ j) (hri : ReadsFirst (runs i).cmd)
    (hrj : ReadsFirst (runs j).cmd) {n : Nat} (hi : Eff.create n ∈ ((runs i).run base files).2.log)
    (hj : Eff.create n ∈ ((runs j).run base files).2.log) {a b : Bytes}
    (ha : contentsAfter files ((runs i).run base files).2.log n = some a) (hb : contentsAfter files ((runs j).run base files).2.log n = some b) :
    ∃ k1 k2 k3 k4 k5 k6, ∃ order, order = List.replicate k1 i ++ List.replicate k2 j ++ List.replicate k3 i ++ List.replicate k4 j ++
        List.replicate k5 i ++ List.replicate k6 j ∧
      ((together base files runs order).procs i).Finished ((runs i).run base files).1 ∧
      ((together base files runs order).procs j).Finished ((runs j).run base files).1 ∧
      (together base files runs order).files n = some (b ++ a.drop b.length) := by
  obtain ⟨a', b', G, P, si, sj, wi, wj, ri, rj, ki, kj, resti, restj, k1, k2, k3, k4, h1, h2, h3, h4, h5, h6, h7⟩ :=
    both_created base files runs hij hri hrj hi hj
  obtain rfl := Option.some.inj (ha.symm.trans h1)
  obtain rfl := Option.some.inj (hb.symm.trans h2)
  have hji : j ≠ i := fun e => hij e.symm
  obtain ⟨k5, e5⟩ := run_reaches (P := put (put P i ⟨si, wi, .writing n 0 a ri ki⟩) j ⟨sj, wj, .writing n 0 b rj kj⟩) (i := i) (F := setFile G n [])
    (by rw [put_other _ hij, put_same]; exact (reach_write_on a G wi []).trans (h4 _))
  obtain ⟨F, hF⟩ : ∃ F, contentsAfter (setFile G n ([] ++ a)) resti = setFile F n ([] ++ a) := by
    refine ⟨contentsAfter (setFile G n ([] ++ a)) resti, ?_⟩
    funext m
    unfold setFile
    by_cases h : m = n
    · rw [if_pos h, h, h6, if_pos rfl]
    · rw [if_neg h]
  rw [hF] at e5
  obtain ⟨k6, e6⟩ := run_reaches (P := put (put (put P i ⟨si, wi, .writing n 0 a ri ki⟩) j ⟨sj, wj, .writing n 0 b rj kj⟩) i
    ⟨si, ((runs i).run base files).2, .next (.done ((runs i).run base files).1)⟩) (i := j) (F := setFile F n ([] ++ a))
    (by rw [put_other _ hji, put_same]; exact (reach_write_over b F wj [] a).trans (h5 _))
  refine ⟨k1, k2, k3, k4, k5, k6, _, rfl, ?_⟩
  have := (run_append ⟨files, fun k => (runs k).proc base⟩ (List.replicate k1 i ++ (List.replicate k2 j ++ (List.replicate k3 i ++ List.replicate k4 j)))
    (List.replicate k5 i ++ List.replicate k6 j))
  unfold together at h3 ⊢
  simp only [List.append_assoc] at this ⊢
  rw [this, h3, run_append, e5, e6]
  simp only
  refine ⟨?_, ?_, ?_⟩
  · rw [put_other _ hij, put_same]; rfl
  · rw [put_same]; rfl
  · rw [h7]; exact setFile_get _ _ _

/-- **C97 (zeros).** If the second run creates the file when the first one has written a part of its text, then the first one goes on where it was:
what it has written is gone, and there are zeros in its place, as far as the text of the second run does not cover them. -/
theorem C97_zeros (base : Sys) (files : Nat → Option Bytes) (runs : ι → Step) {i j : ι} (hij : i ≠ j) (hri : ReadsFirst (runs i).cmd)
    (hrj : ReadsFirst (runs j).cmd) {n : Nat} (hi : Eff.create n ∈ ((runs i).run base files).2.log)
    (hj : Eff.create n ∈ ((runs j).run base files).2.log) {a b : Bytes}
    (ha : contentsAfter files ((runs i).run base files).2.log n = some a) (hb : contentsAfter files ((runs j).run base files).2.log n = some b)
    {k : Nat} (hk : k < a.length) :
    ∃ order, ((together base files runs order).procs i).Finished ((runs i).run base files).1 ∧
      ((together base files runs order).procs j).Finished ((runs j).run base files).1 ∧
      (together base files runs order).files n = some (b ++ (List.replicate k 0 ++ a.drop k).drop b.length) := by
  have hji : j ≠ i := fun e => hij e.symm
  obtain ⟨pi, hpi, a', resti, wi, ri, ki, prei, a1, a2, a3, a4⟩ := run_created base files _ hri hi
  obtain ⟨pj, hpj, b', restj, wj, rj, kj, prej, b1, b2, b3, b4⟩ := run_created base files _ hrj hj
  obtain rfl := Option.some.inj (ha.symm.trans a1)
  obtain rfl := Option.some.inj (hb.symm.trans b1)
  obtain ⟨x, y, rest, hx, rfl⟩ : ∃ x y rest, x.length = k ∧ a = x ++ y :: rest := by
    refine ⟨a.take k, a[k], a.drop (k + 1), by rw [List.length_take]; omega, ?_⟩
    rw [← List.drop_eq_getElem_cons hk, List.take_append_drop]
  have hd : (x ++ y :: rest).drop k = y :: rest := by rw [← hx, List.drop_left]
  rw [hd]
  have a5 : ∀ (G : Nat → Option Bytes) (c : Bytes),
      Reaches (setFile G n c, ⟨((runs i).proc base).sys, { wi with log := wi.log ++ x.map (.write n) ++ (y :: rest).map (.write n) }, .next (ki ri)⟩)
      (setFile (contentsAfter (setFile G n c) resti) n ([] ++ c),
        ⟨((runs i).proc base).sys, ((runs i).run base files).2, .next (.done ((runs i).run base files).1)⟩) := by
    intro G c
    have e : setFile (contentsAfter (setFile G n c) resti) n ([] ++ c) = contentsAfter (setFile G n c) resti := by
      funext m
      by_cases h : m = n
      · rw [h, setFile_get, a2, setFile_get]; rfl
      · exact if_neg h
    rw [e]
    have := a4 (setFile G n c)
    simpa only [List.map_append, ← List.append_assoc] using this
  have go : Goes (fun k => (runs k).proc base) i j (files, (runs i).proc base, (runs j).proc base) _ :=
    (Goes.first hij hpi).trans <| (Goes.second hpj).trans <|
    -- the first one creates the file and writes a part
    (Goes.first hij ((a3 _).trans (reach_write_part x (y :: rest) _ _ []))).trans <|
    -- the second one creates the file
    (Goes.second (b3 _)).trans <|
    -- the first one goes on to its end, and then the second one
    (Goes.first hij ((reach_write_behind y rest _ _).trans (a5 _ _))).trans <|
    Goes.second ((reach_write_over b _ wj [] _).trans (b4 _))
  obtain ⟨order, ho⟩ := go
  refine ⟨order, ?_⟩
  unfold together
  rw [put_self] at ho
  have e : put (fun k => (runs k).proc base) j ((runs j).proc base) = fun k => (runs k).proc base := put_self (fun k => (runs k).proc base) j
  simp only [e] at ho
  rw [ho]
  simp only
  refine ⟨?_, ?_, ?_⟩
  · rw [put_other _ hij, put_same]; rfl
  · rw [put_same]; rfl
  · rw [b2, setFile_get]
    simp [hx]

end

/-! ### Cases that meet the hypotheses -/

/-- The journal with a payment in a café, a statement with something from a shop and a bus ticket, and one with the bus ticket only. -/
def longAndShort : Nat → Option Bytes := fun n =>
  if n = 97 then some (encodeUtf8 "b".toList) else if n = 98 then some (encodeUtf8 "at".toList)
  else if n = 100 then some (encodeUtf8 "t".toList) else none

/-- Runs of `merge` that write to the journal. -/
def intoJournal (x y : MergeCmd.Args) : Bool → Step := fun b => if b then mergeStep x .sorted (fun _ => none) none else mergeStep y .rev (fun _ => none) none

set_option maxRecDepth 100000 in
theorem long_run (h : HashOrder) : ((mergeStep (addTo "b") h (fun _ => none) none).run (Ex.system "ab" "c" fun _ => none) longAndShort).1 = .ok () ∧
    ((mergeStep (addTo "b") h (fun _ => none) none).run (Ex.system "ab" "c" fun _ => none) longAndShort).2.log =
      wholeWrite (Ex.system "ab" "c" fun _ => none) (addTo "b").output "csb".toList := by
  have w : mergedText longAndShort (addTo "b") = some "csb".toList := by
    unfold mergedText Book.journal
    simp only [mergeInputs, addTo, groups_eval, Ex.mergeSort_eval Book.dateOf]
    decide +kernel
  exact mergeStep_run rfl w (by simp only [mergeInputs, addTo, groups_eval]; decide +kernel) h none

set_option maxRecDepth 100000 in
theorem short_run (h : HashOrder) : ((mergeStep (addTo "d") h (fun _ => none) none).run (Ex.system "ab" "c" fun _ => none) longAndShort).1 = .ok () ∧
    ((mergeStep (addTo "d") h (fun _ => none) none).run (Ex.system "ab" "c" fun _ => none) longAndShort).2.log =
      wholeWrite (Ex.system "ab" "c" fun _ => none) (addTo "d").output "cb".toList := by
  have w : mergedText longAndShort (addTo "d") = some "cb".toList := by
    unfold mergedText Book.journal
    simp only [mergeInputs, addTo, groups_eval, Ex.mergeSort_eval Book.dateOf]
    decide +kernel
  exact mergeStep_run rfl w (by simp only [mergeInputs, addTo, groups_eval]; decide +kernel) h none

/-- Only the journal is merged, into itself. -/
def itself : MergeCmd.Args := ⟨[Ex.file "a"], none, Ex.file "a"⟩

set_option maxRecDepth 100000 in
theorem itself_run (h : HashOrder) : ((mergeStep itself h (fun _ => none) none).run (Ex.system "ab" "c" fun _ => none) longAndShort).1 = .ok () ∧
    ((mergeStep itself h (fun _ => none) none).run (Ex.system "ab" "c" fun _ => none) longAndShort).2.log =
      wholeWrite (Ex.system "ab" "c" fun _ => none) itself.output "c".toList := by
  have w : mergedText longAndShort itself = some "c".toList := by
    unfold mergedText Book.journal
    simp only [mergeInputs, itself, groups_eval, Ex.mergeSort_eval Book.dateOf]
    decide +kernel
  exact mergeStep_run rfl w (by simp only [mergeInputs, itself, groups_eval]; decide +kernel) h none

theorem written_whole {base : Sys} {files : Nat → Option Bytes} {f : FileSpec} {n : Nat} {s : Str} {L : List Eff} (h : L = wholeWrite base f s)
    (hf : fileOf base f = some n) : contentsAfter files L n = some (encodeUtf8 s) ∧ Eff.create n ∈ L := by
  rw [h, contentsAfter_whole, if_pos hf]
  refine ⟨rfl, ?_⟩
  cases f with
  | stdio => cases hf
  | path p => rw [← Option.some.inj hf]; exact List.mem_cons_self

/-- **C97 (a case).** Two statements are merged into one journal at the same time; both have the bus ticket, the longer one also something from a shop.
Both runs can succeed, and then there are two bus tickets in the journal, and nothing from the shop, even if each run writes its text in one go. -/
theorem C97_two_buses : ∃ (base : Sys) (files : Nat → Option Bytes) (runs : Bool → Step) (order : List Bool),
    (runs true).after base files 97 = some (encodeUtf8 "csb".toList) ∧ (runs false).after base files 97 = some (encodeUtf8 "cb".toList) ∧
    (∀ b, ((together base files runs order).procs b).Finished (.ok ())) ∧
    (together base files runs order).files 97 = some (encodeUtf8 "cbb".toList) := by
  obtain ⟨r1, l1⟩ := long_run .sorted
  obtain ⟨r2, l2⟩ := short_run .rev
  obtain ⟨c1, m1⟩ := written_whole (files := longAndShort) (n := 97) l1 rfl
  obtain ⟨c2, m2⟩ := written_whole (files := longAndShort) (n := 97) l2 rfl
  obtain ⟨_, _, _, _, _, _, order, _, h1, h2, h3⟩ := C97_end_of_the_longer (Ex.system "ab" "c" fun _ => none) longAndShort
    (intoJournal (addTo "b") (addTo "d")) (i := true) (j := false) (by decide) trivial trivial m1 m2 c1 c2
  refine ⟨Ex.system "ab" "c" fun _ => none, longAndShort, intoJournal (addTo "b") (addTo "d"), order, c1, c2, fun b => ?_, ?_⟩
  · cases b with
    | true => rw [← show _ = Except.ok () from r1]; exact h1
    | false => rw [← show _ = Except.ok () from r2]; exact h2
  · rw [h3]; decide +kernel

set_option maxRecDepth 100000 in
/-- The hypotheses of `C97_any_mixture` are met: the journal can also get the bus ticket of the second run in the middle and that of the first at
the end, or the text of the first run. -/
example (c : Bytes) (hc : c = encodeUtf8 "csb".toList ∨ c = encodeUtf8 "cbb".toList) : ∃ order : List Bool,
    (together (Ex.system "ab" "c" fun _ => none) longAndShort (intoJournal (addTo "b") (addTo "d")) order).files 97 = some c := by
  obtain ⟨r1, l1⟩ := long_run .sorted
  obtain ⟨r2, l2⟩ := short_run .rev
  obtain ⟨c1, m1⟩ := written_whole (files := longAndShort) (n := 97) l1 rfl
  obtain ⟨c2, m2⟩ := written_whole (files := longAndShort) (n := 97) l2 rfl
  obtain ⟨order, _, _, h⟩ := C97_any_mixture (Ex.system "ab" "c" fun _ => none) longAndShort
    (intoJournal (addTo "b") (addTo "d")) (i := true) (j := false) (by decide) trivial trivial m1 m2 c1 c2 (c := c) (by
      have e1 : encodeUtf8 "csb".toList = [99, 115, 98] := by decide +kernel
      have e2 : encodeUtf8 "cb".toList = [99, 98] := by decide +kernel
      have e3 : encodeUtf8 "cbb".toList = [99, 98, 98] := by decide +kernel
      rw [e1, e3] at hc
      rw [e1, e2]
      rcases hc with rfl | rfl
      · refine ⟨by decide, fun i x hx => .inl hx⟩
      · refine ⟨by decide, fun i x hx => ?_⟩
        match i, hx with
        | 0, hx => exact .inl hx
        | 1, hx => exact .inr hx
        | 2, hx => exact .inl hx)
  exact ⟨order, h⟩

set_option maxRecDepth 100000 in
/-- The hypotheses of `C97_zeros` are met: there can be a zero in the journal. -/
example : ∃ order : List Bool,
    (together (Ex.system "ab" "c" fun _ => none) longAndShort (intoJournal (addTo "b") itself) order).files 97 = some [99, 0, 98] := by
  obtain ⟨r1, l1⟩ := long_run .sorted
  obtain ⟨r2, l2⟩ := itself_run .rev
  obtain ⟨c1, m1⟩ := written_whole (files := longAndShort) (n := 97) l1 rfl
  obtain ⟨c2, m2⟩ := written_whole (files := longAndShort) (n := 97) l2 rfl
  obtain ⟨order, _, _, h⟩ := C97_zeros (Ex.system "ab" "c" fun _ => none) longAndShort
    (intoJournal (addTo "b") itself) (i := true) (j := false) (by decide) trivial trivial m1 m2 c1 c2 (k := 2) (by decide +kernel)
  exact ⟨order, h.trans (by decide +kernel)⟩

end Verif
