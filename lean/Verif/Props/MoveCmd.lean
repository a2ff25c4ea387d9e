import Verif.Props.Migrate

/-!
# C108 and C109 with files
-/

namespace Verif
open Spec Spec.Book

/-- One run of `merge` with a journal and a file, if nothing of the file is handed back. -/
theorem command_of_oneRun (sys : Sys) (ho : Nat → HashOrder) (p q : Str) (js g : List TransactionPostings) (v out : FileSpec)
    (hf : ∀ n, sys.fault n = none) (hpq : p ≠ q) (hp : contentOf sys sys.start p = some js ∧ NoSources js)
    (hq : contentOf sys sys.start q = some g ∧ NoSources g) {j : List TransactionPostings} {us : List (List TransactionPostings)}
    (h : oneRun [(HashOrder.sorted, js), (HashOrder.sorted, g)] = some (j, us)) (hu : us.flatten = []) :
    ∃ w, MergeCmd.run sys ho ⟨[p, q].map .path, some v, out⟩ World.start = (.ok (), w) ∧ w.log = wholeWrite sys out (textOf sys j) := by
  obtain ⟨res, w, h1, h2⟩ := C98_run sys ho [p, q] (fun x => if x = p then js else g) v out (fun _ => HashOrder.sorted) hf (by
    intro x hx
    rcases List.mem_cons.1 hx with rfl | hx
    · rw [if_pos (show x = x from rfl)]
      exact hp
    · rw [List.mem_singleton.1 hx, if_neg hpq.symm]
      exact hq)
  rw [List.map_cons, List.map_cons, List.map_nil, if_pos (show p = p from rfl), if_neg hpq.symm, h] at h2
  simp only [hu, if_true, List.nil_append] at h2
  obtain ⟨rfl, _, hw⟩ := h2
  exact ⟨w, h1, hw⟩

/-- **C108 with files.** `merge JOURNAL FILE --unmerged U --output OUT`, with a journal into which files were merged with nothing left over, and which
may have been edited by hand since, and a file with the same fingerprints as one of them, posting for posting: the run succeeds, writes nothing to
`U`, and writes to `OUT` the journal with the postings of the file brought in. -/
theorem C108_command (calls : History) (j : List TransactionPostings) (us : List (List TransactionPostings)) (h : oneRun calls = some (j, us))
    (hu : us.flatten = []) (g g' : List TransactionPostings) (hg : g ∈ inputs calls)
    (hm : List.Forall₂ (fun t u => List.Forall₂ SameMarks t.posts u.posts) g g') (js : List TransactionPostings) (hj : InOrder js) (hk : Keeps j js)
    (sys : Sys) (ho : Nat → HashOrder) (p q : Str) (v out : FileSpec) (hf : ∀ n, sys.fault n = none) (hpq : p ≠ q)
    (hp : contentOf sys sys.start p = some js ∧ NoSources js) (hq : contentOf sys sys.start q = some g' ∧ NoSources g') :
    ∃ w, MergeCmd.run sys ho ⟨[p, q].map .path, some v, out⟩ World.start = (.ok (), w) ∧
      w.log = wholeWrite sys out (textOf sys ((broughtInto js g').mergeSort fun a b => (compare (dateOf a) (dateOf b)).isLE)) := by
  obtain ⟨us', h1, h2, _⟩ := C108_again calls j us h hu g g' hg hm js hj hk HashOrder.sorted HashOrder.sorted
  exact command_of_oneRun sys ho p q js g' v out hf hpq hp hq h1 h2

/-- **C109 with files.** A journal has the transactions `old` by their fingerprints; a file has them with more fingerprints, none of which are in the
journal. `merge JOURNAL FILE --unmerged U --output OUT` succeeds, writes nothing to `U`, and writes a journal `j` to `OUT`. Later, also if that
journal was edited by hand, another file may have only some of the fingerprints of the first one, such as those that are made now. Then
`merge JOURNAL FILE` with that file succeeds too and writes nothing to `U`. -/
theorem C109_command (old both js : List TransactionPostings) (hj : InOrder js) (hold : InOrder old) (hb : InOrder both) (hk : Keeps old js)
    (hm : KnowsMore old both) (hn : RestNew old both js) (sys : Sys) (ho : Nat → HashOrder) (p q : Str) (v out : FileSpec)
    (hf : ∀ n, sys.fault n = none) (hpq : p ≠ q) (hp : contentOf sys sys.start p = some js ∧ NoSources js)
    (hq : contentOf sys sys.start q = some both ∧ NoSources both) :
    ∃ j w, MergeCmd.run sys ho ⟨[p, q].map .path, some v, out⟩ World.start = (.ok (), w) ∧ w.log = wholeWrite sys out (textOf sys j) ∧
      j = (broughtInto js both).mergeSort (fun a b => (compare (dateOf a) (dateOf b)).isLE) ∧ Keeps both j ∧
      ∀ (new js' : List TransactionPostings), InOrder new → KnowsMore new both → InOrder js' → Keeps j js' →
      ∀ (sys' : Sys) (ho' : Nat → HashOrder) (p' q' : Str) (v' out' : FileSpec), (∀ n, sys'.fault n = none) → p' ≠ q' →
        (contentOf sys' sys'.start p' = some js' ∧ NoSources js') → (contentOf sys' sys'.start q' = some new ∧ NoSources new) →
        ∃ w', MergeCmd.run sys' ho' ⟨[p', q'].map .path, some v', out'⟩ World.start = (.ok (), w') ∧
          w'.log = wholeWrite sys' out' (textOf sys' ((broughtInto js' new).mergeSort fun a b => (compare (dateOf a) (dateOf b)).isLE)) := by
  obtain ⟨us, h1, h2, h3⟩ := C109_first old both js hj hold hb hk hm hn HashOrder.sorted HashOrder.sorted
  obtain ⟨w, h4, h5⟩ := command_of_oneRun sys ho p q js both v out hf hpq hp hq h1 h2
  refine ⟨_, w, h4, h5, rfl, h3, fun new js' hnew hmore hj' hk' sys' ho' p' q' v' out' hf' hpq' hp' hq' => ?_⟩
  obtain ⟨us', h6, h7⟩ := C109_later js both new hnew hmore HashOrder.sorted HashOrder.sorted _ us h1 h2 js' hj' hk' HashOrder.sorted HashOrder.sorted
  exact command_of_oneRun sys' ho' p' q' js' new v' out' hf' hpq' hp' hq' h6 h7

/-! ### Examples -/

/-- A journal as an older version made it of `Ex.bill`, with an account filled in by hand. -/
def Ex.oldBill : List TransactionPostings :=
  [Ex.trn 1 "shop" [Ex.post "assets:a" (-5) ["fp-o1"], Ex.post "expenses:food" 5 ["fp-o2"]],
   Ex.trn 2 "rent" [Ex.post "assets:a" (-9) ["fp-o3", "card"], Ex.post "expenses:unknown" 9 ["fp-o4", "unknown-account"]]]

/-- The statement, imported with the option for older fingerprints. -/
def Ex.bothBill : List TransactionPostings :=
  [Ex.trn 1 "shop" [Ex.post "assets:a" (-5) ["fp-1", "fp-o1"], Ex.post "expenses:unknown" 5 ["fp-2", "fp-o2", "unknown-account"]],
   Ex.trn 2 "rent" [Ex.post "assets:a" (-9) ["fp-3", "fp-o3", "card"], Ex.post "expenses:unknown" 9 ["fp-4", "fp-o4", "unknown-account"]]]

/-- The journal that comes of it. -/
def Ex.movedBill : List TransactionPostings :=
  [Ex.trn 1 "shop" [Ex.post "assets:a" (-5) ["fp-1", "fp-o1"], Ex.post "expenses:food" 5 ["fp-2", "fp-o2"]],
   Ex.trn 2 "rent" [Ex.post "assets:a" (-9) ["fp-3", "fp-o3", "card"], Ex.post "expenses:unknown" 9 ["fp-4", "fp-o4", "unknown-account"]]]

set_option maxRecDepth 100000 in
theorem Ex.oldBill_simple : (∀ t ∈ Ex.oldBill, Simple t) ∧ (∀ t ∈ Ex.bothBill, Simple t) ∧ ∀ t ∈ Ex.movedBill, Simple t := by decide +kernel

/-- The one journal is in the file `j` (number 106), the other one in every other file. -/
noncomputable def Ex.pairSystem (a b : List TransactionPostings) : Sys := { daySystem with
  start := fun n => if n = 106 then some (encodeUtf8 (textOf daySystem a)) else some (encodeUtf8 (textOf daySystem b)) }

theorem Ex.pairSystem_content {a b : List TransactionPostings} (ha : ∀ t ∈ a, Simple t) (hb : ∀ t ∈ b, Simple t) :
    (contentOf (Ex.pairSystem a b) (Ex.pairSystem a b).start "j".toList = some a ∧ NoSources a) ∧
    (contentOf (Ex.pairSystem a b) (Ex.pairSystem a b).start "a".toList = some b ∧ NoSources b) := by
  have hr0 : ∀ t ∈ a, Readable1 t := fun t ht => (ha t ht).readable1
  have hr1 : ∀ t ∈ b, Readable1 t := fun t ht => (hb t ht).readable1
  have hn : daySystem.file "a".toList ≠ 106 := by decide +kernel
  have h106 : (Ex.pairSystem a b).start (daySystem.file "a".toList) = some (encodeUtf8 (textOf daySystem b)) :=
    if_neg (t := some (encodeUtf8 (textOf daySystem a))) hn
  exact ⟨⟨content_of_text hr0 (daySystem_back _) rfl, fun t ht => (hr0 t ht).1.2.2.1⟩,
    ⟨content_of_text hr1 (daySystem_back _) h106, fun t ht => (hr1 t ht).1.2.2.1⟩⟩

set_option maxRecDepth 100000 in
/-- The hypotheses of `C109_command` are met: `merge j a --unmerged u --output j` with a journal of an older version and a statement with both kinds
of fingerprints, and then with the journal that comes of it and the statement with the new ones only, by which it does not change. -/
example (ho ho' : Nat → HashOrder) :
    (∃ w, MergeCmd.run (Ex.pairSystem Ex.oldBill Ex.bothBill) ho ⟨["j".toList, "a".toList].map .path, some (.path "u".toList), .path "j".toList⟩
      World.start = (.ok (), w) ∧ w.log = wholeWrite (Ex.pairSystem Ex.oldBill Ex.bothBill) (.path "j".toList)
        (textOf (Ex.pairSystem Ex.oldBill Ex.bothBill) Ex.movedBill)) ∧
    ∃ w, MergeCmd.run (Ex.pairSystem Ex.movedBill Ex.bill) ho' ⟨["j".toList, "a".toList].map .path, some (.path "u".toList), .path "j".toList⟩
      World.start = (.ok (), w) ∧ w.log = wholeWrite (Ex.pairSystem Ex.movedBill Ex.bill) (.path "j".toList)
        (textOf (Ex.pairSystem Ex.movedBill Ex.bill) Ex.movedBill) := by
  have c1 := Ex.pairSystem_content Ex.oldBill_simple.1 Ex.oldBill_simple.2.1
  have c2 := Ex.pairSystem_content Ex.oldBill_simple.2.2 Ex.bill_simple.2
  obtain ⟨j, w, h1, h2, h3, h4, h5⟩ := C109_command Ex.oldBill Ex.bothBill Ex.oldBill
    ⟨by decide +kernel, by decide +kernel, by decide +kernel, by decide +kernel⟩
    ⟨by decide +kernel, by decide +kernel, by decide +kernel, by decide +kernel⟩
    ⟨by decide +kernel, by decide +kernel, by decide +kernel, by decide +kernel⟩ ⟨by decide +kernel, by decide +kernel⟩
    (by unfold KnowsMore; decide +kernel) (by unfold RestNew; decide +kernel) (Ex.pairSystem Ex.oldBill Ex.bothBill) ho "j".toList "a".toList
    (.path "u".toList) (.path "j".toList) (fun _ => rfl) (by decide +kernel) c1.1 c1.2
  have hj : j = Ex.movedBill := by
    rw [h3]
    simp only [Ex.mergeSort_eval dateOf]
    show Ex.insSort dateOf (broughtInto Ex.oldBill Ex.bothBill) = Ex.movedBill
    decide +kernel
  rw [hj] at h2 h5
  obtain ⟨w', h6, h7⟩ := h5 Ex.bill Ex.movedBill ⟨by decide +kernel, by decide +kernel, by decide +kernel, by decide +kernel⟩
    (by unfold KnowsMore; decide +kernel) ⟨by decide +kernel, by decide +kernel, by decide +kernel, by decide +kernel⟩
    ⟨by decide +kernel, by decide +kernel⟩ (Ex.pairSystem Ex.movedBill Ex.bill) ho' "j".toList "a".toList (.path "u".toList) (.path "j".toList)
    (fun _ => rfl) (by decide +kernel) c2.1 c2.2
  refine ⟨⟨w, h1, h2⟩, w', h6, ?_⟩
  rw [h7]
  congr 2
  simp only [Ex.mergeSort_eval dateOf]
  show Ex.insSort dateOf (broughtInto Ex.movedBill Ex.bill) = Ex.movedBill
  decide +kernel

/-- All postings that have one of the fingerprints are cleared. -/
def Ex.clear (fs : List Str) (ts : List TransactionPostings) : List TransactionPostings :=
  ts.map fun t => { t with posts := t.posts.map fun p => if ∃ f ∈ fs, f ∈ fps p then { p with raw := { p.raw with status := some .cleared } } else p }

/-- `Ex.bill` as it is downloaded later: the payment in the shop is cleared. -/
def Ex.clearedBill : List TransactionPostings := Ex.clear ["fp-1".toList, "fp-2".toList] Ex.bill

set_option maxRecDepth 100000 in
theorem Ex.clearedBill_simple : ∀ t ∈ Ex.clearedBill, Simple t := by decide +kernel

set_option maxRecDepth 100000 in
/-- The hypotheses of `C108_command` are met: `Ex.bill` was merged, the journal was edited, and then the bill is merged that tells that the first payment
is cleared. -/
example (ho : Nat → HashOrder) :
    ∃ w, MergeCmd.run (Ex.pairSystem Ex.edited Ex.clearedBill) ho ⟨["j".toList, "a".toList].map .path, some (.path "u".toList), .path "j".toList⟩
      World.start = (.ok (), w) ∧ w.log = wholeWrite (Ex.pairSystem Ex.edited Ex.clearedBill) (.path "j".toList)
        (textOf (Ex.pairSystem Ex.edited Ex.clearedBill) (Ex.clear ["fp-1".toList, "fp-2".toList] Ex.editedAfter)) := by
  have c := Ex.pairSystem_content Ex.bill_simple.1 Ex.clearedBill_simple
  have hm : List.Forall₂ (fun t u : TransactionPostings => List.Forall₂ (fun p q : PostingInternal => p.comment = q.comment) t.posts u.posts)
      Ex.bill Ex.clearedBill := by decide +kernel
  obtain ⟨w, h1, h2⟩ := C108_command _ _ _ Ex.bill_first rfl Ex.bill Ex.clearedBill (List.mem_singleton.2 rfl)
    (hm.imp fun _ _ h => h.imp fun p q h => by
      intro tag _
      show tag ∈ q.comment.tags ↔ tag ∈ p.comment.tags
      rw [h]) Ex.edited Ex.bill_kept.1 Ex.bill_kept.2
    (Ex.pairSystem Ex.edited Ex.clearedBill) ho "j".toList "a".toList (.path "u".toList) (.path "j".toList) (fun _ => rfl) (by decide +kernel) c.1 c.2
  refine ⟨w, h1, ?_⟩
  rw [h2]
  congr 2
  simp only [Ex.mergeSort_eval dateOf]
  show Ex.insSort dateOf (broughtInto Ex.edited Ex.clearedBill) = Ex.clear ["fp-1".toList, "fp-2".toList] Ex.editedAfter
  decide +kernel

end Verif
