import Verif.Proofs.RenameExact

/-!
# C102: What merging looks at
-/

namespace Verif
open Spec Spec.Book Comment

/-- **C102.** Accounts, commodities and tags are written with other names, quantities are replaced so that equal ones and no others stay equal,
dates are moved but keep their order, headers and values of tags are replaced by whatever one likes: if the inputs of a run are written like that then so
are the journal and what is handed back, and nothing else changes. -/
theorem C102_harmless {ρ : Renaming} (h : ρ.Faithful) : ρ.Harmless := by
  intro calls calls' hc
  have r1 := refused_book h Book.empty (inputs calls)
  have r2 := leftOver_book h Book.empty (inputs calls)
  have r3 := foldl_after_book h Book.empty (inputs calls)
  rw [← hc, show ρ.book Book.empty = Book.empty from rfl] at r1 r2 r3
  by_cases hr : Refused Book.empty (inputs calls)
  · rw [oneRun_refused hr, oneRun_refused (r1.2 hr)]
    trivial
  · obtain ⟨us, h1, h2⟩ := oneRun_all hr
    obtain ⟨us', h3, h4⟩ := oneRun_all (calls := calls') fun hx => hr (r1.1 hx)
    rw [h1, h3]
    refine ⟨?_, _, h2, ?_⟩
    · rw [show bookAfter (inputs calls') = ρ.book (bookAfter (inputs calls)) from r3]
      exact journal_book h _
    · rw [← r2]
      exact h4

/-- **C102, exactly.** What `Faithful` asks for is all that merging looks at, and it looks at all of it: a way to write things that breaks any of this
changes what some run comes to. -/
theorem C102_exact (ρ : Renaming) : ρ.Harmless ↔ ρ.Faithful := ⟨harmless_faithful, C102_harmless⟩

theorem forall₂_nil_iff {α β : Type} {R : α → β → Prop} {l : List α} {m : List β} (h : List.Forall₂ R l m) : l = [] ↔ m = [] := by
  cases h with
  | nil => exact ⟨fun _ => rfl, fun _ => rfl⟩
  | cons _ _ => exact ⟨fun h => (by cases h), fun h => (by cases h)⟩

/-- **C102 with files.** The same `merge` with the same files, in the second system with all of them written in the other way: both runs fail
and write nothing, or both succeed, both or none write to the file for what is unmerged, and the journals are the same one written in the two ways. -/
theorem C102_command {ρ : Renaming} (h : ρ.Faithful) (sys sys' : Sys) (ho ho' : Nat → HashOrder) (qs : List Str) (D : Str → List TransactionPostings)
    (v out : FileSpec) (hf : ∀ n, sys.fault n = none) (hf' : ∀ n, sys'.fault n = none)
    (hq : ∀ q ∈ qs, contentOf sys sys.start q = some (D q) ∧ NoSources (D q))
    (hq' : ∀ q ∈ qs, contentOf sys' sys'.start q = some ((D q).map ρ.trn) ∧ NoSources ((D q).map ρ.trn)) :
    ∃ res w res' w', MergeCmd.run sys ho ⟨qs.map .path, some v, out⟩ World.start = (res, w) ∧
      MergeCmd.run sys' ho' ⟨qs.map .path, some v, out⟩ World.start = (res', w') ∧
      (((∃ err, res = .error err) ∧ (∃ err, res' = .error err) ∧ w.log = [] ∧ w'.log = []) ∨
        (res = .ok () ∧ res' = .ok () ∧ ∃ j,
          (w.log = wholeWrite sys out (textOf sys j) ∧ w'.log = wholeWrite sys' out (textOf sys' (j.map ρ.trn))) ∨
          ∃ text text', w.log = wholeWrite sys v text ++ wholeWrite sys out (textOf sys j) ∧
            w'.log = wholeWrite sys' v text' ++ wholeWrite sys' out (textOf sys' (j.map ρ.trn)))) := by
  obtain ⟨res, w, h1, h2⟩ := C98_run sys ho qs D v out (fun _ => HashOrder.sorted) hf hq
  obtain ⟨res', w', h1', h2'⟩ := C98_run sys' ho' qs (fun q => (D q).map ρ.trn) v out (fun _ => HashOrder.sorted) hf' hq'
  refine ⟨res, w, res', w', h1, h1', ?_⟩
  have hh := C102_harmless h (qs.map fun q => (HashOrder.sorted, D q)) (qs.map fun q => (HashOrder.sorted, (D q).map ρ.trn)) (by
    unfold inputs
    rw [List.map_map, List.map_map, List.map_map]
    rfl)
  revert h2 h2' hh
  cases oneRun (qs.map fun q => (HashOrder.sorted, D q)) with
  | none =>
    cases oneRun (qs.map fun q => (HashOrder.sorted, (D q).map ρ.trn)) with
    | none =>
      intro h2 h2' _
      exact .inl ⟨h2.1, h2'.1, h2.2, h2'.2⟩
    | some y => exact fun _ _ h => h.elim
  | some x =>
    cases oneRun (qs.map fun q => (HashOrder.sorted, (D q).map ρ.trn)) with
    | none => exact fun _ _ h => h.elim
    | some y =>
      rintro ⟨e, text, hw⟩ ⟨e', text', hw'⟩ ⟨hj, ts, t1, t2⟩
      refine .inr ⟨e, e', x.1, ?_⟩
      have hn : x.2.flatten = [] ↔ y.2.flatten = [] := by
        rw [← forall₂_nil_iff t1, ← forall₂_nil_iff t2, List.map_eq_nil_iff]
      rw [hj] at hw'
      by_cases hx : x.2.flatten = []
      · rw [if_pos hx, List.nil_append] at hw
        rw [if_pos (hn.1 hx), List.nil_append] at hw'
        exact .inl ⟨hw, hw'⟩
      · rw [if_neg hx] at hw
        rw [if_neg fun hy => hx (hn.2 hy)] at hw'
        exact .inr ⟨text, text', hw, hw'⟩

/-! ### Examples -/

/-- Everything hidden: accounts, commodities and comment lines are reversed, amounts are negated, dates are a year later, tags end with an `x`, and
values of tags and headers are dropped. -/
def Ex.veiled : Renaming where
  account := List.reverse
  commodity := fun c => { c with name := c.name.reverse }
  quantity := fun q => { q with neg := !q.neg }
  date := fun d => { d with year := d.year + 1 }
  tag := fun t => if t = unknownTag then t else t ++ ['x']
  line := List.reverse
  value := fun _ _ => []
  head := fun _ => ⟨⟨none, default, none, none, none, [], []⟩, ⟨[], ∅, ∅⟩⟩

theorem Ex.veiled_faithful : Ex.veiled.Faithful where
  account := fun a b h => List.reverse_inj.1 h
  commodity := fun a b h => by
    obtain ⟨an, ap⟩ := a
    obtain ⟨bn, bp⟩ := b
    have h' := Commodity.mk.inj h
    exact Commodity.mk.injEq .. ▸ ⟨List.reverse_inj.1 h'.1, h'.2⟩
  quantity := fun a b => by
    have hv : ∀ q : Decimal, Spec.value (Ex.veiled.quantity q) = - Spec.value q := by
      intro q
      obtain ⟨neg, m, s⟩ := q
      cases neg <;> simp [Spec.value, Ex.veiled, Rat.div_def]
    rw [hv, hv]
    exact ⟨fun h => by rw [← Rat.neg_neg (Spec.value a), h, Rat.neg_neg], fun h => by rw [h]⟩
  date := fun a b => by
    show (compare (a.year + 1) (b.year + 1)).then _ = (compare a.year b.year).then _
    congr 1
    simp only [compare, compareOfLessAndEq]
    simp
  tag := fun a b ha hb h => by
    simp only [Ex.veiled] at h
    have hu : ∀ t, IsFp t → t ≠ unknownTag := fun t ht e => not_fp_unknown (e ▸ ht)
    rw [if_neg (hu a ha), if_neg (hu b hb)] at h
    exact List.append_cancel_right h
  fingerprint := fun a => by
    simp only [Ex.veiled]
    split
    · exact Iff.rfl
    · unfold IsFp
      rw [List.prefix_concat_iff]
      refine ⟨fun h => h.resolve_left fun e => ?_, .inr⟩
      have := congrArg List.getLast? e
      rw [List.getLast?_concat] at this
      exact absurd this (by decide +kernel)
  candidate := fun a => by
    simp only [Ex.veiled]
    split
    · exact Iff.rfl
    · unfold IsCand
      rw [List.prefix_concat_iff]
      refine ⟨fun h => h.resolve_left fun e => ?_, .inr⟩
      have := congrArg List.getLast? e
      rw [List.getLast?_concat] at this
      exact absurd this (by decide +kernel)
  unknown := fun a => by
    simp only [Ex.veiled]
    split
    · exact Iff.rfl
    · rename_i hne
      refine ⟨fun e => ?_, fun e => absurd e hne⟩
      have := congrArg List.getLast? e
      rw [List.getLast?_concat] at this
      exact absurd this (by decide +kernel)
  line := fun a b h => List.reverse_inj.1 h

set_option maxRecDepth 100000 in
/-- The edited journal and the statement with everything hidden. -/
theorem Ex.veiled_simple : (∀ t ∈ Ex.edited.map Ex.veiled.trn, Simple t) ∧ ∀ t ∈ Ex.bill.map Ex.veiled.trn, Simple t := by decide +kernel

/-- The edited journal in the file `j` (number 106) and the statement in every other file, both with everything hidden. -/
noncomputable def Ex.veiledSystem : Sys := { daySystem with
  start := fun n => if n = 106 then some (encodeUtf8 (textOf daySystem (Ex.edited.map Ex.veiled.trn)))
    else some (encodeUtf8 (textOf daySystem (Ex.bill.map Ex.veiled.trn))) }

set_option maxRecDepth 100000 in
/-- The hypotheses of `C102_command` are met: `merge j a --unmerged u --output j` with the files as they are and with everything in them hidden. -/
example (ho ho' : Nat → HashOrder) :
    ∃ res w res' w', MergeCmd.run Ex.billSystem ho ⟨["j".toList, "a".toList].map .path, some (.path "u".toList), .path "j".toList⟩ World.start = (res, w) ∧
      MergeCmd.run Ex.veiledSystem ho' ⟨["j".toList, "a".toList].map .path, some (.path "u".toList), .path "j".toList⟩ World.start = (res', w') ∧
      ((∃ err, res = .error err) ↔ ∃ err, res' = .error err) := by
  have hr0 : ∀ t ∈ Ex.edited, Readable1 t := fun t ht => (Ex.bill_simple.1 t ht).readable1
  have hr1 : ∀ t ∈ Ex.bill, Readable1 t := fun t ht => (Ex.bill_simple.2 t ht).readable1
  have hs0 : ∀ t ∈ Ex.edited.map Ex.veiled.trn, Readable1 t := fun t ht => (Ex.veiled_simple.1 t ht).readable1
  have hs1 : ∀ t ∈ Ex.bill.map Ex.veiled.trn, Readable1 t := fun t ht => (Ex.veiled_simple.2 t ht).readable1
  have hn : ∀ q, q ∈ ["j".toList, "a".toList] → q ≠ "j".toList → daySystem.file q ≠ 106 := by
    intro q hq hne
    rcases List.mem_cons.1 hq with rfl | hq
    · exact absurd rfl hne
    · rw [List.mem_singleton.1 hq]
      decide +kernel
  obtain ⟨res, w, res', w', h1, h2, h3⟩ := C102_command Ex.veiled_faithful Ex.billSystem Ex.veiledSystem ho ho' ["j".toList, "a".toList]
    (fun q => if q = "j".toList then Ex.edited else Ex.bill) (.path "u".toList) (.path "j".toList) (fun _ => rfl) (fun _ => rfl)
    (by
      intro q hq
      by_cases hj : q = "j".toList
      · rw [if_pos hj, hj]
        exact ⟨content_of_text hr0 (daySystem_back _) rfl, fun t ht => (hr0 t ht).1.2.2.1⟩
      · rw [if_neg hj]
        exact ⟨content_of_text hr1 (daySystem_back _) (if_neg (hn q hq hj)), fun t ht => (hr1 t ht).1.2.2.1⟩)
    (by
      intro q hq
      by_cases hj : q = "j".toList
      · rw [if_pos hj, hj]
        exact ⟨content_of_text hs0 (daySystem_back _) rfl, fun t ht => (hs0 t ht).1.2.2.1⟩
      · rw [if_neg hj]
        exact ⟨content_of_text hs1 (daySystem_back _) (if_neg (hn q hq hj)), fun t ht => (hs1 t ht).1.2.2.1⟩)
  refine ⟨res, w, res', w', h1, h2, ?_⟩
  rcases h3 with ⟨e1, e2, _⟩ | ⟨e1, e2, _⟩
  · exact ⟨fun _ => e2, fun _ => e1⟩
  · rw [e1, e2]

/-- Renaming every account to the part before its first colon is not harmless. -/
example : ¬ ({ Renaming.same with account := fun a => a.takeWhile (· ≠ ':') } : Renaming).Harmless := by
  rw [C102_exact]
  intro h
  exact absurd (h.account "assets:a".toList "assets:b".toList (by decide +kernel)) (by decide +kernel)

/-- Neither is leaving out the sign of amounts. -/
example : ¬ ({ Renaming.same with quantity := fun q => { q with neg := false } } : Renaming).Harmless := by
  rw [C102_exact]
  intro h
  exact absurd ((h.quantity ⟨true, 5, 0⟩ ⟨false, 5, 0⟩).1 rfl) (by decide +kernel)

/-- Replacing every transaction header, apart from its date, is. -/
example (f : TransactionInternal → TransactionInternal) : ({ Renaming.same with head := f } : Renaming).Harmless :=
  (C102_exact _).2 ⟨fun _ _ h => h, fun _ _ h => h, fun _ _ => Iff.rfl, fun _ _ => rfl, fun _ _ _ _ h => h, fun _ => Iff.rfl, fun _ => Iff.rfl,
    fun _ => Iff.rfl, fun _ _ h => h⟩

end Verif
