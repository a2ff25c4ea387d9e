import Verif.Proofs.Days
import Verif.Props.ByHandCmd

/-!
# C92: however the days of an account are downloaded, the journal is the same

C65 is about two downloads. Here there are any number of them, in any order, with any gaps and overlaps, merged in one run or in many.
-/

namespace Verif
open Spec Spec.Book

/-! ### Runs and books -/

theorem mergeAll_of_books {m : Merger} {J : Book} (hR : R m J) (calls : History) (hb : ¬ Refused J (inputs calls))
    (hl : leftOver J (inputs calls) = []) : ∃ m', mergeAll m calls = some m' ∧ R m' ((inputs calls).foldl Book.after J) := by
  induction calls generalizing m J with
  | nil => exact ⟨m, rfl, hR⟩
  | cons c cs ih =>
    have hl := leftOver_cons_nil.1 (show leftOver J (c.2 :: inputs cs) = [] from hl)
    obtain ⟨m₁, h1, hR₁⟩ := merge_of_not_bad hR c.1 (fun h => hb (.inl h))
    rw [handedBack_nil_iff.2 hl.1] at h1
    obtain ⟨m', h2, hR'⟩ := ih hR₁ (fun h => hb (.inr h)) hl.2
    exact ⟨m', by rw [mergeAll, h1]; exact h2, hR'⟩

theorem books_of_mergeAll {m m' : Merger} {J : Book} (hR : R m J) {calls : History} (h : mergeAll m calls = some m') :
    ¬ Refused J (inputs calls) ∧ leftOver J (inputs calls) = [] ∧ R m' ((inputs calls).foldl Book.after J) := by
  induction calls generalizing m J with
  | nil => cases h; exact ⟨id, rfl, hR⟩
  | cons c cs ih =>
    rw [mergeAll] at h
    split at h
    · rename_i m₁ h1
      obtain ⟨hb, hn, hR₁⟩ := merge_ok hR h1
      obtain ⟨a1, a2, a3⟩ := ih hR₁ h
      refine ⟨?_, leftOver_cons_nil.2 ⟨handedBack_nil_iff.1 hn.symm, a2⟩, a3⟩
      rintro (hx | hx)
      · exact hb hx
      · exact a1 hx
    · cases h

theorem journalOf_books {calls : History} {js : List TransactionPostings} :
    journalOf calls = some js ↔ ¬ Refused Book.empty (inputs calls) ∧ leftOver Book.empty (inputs calls) = [] ∧
      js = (bookAfter (inputs calls)).journal := by
  unfold journalOf
  constructor
  · intro h
    obtain ⟨m, hm, h⟩ := Option.bind_eq_some_iff.1 h
    obtain ⟨a1, a2, a3⟩ := books_of_mergeAll R_new hm
    rw [a3.build] at h
    exact ⟨a1, a2, (Option.some.inj h).symm⟩
  · rintro ⟨a1, a2, rfl⟩
    obtain ⟨m, hm, hR⟩ := mergeAll_of_books R_new calls a1 a2
    rw [hm, Option.bind_some, hR.build]
    rfl

theorem Same.filed {J K : Book} (h : Same J K) (hf : Filed K) : Filed J := by
  rw [filed_iff] at hf ⊢
  intro g hg
  exact hf g (h.perm.mem_iff.1 hg)

theorem filed_empty_after {js : List TransactionPostings} (hne : ∀ t ∈ js, t.posts ≠ []) : Filed (Book.empty.after js) := by
  rw [filed_iff, grp_empty_after hne]
  intro g hg x hx
  obtain ⟨t, _, rfl⟩ := List.mem_map.1 hg
  obtain ⟨p, _, rfl⟩ := List.mem_map.1 hx
  rfl

/-- A journal that is read in and all there is to download, such that they can be merged. -/
theorem days_of_journal {js W : List TransactionPostings} (hb : ¬ Refused Book.empty [js, W]) (hl : leftOver Book.empty [js, W] = [])
    (hd : DatesAgree js W) : Days (Book.empty.after js) W := by
  obtain ⟨l1, l2⟩ := leftOver_cons_nil.1 hl
  obtain ⟨l2, _⟩ := leftOver_cons_nil.1 l2
  have hne : ∀ t ∈ js, t.posts ≠ [] := fun t ht he => l1 t ht (empty_undecided.2 he)
  refine ⟨reached_empty.after fun h => hb (.inl h), filed_empty_after hne, ?_, good_iff.2 fun h => hb (.inr (.inl h)), l2⟩
  intro r hr a ha hs
  obtain ⟨t, ht, p, hp, rfl⟩ := mem_datedPosts.1 ha
  obtain ⟨i, hi⟩ := List.mem_iff_getElem?.1 hr
  rcases after_get hi with ⟨r₀, hr₀, _⟩ | ⟨_, hm⟩
  · simp [Book.empty] at hr₀
  · obtain ⟨T, hT, q, hq, he⟩ := mem_datedPosts.1 hm
    rw [show r.date = dateOf T from congrArg Prod.fst he]
    refine hd T hT q hq t ht p hp ?_
    rw [← show r.post = q from congrArg Prod.snd he]
    exact hs

theorem populated_same {J K : Book} (h : Same J K) (hp : Populated K) : Populated J := by
  intro t ht
  have h1 : t ∈ J.journal := (journal_perm J).mem_iff.2 ht
  rw [h.journal] at h1
  exact journal_nonempty hp t h1

/-- The book that the next run reads from the journal holds the same days. -/
theorem Days.reread {J : Book} {W : List TransactionPostings} (h : Days J W) (hp : Populated J) {S : Date → Bool} {K : Book} (hk : Holds J W S K) :
    Holds J W S (Book.empty.after K.journal) ∧ ¬ Book.empty.Bad K.journal ∧ ∀ t ∈ K.journal, ¬ Undecided Book.empty t := by
  have hfS : Filed (J.after (onDays S W)) :=
    filed_onDay h.reached.wf (h.good_part S) h.filed (h.onDay.mono fun _ => Days.mem_part)
  have hpK : Populated K := populated_same hk.same (populated_after h.reached.wf hp _)
  obtain ⟨k1, k2, k3, _⟩ := read_journal hk.reached hpK (f := id) (fun _ => ⟨rfl, rfl⟩)
  rw [List.map_id] at k1 k2 k3
  exact ⟨⟨k3, (same_reread hk.reached.wf hpK (hk.same.filed hfS) k3.wf).symm.trans hk.same⟩, k1, k2⟩

theorem soFar_eq (W : List TransactionPostings) (Ds : List (List TransactionPostings)) : soFar W Ds = onDays (fun d => Ds.any (daysOf · d)) W := by
  unfold soFar onDays
  apply List.filter_congr
  intro t _
  rw [Bool.eq_iff_iff, decide_eq_true_iff, List.any_eq_true]
  unfold Downloaded
  simp only [daysOf_iff]

/-- One run after the other. -/
theorem Days.runs {J : Book} {W : List TransactionPostings} (h : Days J W) (hp : Populated J) {S : Date → Bool} {js : List TransactionPostings}
    (hj : ¬ Book.empty.Bad js ∧ ∀ t ∈ js, ¬ Undecided Book.empty t) (hk : Holds J W S (Book.empty.after js))
    (r : HashOrder × History) (rs : List (HashOrder × History)) (hD : ∀ D ∈ filesOf (r :: rs), WholeDays W D) :
    journalAfter js (r :: rs) = some (J.after (onDays (fun d => S d || (filesOf (r :: rs)).any (daysOf · d)) W)).journal := by
  induction rs generalizing r js S with
  | nil =>
    obtain ⟨a1, a2, a3⟩ := h.steps hk (Ds := inputs r.2) fun D hx => hD D (by simpa [filesOf] using hx)
    have h1 : journalOf ((r.1, js) :: r.2) = some ((inputs r.2).foldl Book.after (Book.empty.after js)).journal := by
      rw [journalOf_books]
      refine ⟨?_, leftOver_cons_nil.2 ⟨hj.2, a2⟩, rfl⟩
      rintro (hx | hx)
      · exact hj.1 hx
      · exact a1 hx
    rw [journalAfter, h1, Option.bind_some, journalAfter, a3.same.journal]
    simp [filesOf]
  | cons r' rs ih =>
    obtain ⟨a1, a2, a3⟩ := h.steps hk (Ds := inputs r.2) fun D hx => hD D (by simp [filesOf, hx])
    have h1 : journalOf ((r.1, js) :: r.2) = some ((inputs r.2).foldl Book.after (Book.empty.after js)).journal := by
      rw [journalOf_books]
      refine ⟨?_, leftOver_cons_nil.2 ⟨hj.2, a2⟩, rfl⟩
      rintro (hx | hx)
      · exact hj.1 hx
      · exact a1 hx
    obtain ⟨b1, b2, b3⟩ := h.reread hp a3
    have hfo : filesOf (r :: r' :: rs) = inputs r.2 ++ filesOf (r' :: rs) := by simp [filesOf]
    rw [journalAfter, h1, Option.bind_some, ih ⟨b2, b3⟩ b1 r' fun D hx => hD D (by rw [hfo]; exact List.mem_append_right _ hx)]
    congr 3
    rw [hfo]
    simp only [List.any_append, Bool.or_assoc]

/-- **C92.** `W` are all transactions of an account that can ever be downloaded. They could be merged into the journal `js` at once, with
nothing left over, and what the journal already knows of them it has under their dates. Whichever days are downloaded, in whichever order,
with whatever gaps and overlaps, and however the files are merged, in one run or in many with the journal written and read in between: no
run fails, nothing is left over, and the journal at the end is that of merging all the days that were downloaded at once. -/
theorem C92_days (h₀ h₁ h₂ h₃ : HashOrder) (js W js' : List TransactionPostings) (hW : journalOf [(h₀, js), (h₁, W)] = some js')
    (hd : DatesAgree js W) (runs : List (HashOrder × History)) (hne : runs ≠ []) (hD : ∀ D ∈ filesOf runs, WholeDays W D) :
    ∃ j, journalAfter js runs = some j ∧ journalOf [(h₂, js), (h₃, soFar W (filesOf runs))] = some j ∧
      ((∀ t ∈ W, Downloaded (filesOf runs) (dateOf t)) → j = js') := by
  obtain ⟨hb, hl, rfl⟩ := journalOf_books.1 hW
  have h := days_of_journal hb hl hd
  obtain ⟨l1, l2⟩ := leftOver_cons_nil.1 (show leftOver Book.empty [js, W] = [] from hl)
  have hp : Populated (Book.empty.after js) := populated_after empty_wf (by intro t ht; cases ht) _
  obtain ⟨r, rs, rfl⟩ := List.exists_cons_of_ne_nil hne
  have hr := h.runs hp ⟨fun hx => hb (.inl hx), l1⟩ h.none r rs hD
  simp only [Bool.false_or, ← soFar_eq] at hr
  refine ⟨_, hr, ?_, ?_⟩
  · rw [journalOf_books]
    have hg : Good (Book.empty.after js) (soFar W (filesOf (r :: rs))) := by rw [soFar_eq]; exact h.good_part _
    refine ⟨?_, ?_, rfl⟩
    · rintro (hx | hx | hx)
      · exact hb (.inl hx)
      · exact good_iff.1 hg hx
      · exact hx
    · refine leftOver_cons_nil.2 ⟨l1, leftOver_cons_nil.2 ⟨?_, rfl⟩⟩
      intro t ht
      exact h.decided t (List.mem_filter.1 ht).1
  · intro hall
    have : soFar W (filesOf (r :: rs)) = W := by
      unfold soFar
      rw [List.filter_eq_self]
      intro t ht
      exact decide_eq_true (hall t ht)
    rw [this]
    rfl

/-! ### An example -/

theorem wholeDays_iff {W D : List TransactionPostings} : WholeDays W D ↔ ∀ t ∈ D, ofDay (dateOf t) D = ofDay (dateOf t) W := by
  constructor
  · intro h t ht
    rcases h (dateOf t) with h | h
    · have : t ∈ ofDay (dateOf t) D := List.mem_filter.2 ⟨ht, decide_eq_true rfl⟩
      rw [h] at this
      cases this
    · exact h
  · intro h d
    by_cases he : ofDay d D = []
    · exact .inl he
    · obtain ⟨t, ht⟩ := List.exists_mem_of_ne_nil _ he
      obtain ⟨h1, h2⟩ := List.mem_filter.1 ht
      rw [← of_decide_eq_true h2]
      exact .inr (h t h1)

section Example
open Ex

/-- The journal knows the transfer of the 2nd from the other account, and the rent from an earlier download. -/
def daysBefore : List TransactionPostings :=
  [trn 2 "savings" [post "assets:b" (-100) ["fp-s1"], post "expenses" 100 ["fp-s2", "unknown-account"]],
   trn 3 "rent" [post "assets:a" (-700) ["fp-d7"], post "expenses:flat" 700 ["fp-d8"]]]

/-- The 1st of the month: two coffees for the same price. -/
def day1 : List TransactionPostings :=
  [trn 1 "coffee" [post "assets:a" (-3) ["fp-d1"], post "expenses" 3 ["fp-d2", "unknown-account"]],
   trn 1 "coffee" [post "assets:a" (-3) ["fp-d3"], post "expenses" 3 ["fp-d4", "unknown-account"]]]

/-- The 2nd: the transfer, as this account sees it. -/
def day2 : List TransactionPostings :=
  [trn 2 "from savings" [post "assets:a" 100 ["fp-d5"], post "expenses" (-100) ["fp-d6", "unknown-account"]]]

/-- The 3rd: the rent, again. -/
def day3 : List TransactionPostings := [trn 3 "RENT" [post "assets:a" (-700) ["fp-d7"], post "expenses" 700 ["fp-d8", "unknown-account"]]]

/-- Three runs: the last day only; then two files, one of them with the newest day first; then everything. -/
def dayRuns : List (HashOrder × History) :=
  [(.rev, [(.rev, day3)]), (.sorted, [(.sorted, day2 ++ day1), (.rev, day1)]), (.rev, [(.sorted, day1 ++ day2 ++ day3)])]

/-- A month is downloaded in pieces that overlap, in the wrong order. -/
example : ∃ j, journalAfter daysBefore dayRuns = some j ∧
    journalOf [(.sorted, daysBefore), (.sorted, day1 ++ day2 ++ day3)] = some j ∧
    j.map (fun t => (t.trn.raw.description, t.posts.map fun p => (p.raw.account, fps p))) =
      [("coffee".toList, [("assets:a".toList, ["fp-d1".toList]), ("expenses".toList, ["fp-d2".toList])]),
       ("coffee".toList, [("assets:a".toList, ["fp-d3".toList]), ("expenses".toList, ["fp-d4".toList])]),
       ("savings".toList, [("assets:b".toList, ["fp-d6".toList, "fp-s1".toList]), ("assets:a".toList, ["fp-d5".toList, "fp-s2".toList])]),
       ("rent".toList, [("assets:a".toList, ["fp-d7".toList]), ("expenses:flat".toList, ["fp-d8".toList])])] := by
  have h1 : ((journalOf [(.sorted, daysBefore), (.sorted, day1 ++ day2 ++ day3)]).map fun j =>
      j.map (fun t => (t.trn.raw.description, t.posts.map fun p => (p.raw.account, fps p)))) = some
      [("coffee".toList, [("assets:a".toList, ["fp-d1".toList]), ("expenses".toList, ["fp-d2".toList])]),
       ("coffee".toList, [("assets:a".toList, ["fp-d3".toList]), ("expenses".toList, ["fp-d4".toList])]),
       ("savings".toList, [("assets:b".toList, ["fp-d6".toList, "fp-s1".toList]), ("assets:a".toList, ["fp-d5".toList, "fp-s2".toList])]),
       ("rent".toList, [("assets:a".toList, ["fp-d7".toList]), ("expenses:flat".toList, ["fp-d8".toList])])] := by
    unfold journalOf
    simp only [build_eval]
    set_option maxRecDepth 100000 in decide +kernel
  obtain ⟨js', hW, h1⟩ := Option.map_eq_some_iff.1 h1
  have hd : DatesAgree daysBefore (day1 ++ day2 ++ day3) := by
    set_option maxRecDepth 100000 in decide +kernel
  have hD : ∀ D ∈ filesOf dayRuns, WholeDays (day1 ++ day2 ++ day3) D := by
    simp only [wholeDays_iff]
    set_option maxRecDepth 100000 in decide +kernel
  have hall : ∀ t ∈ day1 ++ day2 ++ day3, Downloaded (filesOf dayRuns) (dateOf t) := by
    set_option maxRecDepth 100000 in decide +kernel
  obtain ⟨j, k1, _, k3⟩ := C92_days .sorted .sorted .sorted .sorted _ _ js' hW hd dayRuns (by decide) hD
  have := k3 hall
  subst this
  exact ⟨_, k1, hW, h1⟩

end Example

end Verif
