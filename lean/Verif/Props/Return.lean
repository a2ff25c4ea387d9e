import Verif.Proofs.Return

/-!
# C103: transactions that were deleted, and statements with more than the journal has
-/

namespace Verif
open Spec Spec.Book Comment

/-- **C103.** A run with a journal, edited by hand in whatever way, and files that fit to it: of each file, the transactions with fingerprints in
the journal are recognised there, and the others are like nothing in it. It succeeds and hands back nothing. The journal keeps its
transactions, with the postings of the files brought into those that have their fingerprints, and gets exactly the others, as they are in the files. -/
theorem C103_fits (o : HashOrder) (js : List TransactionPostings) (cs : History) (hj : InOrder js) (hf : FitsAll js (inputs cs)) :
    ∃ us, oneRun ((o, js) :: cs) = some (((inputs cs).foldl grown js).mergeSort fun a b => (compare (dateOf a) (dateOf b)).isLE, us) ∧
      us.flatten = [] := by
  have hl := lists_inOrder hj
  have hnew := (listsAll_empty.new_iff (g := js)).2 fun t ht => by cases ht
  obtain ⟨hb, hn⟩ := (not_bad_inOrder hnew).2 hj
  obtain ⟨k1, k2, k3⟩ := hl.grownAll hf
  obtain ⟨us, h1, h2⟩ := oneRun_all (calls := (o, js) :: cs) (show ¬ Refused Book.empty (js :: inputs cs) from fun hx => hx.elim hb k1)
  refine ⟨us, ?_, ?_⟩
  · rw [h1, show (bookAfter (inputs ((o, js) :: cs))) = (inputs cs).foldl Book.after (Book.empty.after js) from rfl, journal_eq, k3]
    rfl
  · rw [show leftOver Book.empty (inputs ((o, js) :: cs)) = [] from leftOver_cons_nil.2 ⟨hn, k2⟩] at h2
    exact asGiven_nil h2

theorem inOrder_same {js : List TransactionPostings} (hj : InOrder js) {q q' : PostingInternal} (hq : q ∈ allPosts js) (hq' : q' ∈ allPosts js)
    (hs : SharesFp q q') : q = q' := by
  have hl := lists_inOrder hj
  rw [← hl.entries] at hq hq'
  obtain ⟨i, r, hr, rfl⟩ := (mem_entries_allPosts hl.reached.wf).1 hq
  obtain ⟨k, r', hr', rfl⟩ := (mem_entries_allPosts hl.reached.wf).1 hq'
  have := hl.reached.wf.unique i k r r' hr hr' hs
  subst this
  rw [hr] at hr'
  cases hr'
  rfl

theorem keeps_recognised {g js : List TransactionPostings} (hg : ∀ p ∈ allPosts g, fps p ≠ []) (hj : InOrder js) (hk : Keeps g js) : Recognised g js := by
  refine ⟨fun t ht => ?_, fun p hp q hq q' hq' h1 h2 => ?_, hk.apart⟩
  · obtain ⟨u, hu, hx⟩ := hk.together t ht
    refine ⟨u, hu, fun p hp => ?_⟩
    obtain ⟨q, hq, hf⟩ := hx p hp
    obtain ⟨f, hfp⟩ := List.exists_mem_of_ne_nil _ (hg p (mem_allPosts.2 ⟨t, ht, hp⟩))
    exact ⟨q, hq, f, hf f hfp, hfp⟩
  · obtain ⟨t, ht, hpt⟩ := mem_allPosts.1 hp
    obtain ⟨u, hu, hx⟩ := hk.together t ht
    obtain ⟨q0, hq0, hf⟩ := hx p hpt
    have key : ∀ q ∈ allPosts js, SharesFp q p → q = q0 := by
      rintro q hq ⟨f, h1, h2⟩
      exact inOrder_same hj hq (mem_allPosts.2 ⟨u, hu, hq0⟩) ⟨f, h1, hf f h2⟩
    rw [key q hq h1, key q' hq' h2]

/-- **C103: what is deleted comes back.** Files were merged with nothing left over. The user deletes some transactions of the journal (`gone`), and
edits the others (`left`) in any way that keeps their fingerprints together and apart. Then, with one of the files again: if no transaction that the
journal now misses is like one that it has, the run succeeds, hands back nothing, and the transactions of the file that were deleted are in the
journal again, as they are in the file. -/
theorem C103_deleted (calls : History) (j : List TransactionPostings) (us : List (List TransactionPostings)) (h : oneRun calls = some (j, us))
    (hu : us.flatten = []) (left gone js : List TransactionPostings) (hp : j.Perm (left ++ gone)) (hj : InOrder js) (hk : Keeps left js)
    (hd : ∀ p ∈ allPosts gone, ∀ q ∈ allPosts js, ¬ SharesFp q p) (g : List TransactionPostings) (hg : g ∈ inputs calls)
    (hs : Separate js (missingIn js g)) (o o' : HashOrder) :
    ∃ us', oneRun [(o, js), (o', g)] = some ((grown js g).mergeSort fun a b => (compare (dateOf a) (dateOf b)).isLE, us') ∧ us'.flatten = [] := by
  obtain ⟨hi, hk0⟩ := C101_keeps calls j us h hu g hg
  have hk1 := hk0.perm hp
  refine C103_fits o js [(o', g)] hj ⟨⟨hi, ?_, hs⟩, trivial⟩
  have hio : InOrder (knownIn js g) := inOrder_filter hi _
  have hsub : ∀ p ∈ allPosts (knownIn js g), p ∈ allPosts g := fun p hp => by
    obtain ⟨t, ht, hpt⟩ := mem_allPosts.1 hp
    exact mem_allPosts.2 ⟨t, (List.mem_filter.1 ht).1, hpt⟩
  refine keeps_recognised hio.marked hj (Keeps.trans (B := left) hio.marked ⟨?_, ?_⟩ hk)
  · intro t ht
    obtain ⟨htg, hkn⟩ := List.mem_filter.1 ht
    obtain ⟨p, hpt, q, hq, f, hf1, hf2⟩ := of_decide_eq_true hkn
    obtain ⟨u, hu, hx⟩ := hk1.together t htg
    rcases List.mem_append.1 hu with hu | hu
    · exact ⟨u, hu, hx⟩
    · obtain ⟨r, hr, hf⟩ := hx p hpt
      exact absurd ⟨f, hf1, hf f hf2⟩ (hd r (mem_allPosts.2 ⟨u, hu, hr⟩) q hq)
  · intro p hpp p' hp' q hq h1 h2
    obtain ⟨u, hu, hqu⟩ := mem_allPosts.1 hq
    exact hk1.apart p (hsub p hpp) p' (hsub p' hp') q (mem_allPosts.2 ⟨u, List.mem_append_left _ hu, hqu⟩) h1 h2

theorem unambiguous_decided {J : Book} {js : List TransactionPostings} (hJ : ListsAll J js) {t : TransactionPostings} (hne : t.posts ≠ [])
    (hu : Unambiguous js t) : ¬ Undecided J t := by
  rintro (hx | ⟨v, hv, ha⟩)
  · exact hne hx
  obtain ⟨p, hp, rfl⟩ := List.mem_map.1 hv
  rcases hu p hp with ⟨q, hq, hs⟩ | hone
  · obtain ⟨i, r, hr, rfl⟩ := (mem_entries_allPosts hJ.reached.wf).1 (hJ.entries.symm ▸ hq)
    have hm : i ∈ J.fpHits p := mem_fpHits.2 ⟨r, hr, hs⟩
    unfold verdict at ha
    generalize J.fpHits p = l at hm ha
    match l with
    | [] => cases hm
    | [_] => cases ha
    | _ :: _ :: _ => cases ha
  · have hn : (J.softHits (dateOf t) p).Nodup := where_nodup _ _
    have hall : ∀ i ∈ J.softHits (dateOf t) p, ∀ k ∈ J.softHits (dateOf t) p, i = k := by
      intro i hi k hk
      obtain ⟨r, hr, hd, hs⟩ := mem_softHits.1 hi
      obtain ⟨r', hr', hd', hs'⟩ := mem_softHits.1 hk
      obtain ⟨u, hu, hru, hdu⟩ := hJ.recs r (List.mem_of_getElem? hr)
      obtain ⟨u', hu', hru', hdu'⟩ := hJ.recs r' (List.mem_of_getElem? hr')
      exact same_rec hJ.reached.wf hr hr' (hone u hu _ hru u' hu' _ hru' (hdu ▸ hd) hs (hdu' ▸ hd') hs')
    unfold verdict at ha
    generalize J.softHits (dateOf t) p = l at hn hall ha
    generalize J.fpHits p = m at ha
    match m, l with
    | [_], _ => cases ha
    | _ :: _ :: _, _ => cases ha
    | [], [] => cases ha
    | [], [_] => cases ha
    | [], a :: b :: l =>
      have := hall a List.mem_cons_self b (List.mem_cons_of_mem _ List.mem_cons_self)
      subst this
      simp at hn

/-- **C103: not if there is one like it.** The file has a posting with fingerprints of a posting `q` of the journal, and one without, of the same date, that
matches `q` and nothing else: then the run is refused. So after one of two like payments was deleted from the journal, the statement with both of
them cannot be merged any more. -/
theorem C103_twin (o o' : HashOrder) (js g : List TransactionPostings) (hj : InOrder js) {t t' u : TransactionPostings} {p p' q : PostingInternal}
    (ht : t ∈ g) (hp : p ∈ t.posts) (ht' : t' ∈ g) (hp' : p' ∈ t'.posts) (hu : u ∈ js) (hq : q ∈ u.posts) (ha : Unambiguous js t)
    (ha' : Unambiguous js t') (hs : SharesFp q p) (hn : ∀ r ∈ allPosts js, ¬ SharesFp r p') (hd : dateOf u = dateOf t') (hm : SoftMatch q p') :
    oneRun [(o, js), (o', g)] = none := by
  apply oneRun_refused
  have hl := lists_inOrder hj
  refine .inr (.inl ?_)
  generalize Book.empty.after js = J at hl
  show J.Bad g
  apply Classical.byContradiction
  intro hb
  have hgood := good_iff.2 hb
  have hw := hl.reached.wf
  obtain ⟨r, hr, hrq, hrd⟩ := hl.back u hu q hq
  obtain ⟨i, hi⟩ := List.mem_iff_getElem?.1 hr
  have hv : J.verdict (dateOf t) p = .into i := by
    apply verdict_one hi (hrq ▸ hs)
    intro k s hk hsk
    apply Classical.byContradiction
    intro hne
    exact hgood.noConflict ⟨t, ht, List.mem_map.2 ⟨p, hp, verdict_two hk hi hsk (hrq ▸ hs) hne _⟩⟩
  have hv' : J.verdict (dateOf t') p' = .into i := by
    have h1 : J.fpHits p' = [] := by
      apply List.eq_nil_iff_forall_not_mem.2
      intro k hk
      obtain ⟨s, hs1, hs2⟩ := mem_fpHits.1 hk
      exact hn _ (hl.entries ▸ (mem_entries_allPosts hw).2 ⟨k, s, hs1, rfl⟩) hs2
    have hone := (ha' p' hp').resolve_left fun ⟨r, hr, hx⟩ => hn r hr hx
    have h2 : J.softHits (dateOf t') p' = [i] := by
      apply eq_singleton_of_nodup (where_nodup J _)
      · exact mem_softHits.2 ⟨r, hi, hrd.trans hd, hrq ▸ hm⟩
      · intro k hk
        obtain ⟨s, hs1, hs2, hs3⟩ := mem_softHits.1 hk
        obtain ⟨v, hv, hsv, hdv⟩ := hl.recs s (List.mem_of_getElem? hs1)
        refine same_rec hw hs1 hi ?_
        rw [hrq]
        exact hone v hv _ hsv u hu _ hq (hdv ▸ hs2) hs3 hd hm
    unfold verdict
    rw [h1, h2]
  have hne : t.posts ≠ [] := List.ne_nil_of_mem hp
  have hne' : t'.posts ≠ [] := List.ne_nil_of_mem hp'
  have m1 : p ∈ J.hits g i := mem_hits.2 ⟨t, ht, unambiguous_decided hl hne ha, hp, hv⟩
  have m2 : p' ∈ J.hits g i := mem_hits.2 ⟨t', ht', unambiguous_decided hl hne' ha', hp', hv'⟩
  have hc := List.nodup_iff_count_le_one.1 hgood.noSame i
  rw [count_allDests] at hc
  have hpp : p ≠ p' := by
    rintro rfl
    exact hn q (mem_allPosts.2 ⟨u, hu, hq⟩) hs
  generalize J.hits g i = l at m1 m2 hc
  match l with
  | [] => cases m1
  | [a] => exact hpp ((List.mem_singleton.1 m1).trans (List.mem_singleton.1 m2).symm)
  | a :: b :: l => simp at hc

/-- **C103 with files.** `merge JOURNAL FILE --unmerged U --output OUT`, with a journal that was edited by hand and a file that fits to it: the run
succeeds, writes nothing to `U`, and writes to `OUT` the journal with the postings that it has brought in and the transactions that it misses added. -/
theorem C103_command (sys : Sys) (ho : Nat → HashOrder) (p q : Str) (js g : List TransactionPostings) (v out : FileSpec) (hf : ∀ n, sys.fault n = none)
    (hpq : p ≠ q) (hp : contentOf sys sys.start p = some js ∧ NoSources js) (hq : contentOf sys sys.start q = some g ∧ NoSources g)
    (hj : InOrder js) (hg : Fits js g) :
    ∃ w, MergeCmd.run sys ho ⟨[p, q].map .path, some v, out⟩ World.start = (.ok (), w) ∧
      w.log = wholeWrite sys out (textOf sys ((grown js g).mergeSort fun a b => (compare (dateOf a) (dateOf b)).isLE)) := by
  obtain ⟨res, w, h1, h2⟩ := C98_run sys ho [p, q] (fun x => if x = p then js else g) v out (fun _ => HashOrder.sorted) hf (by
    intro x hx
    rcases List.mem_cons.1 hx with rfl | hx
    · rw [if_pos (show x = x from rfl)]
      exact hp
    · rw [List.mem_singleton.1 hx, if_neg hpq.symm]
      exact hq)
  obtain ⟨us, h3, h4⟩ := C103_fits HashOrder.sorted js [(HashOrder.sorted, g)] hj ⟨hg, trivial⟩
  rw [List.map_cons, List.map_cons, List.map_nil, if_pos (show p = p from rfl), if_neg hpq.symm, h3] at h2
  simp only [h4, if_true, List.nil_append] at h2
  obtain ⟨rfl, _, hw⟩ := h2
  exact ⟨w, h1, hw⟩

/-! ### Examples -/

/-- The journal made of `Ex.bill`, after the transaction `rent` was deleted and the other one edited. -/
def Ex.rentGone : List TransactionPostings :=
  [Ex.trn 3 "food" [Ex.post "expenses:food" 5 ["fp-2"], Ex.post "assets:a" (-5) ["fp-1", "seen"]]]

/-- That journal after the statement was merged again. -/
def Ex.rentBack : List TransactionPostings :=
  [Ex.trn 2 "rent" [Ex.post "assets:a" (-9) ["fp-3", "card"], Ex.post "expenses:unknown" 9 ["fp-4", "unknown-account"]],
   Ex.trn 3 "food" [Ex.post "expenses:food" 5 ["fp-2"], Ex.post "assets:a" (-5) ["fp-1", "seen"]]]

set_option maxRecDepth 100000 in
/-- The hypotheses of `C103_deleted` are met, and what it says is what is to be expected. -/
example (o o' : HashOrder) : ∃ us, oneRun [(o, Ex.rentGone), (o', Ex.bill)] = some (Ex.rentBack, us) ∧ us.flatten = [] := by
  obtain ⟨us, h1, h2⟩ := C103_deleted _ _ _ Ex.bill_first rfl (Ex.bill.take 1) (Ex.bill.drop 1) Ex.rentGone (List.Perm.refl _)
    ⟨by decide +kernel, by decide +kernel, by decide +kernel, by decide +kernel⟩ ⟨by decide +kernel, by decide +kernel⟩ (by decide +kernel) Ex.bill
    (List.mem_singleton.2 rfl) (by decide +kernel) o o'
  refine ⟨us, ?_, h2⟩
  rw [h1]
  congr 2
  simp only [Ex.mergeSort_eval dateOf]
  show Ex.insSort dateOf (grown Ex.rentGone Ex.bill) = Ex.rentBack
  decide +kernel

/-- A statement with two like payments on one day. -/
def Ex.coffees : List TransactionPostings :=
  [Ex.trn 1 "coffee" [Ex.post "assets:a" (-3) ["fp-1"], Ex.post "expenses:food" 3 ["fp-2"]],
   Ex.trn 1 "coffee" [Ex.post "assets:a" (-3) ["fp-3"], Ex.post "expenses:food" 3 ["fp-4"]]]

set_option maxRecDepth 100000 in
/-- The hypotheses of `C103_twin` are met: the journal has the first of the two payments only. -/
example (o o' : HashOrder) : oneRun [(o, Ex.coffees.take 1), (o', Ex.coffees)] = none :=
  C103_twin o o' (Ex.coffees.take 1) Ex.coffees ⟨by decide +kernel, by decide +kernel, by decide +kernel, by decide +kernel⟩
    (t := Ex.coffees[0]) (t' := Ex.coffees[1]) (u := Ex.coffees[0]) (p := Ex.post "assets:a" (-3) ["fp-1"]) (p' := Ex.post "assets:a" (-3) ["fp-3"])
    (q := Ex.post "assets:a" (-3) ["fp-1"]) (by decide +kernel) (by decide +kernel) (by decide +kernel) (by decide +kernel) (by decide +kernel)
    (by decide +kernel) (by decide +kernel) (by decide +kernel) (by decide +kernel) (by decide +kernel) (by decide +kernel) (by decide +kernel)

set_option maxRecDepth 100000 in
theorem Ex.rentGone_simple : ∀ t ∈ Ex.rentGone, Simple t := by decide +kernel

/-- The journal without the rent is in the file `j` (number 106), the statement in every other file. -/
noncomputable def Ex.rentSystem : Sys := { daySystem with
  start := fun n => if n = 106 then some (encodeUtf8 (textOf daySystem Ex.rentGone)) else some (encodeUtf8 (textOf daySystem Ex.bill)) }

set_option maxRecDepth 100000 in
/-- The hypotheses of `C103_command` are met: `merge j a --unmerged u --output j`. -/
example (ho : Nat → HashOrder) : ∃ w, MergeCmd.run Ex.rentSystem ho ⟨["j".toList, "a".toList].map .path, some (.path "u".toList), .path "j".toList⟩
      World.start = (.ok (), w) ∧ w.log = wholeWrite Ex.rentSystem (.path "j".toList) (textOf Ex.rentSystem Ex.rentBack) := by
  have hr0 : ∀ t ∈ Ex.rentGone, Readable1 t := fun t ht => (Ex.rentGone_simple t ht).readable1
  have hr1 : ∀ t ∈ Ex.bill, Readable1 t := fun t ht => (Ex.bill_simple.2 t ht).readable1
  have hn : daySystem.file "a".toList ≠ 106 := by decide +kernel
  have h106 : Ex.rentSystem.start (daySystem.file "a".toList) = some (encodeUtf8 (textOf daySystem Ex.bill)) :=
    if_neg (t := some (encodeUtf8 (textOf daySystem Ex.rentGone))) hn
  obtain ⟨w, h1, h2⟩ := C103_command Ex.rentSystem ho "j".toList "a".toList Ex.rentGone Ex.bill (.path "u".toList)
    (.path "j".toList) (fun _ => rfl) (by decide +kernel)
    ⟨content_of_text hr0 (daySystem_back _) rfl, fun t ht => (hr0 t ht).1.2.2.1⟩
    ⟨content_of_text hr1 (daySystem_back _) h106, fun t ht => (hr1 t ht).1.2.2.1⟩
    ⟨by decide +kernel, by decide +kernel, by decide +kernel, by decide +kernel⟩
    ⟨⟨by decide +kernel, by decide +kernel, by decide +kernel, by decide +kernel⟩, ⟨by decide +kernel, by decide +kernel, by decide +kernel⟩, by decide +kernel⟩
  refine ⟨w, h1, ?_⟩
  rw [h2]
  congr 2
  simp only [Ex.mergeSort_eval dateOf]
  show Ex.insSort dateOf (grown Ex.rentGone Ex.bill) = Ex.rentBack
  decide +kernel

end Verif
