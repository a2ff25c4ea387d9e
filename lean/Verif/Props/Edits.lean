import Verif.Proofs.EditsExact

/-!
# C101: a journal that was edited by hand

Whatever is edited in a journal: as long as the fingerprints stay on their postings, and the postings of one transaction in one transaction,
merging the statements again finds everything and adds nothing. What it can change of the edited journal is said exactly.
-/

namespace Verif
open Spec Spec.Book Comment

theorem asGiven_nil {l : List TransactionPostings} (h : List.Forall₂ AsGiven [] l) : l = [] := by cases h; rfl

theorem asGiven_nil' {l : List TransactionPostings} (h : List.Forall₂ AsGiven l []) : l = [] := by cases h; rfl

theorem lists_inOrder {js : List TransactionPostings} (hj : InOrder js) : ListsAll (Book.empty.after js) js :=
  listsAll_empty.after (fun t ht => by cases ht) hj

/-- **C101.** A run of merge calls, with a journal that could be merged alone and with files, each of which could be merged alone, whose
transactions can be found in the journal by their fingerprints. It succeeds and hands back nothing. The journal that it makes has the
transactions of the given one, with the postings of the files brought into those that have their fingerprints, sorted by date. -/
theorem C101_found (o : HashOrder) (js : List TransactionPostings) (cs : History) (hj : InOrder js)
    (hg : ∀ g ∈ inputs cs, InOrder g ∧ Keeps g js) :
    ∃ us, oneRun ((o, js) :: cs) = some (((inputs cs).foldl broughtInto js).mergeSort fun a b => (compare (dateOf a) (dateOf b)).isLE, us) ∧
      us.flatten = [] := by
  have hl := lists_inOrder hj
  have hnew := (listsAll_empty.new_iff (g := js)).2 fun t ht => by cases ht
  obtain ⟨hb, hn⟩ := (not_bad_inOrder hnew).2 hj
  obtain ⟨k1, k2, k3⟩ := settled_calls hl.reached (gs := inputs cs) fun g hg' =>
    (settled_iff hl.reached.wf).2 ⟨(hg g hg').1, hl.entries.symm ▸ (hg g hg').2⟩
  obtain ⟨us, h1, h2⟩ := oneRun_all (calls := (o, js) :: cs) (show ¬ Refused Book.empty (js :: inputs cs) from fun hx => hx.elim hb k1)
  refine ⟨us, ?_, ?_⟩
  · rw [h1, show (bookAfter (inputs ((o, js) :: cs))) = (inputs cs).foldl Book.after (Book.empty.after js) from rfl, journal_eq, k3, hl.entries]
    rfl
  · rw [show leftOver Book.empty (inputs ((o, js) :: cs)) = [] from leftOver_cons_nil.2 ⟨hn, k2⟩] at h2
    exact asGiven_nil h2

/-- **C101: a journal keeps what was merged into it.** After a run that handed back nothing, the transactions of each file can be found by
their fingerprints in the journal. -/
theorem C101_keeps (calls : History) (j : List TransactionPostings) (us : List (List TransactionPostings)) (h : oneRun calls = some (j, us))
    (hu : us.flatten = []) : ∀ g ∈ inputs calls, InOrder g ∧ Keeps g j := by
  have hb : ¬ Refused Book.empty (inputs calls) := by
    intro hb
    rw [oneRun_refused hb] at h
    cases h
  obtain ⟨us', h1, h2⟩ := oneRun_all hb
  rw [h] at h1
  cases h1
  rw [hu] at h2
  have hr := reached_calls reached_empty hb
  intro g hg
  obtain ⟨a, b⟩ := (settled_iff hr.wf).1 (settled_of_calls reached_empty hb (asGiven_nil' h2) g hg)
  exact ⟨a, b.perm (journal_perm _).symm⟩

/-- **C101: edits by hand.** Files were merged into a journal with nothing left over. The user edits the journal, in any way that keeps the
fingerprints together and apart. Then a run with the edited journal and any of the same files, in any order, any number of times, succeeds,
hands back nothing, and brings the postings of the files into the postings that have their fingerprints; no transaction and no posting is
added. -/
theorem C101_edited (calls : History) (j : List TransactionPostings) (us : List (List TransactionPostings)) (h : oneRun calls = some (j, us))
    (hu : us.flatten = []) (js : List TransactionPostings) (hj : InOrder js) (hk : Keeps j js) (o : HashOrder) (cs : History)
    (hc : ∀ g ∈ inputs cs, g ∈ inputs calls) :
    ∃ us', oneRun ((o, js) :: cs) = some (((inputs cs).foldl broughtInto js).mergeSort fun a b => (compare (dateOf a) (dateOf b)).isLE, us') ∧
      us'.flatten = [] :=
  C101_found o js cs hj fun g hg => by
    obtain ⟨h1, h2⟩ := C101_keeps calls j us h hu g (hc g hg)
    exact ⟨h1, h2.trans h1.marked hk⟩

/-- **C101: what stays of the edits.** Headers stay as they were edited, and so do amounts, balances that are given, accounts where
`unknown-account` was removed, and all lines and tags that were added: each posting is `Grown`. -/
theorem C101_kept (js : List TransactionPostings) (gs : List (List TransactionPostings)) :
    List.Forall₂ (fun u u' => u'.trn = u.trn ∧ List.Forall₂ Grown u.posts u'.posts) js (gs.foldl broughtInto js) := by
  have key : ∀ l : List TransactionPostings, ∃ f : PostingInternal → PostingInternal, (∀ q, ∃ ps : List PostingInternal, f q = ps.foldl absorb q) ∧
      gs.foldl broughtInto l = l.map fun u => { u with posts := u.posts.map f } := by
    induction gs with
    | nil => exact fun l => ⟨id, fun q => ⟨[], rfl⟩, by simp⟩
    | cons g gs ih =>
      intro l
      obtain ⟨f, hf, he⟩ := ih (broughtInto l g)
      refine ⟨f ∘ broughtIn g, fun q => ?_, ?_⟩
      · obtain ⟨ps, hp⟩ := hf (broughtIn g q)
        refine ⟨((allPosts g).filter fun p => SharesFp q p) ++ ps, ?_⟩
        rw [Function.comp_apply, hp, List.foldl_append]
        rfl
      · rw [List.foldl_cons, he]
        unfold broughtInto
        rw [List.map_map]
        apply List.map_congr_left
        intro u _
        simp only [Function.comp_apply, List.map_map]
  obtain ⟨f, hf, he⟩ := key js
  rw [he, List.forall₂_map_right_iff, List.forall₂_same]
  intro u _
  refine ⟨rfl, ?_⟩
  show List.Forall₂ Grown u.posts (u.posts.map f)
  rw [List.forall₂_map_right_iff, List.forall₂_same]
  intro q _
  obtain ⟨ps, hp⟩ := hf q
  rw [hp]
  exact grown_foldl q ps

/-- At most one posting of a file is brought into a posting of the journal. -/
theorem broughtIn_eq {g js : List TransactionPostings} (hg : InOrder g) (hk : Keeps g js) {q : PostingInternal} (hq : q ∈ allPosts js)
    {p : PostingInternal} (hp : p ∈ allPosts g) (hs : SharesFp q p) : broughtIn g q = absorb q p := by
  have hnd := inOrder_nodup hg
  have : (allPosts g).filter (fun p => decide (SharesFp q p)) = [p] := by
    have hn := hnd.sublist (List.filter_sublist (p := fun p => decide (SharesFp q p)))
    have hall : ∀ x, x ∈ (allPosts g).filter (fun p => decide (SharesFp q p)) ↔ x = p := by
      intro x
      rw [List.mem_filter, decide_eq_true_iff]
      constructor
      · rintro ⟨h1, h2⟩; exact hk.apart x h1 p hp q hq h2 hs
      · rintro rfl; exact ⟨hp, hs⟩
    generalize (allPosts g).filter (fun p => decide (SharesFp q p)) = l at hn hall
    match l, hn with
    | [], _ => exact absurd ((hall p).2 rfl) List.not_mem_nil
    | [a], _ => rw [(hall a).1 List.mem_cons_self]
    | a :: b :: l, hn =>
      have ha := (hall a).1 List.mem_cons_self
      have hb := (hall b).1 (List.mem_cons_of_mem _ List.mem_cons_self)
      subst ha
      subst hb
      simp at hn
  unfold broughtIn
  rw [this]
  rfl

theorem broughtIn_other {g : List TransactionPostings} {q : PostingInternal} (h : ∀ p ∈ allPosts g, ¬ SharesFp q p) : broughtIn g q = q := by
  unfold broughtIn
  rw [List.filter_eq_nil_iff.2 fun p hp hs => h p hp (of_decide_eq_true hs)]
  rfl

theorem map_self_iff {α : Type} {f : α → α} {l : List α} : l.map f = l ↔ ∀ a ∈ l, f a = a := by
  induction l with
  | nil => simp
  | cons a l ih => rw [List.map_cons, List.cons.injEq, ih, List.forall_mem_cons]

/-- **C101: when an edited journal stays as it is.** A file whose transactions can be found in the journal changes nothing of it exactly if
its postings have nothing to tell that the postings of the journal do not have already. -/
theorem C101_unchanged_iff (js g : List TransactionPostings) (hg : InOrder g) (hk : Keeps g js) :
    broughtInto js g = js ↔ ∀ q ∈ allPosts js, ∀ p ∈ allPosts g, SharesFp q p → NothingNew q p := by
  have h0 : broughtInto js g = js ↔ ∀ q ∈ allPosts js, broughtIn g q = q := by
    unfold broughtInto
    constructor
    · intro h q hq
      obtain ⟨u, hu, hq⟩ := mem_allPosts.1 hq
      have := map_self_iff.1 h u hu
      exact map_self_iff.1 (congrArg (·.posts) this) q hq
    · intro h
      apply map_self_iff.2
      intro u hu
      have : u.posts.map (broughtIn g) = u.posts := map_self_iff.2 fun q hq => h q (mem_allPosts.2 ⟨u, hu, hq⟩)
      rw [this]
  rw [h0]
  constructor
  · intro h q hq p hp hs
    rw [← absorb_same_iff, ← broughtIn_eq hg hk hq hp hs]
    exact h q hq
  · intro h q hq
    by_cases hx : ∃ p ∈ allPosts g, SharesFp q p
    · obtain ⟨p, hp, hs⟩ := hx
      rw [broughtIn_eq hg hk hq hp hs]
      exact absorb_same_iff.2 (h q hq p hp hs)
    · exact broughtIn_other fun p hp hs => hx ⟨p, hp, hs⟩

/-- **C101: which edits do not stay.** A posting of a file, and the posting of the edited journal that has its fingerprints. Merging the file
again brings back every line of its comment, every tag of it but `unknown-account`, and every value of its tags, over what was edited. If the
posting of the journal has no balance or no status, it gets that of the file. If it is still tagged `unknown-account` and the posting of the
file is not, then its account becomes that of the file. -/
theorem C101_comes_back (js g : List TransactionPostings) (hg : InOrder g) (hk : Keeps g js) (q : PostingInternal) (hq : q ∈ allPosts js)
    (p : PostingInternal) (hp : p ∈ allPosts g) (hs : SharesFp q p) :
    (∀ l ∈ p.comment.lines, l ∈ (broughtIn g q).comment.lines) ∧
    (∀ t ∈ tagsOf p, t ≠ unknownTag → t ∈ tagsOf (broughtIn g q)) ∧
    (∀ (k v : Str), p.comment.valueTags[k]? = some v → (broughtIn g q).comment.valueTags[k]? = some v) ∧
    (q.raw.balance = none → (broughtIn g q).raw.balance = p.raw.balance) ∧
    (q.raw.status = none → (broughtIn g q).raw.status = p.raw.status) ∧
    (UnknownAccount q → ¬ UnknownAccount p → (broughtIn g q).raw.account = p.raw.account) := by
  rw [broughtIn_eq hg hk hq hp hs]
  refine ⟨?_, ?_, ?_, ?_, ?_, ?_⟩
  · intro l hl
    show l ∈ q.comment.lines ++ _
    by_cases hx : l ∈ q.comment.lines
    · exact List.mem_append_left _ hx
    · exact List.mem_append_right _ (List.mem_eraseDups.2 (List.mem_filter.2 ⟨hl, decide_eq_true hx⟩))
  · intro t ht hne
    exact mem_mergedTags_iff.2 ⟨.inr ht, fun e => absurd e hne⟩
  · intro k v hv
    show (q.comment.valueTags ∪ p.comment.valueTags)[k]? = _
    rw [Std.ExtTreeMap.getElem?_union, hv]
    rfl
  · intro h
    show q.raw.balance.or _ = _
    rw [h]
    rfl
  · intro h
    show strongest q.raw.status p.raw.status = _
    rw [h]
    cases p.raw.status with
    | none => rfl
    | some s => cases s <;> rfl
  · intro h1 h2
    exact if_pos ⟨h1, h2⟩

/-- **C101: which edits are refused.** A journal and one file, each of which could be merged alone, and each posting of the file has a fingerprint
of the journal. The run succeeds exactly if the transactions of the file are recognised in the journal: if a posting has fingerprints of two
postings, or a transaction those of two transactions, or two postings those of one, then it is refused. If it succeeds, it
hands back nothing, and the postings of the file are brought into those that have their fingerprints. -/
theorem C101_recognised_iff (o o' : HashOrder) (js g : List TransactionPostings) (hj : InOrder js) (hg : InOrder g) (hk : AllKnown g js) :
    ((oneRun [(o, js), (o', g)]).isSome ↔ Recognised g js) ∧
    ∀ x, oneRun [(o, js), (o', g)] = some x →
      x.1 = (broughtInto js g).mergeSort (fun a b => (compare (dateOf a) (dateOf b)).isLE) ∧ x.2.flatten = [] := by
  have hl := lists_inOrder hj
  have hnew := (listsAll_empty.new_iff (g := js)).2 fun t ht => by cases ht
  obtain ⟨hb, hn⟩ := (not_bad_inOrder hnew).2 hj
  have hw := hl.reached.wf
  have hm : Good (Book.empty.after js) g ↔ Matched (Book.empty.after js) g := by
    refine ⟨fun h => matched_of_good h hg fun p hp => ?_, fun h => h.good hg⟩
    obtain ⟨q, hq, hs⟩ := hk p hp
    rw [← hl.entries] at hq
    obtain ⟨i, r, hr, rfl⟩ := (mem_entries_allPosts hw).1 hq
    exact ⟨i, r, hr, hs⟩
  have hme := matched_iff hw hg.nonempty
  rw [hl.entries] at hme
  have href : Refused Book.empty (inputs [(o, js), (o', g)]) ↔ ¬ Recognised g js := by
    rw [← hme, ← hm, good_iff, not_not]
    show Book.empty.Bad js ∨ (Book.empty.after js).Bad g ∨ False ↔ _
    rw [or_false]
    exact ⟨fun h => h.resolve_left hb, .inr⟩
  by_cases hrec : Recognised g js
  · have hm' := hme.2 hrec
    obtain ⟨us, h1, h2⟩ := oneRun_all (fun h => href.1 h hrec)
    have h3 : us.flatten = [] := by
      refine asGiven_nil ?_
      rw [show leftOver Book.empty (inputs [(o, js), (o', g)]) = [] from
        leftOver_cons_nil.2 ⟨hn, leftOver_cons_nil.2 ⟨fun t ht => hm'.decided hg ht, rfl⟩⟩] at h2
      exact h2
    have h4 : (bookAfter (inputs [(o, js), (o', g)])).journal = (broughtInto js g).mergeSort fun a b => (compare (dateOf a) (dateOf b)).isLE := by
      rw [show (bookAfter (inputs [(o, js), (o', g)])) = (Book.empty.after js).after g from rfl, journal_eq, hm'.after_entries hg, hl.entries]
      rfl
    rw [h1]
    refine ⟨⟨fun _ => hrec, fun _ => rfl⟩, fun x hx => ?_⟩
    cases hx
    exact ⟨h4, h3⟩
  · rw [oneRun_refused (href.2 hrec)]
    exact ⟨⟨fun h => (by cases h), fun h => absurd h hrec⟩, fun x hx => (by cases hx)⟩

/-- **C101 with files.** `merge JOURNAL FILES --unmerged U --output OUT`, with a journal that was edited by hand: the run succeeds, writes nothing to
`U`, and writes to `OUT` the edited journal with the postings of the files brought in. -/
theorem C101_command (sys : Sys) (ho : Nat → HashOrder) (p : Str) (qs : List Str) (js : List TransactionPostings)
    (D : Str → List TransactionPostings) (v out : FileSpec) (hf : ∀ n, sys.fault n = none) (hpq : p ∉ qs)
    (hp : contentOf sys sys.start p = some js ∧ NoSources js) (hq : ∀ q ∈ qs, contentOf sys sys.start q = some (D q) ∧ NoSources (D q))
    (hj : InOrder js) (hk : ∀ q ∈ qs, InOrder (D q) ∧ Keeps (D q) js) :
    ∃ w, MergeCmd.run sys ho ⟨(p :: qs).map .path, some v, out⟩ World.start = (.ok (), w) ∧
      w.log = wholeWrite sys out (textOf sys (((qs.map D).foldl broughtInto js).mergeSort fun a b => (compare (dateOf a) (dateOf b)).isLE)) := by
  have hc : ∀ q ∈ qs, (if q = p then js else D q) = D q := by
    intro q hq
    apply if_neg
    rintro rfl
    exact hpq hq
  obtain ⟨res, w, h1, h2⟩ := C98_run sys ho (p :: qs) (fun q => if q = p then js else D q) v out (fun _ => HashOrder.sorted) hf (by
    intro q hq'
    rcases List.mem_cons.1 hq' with rfl | hq'
    · rw [if_pos (show q = q from rfl)]
      exact hp
    · rw [hc q hq']
      exact hq q hq')
  have hin : inputs (qs.map fun q => (HashOrder.sorted, if q = p then js else D q)) = qs.map D := by
    unfold inputs
    rw [List.map_map]
    exact List.map_congr_left fun q hq => hc q hq
  obtain ⟨us, h3, h4⟩ := C101_found HashOrder.sorted js (qs.map fun q => (HashOrder.sorted, if q = p then js else D q)) hj (by
    rw [hin]
    intro g hg
    obtain ⟨q, hq, rfl⟩ := List.mem_map.1 hg
    exact hk q hq)
  rw [List.map_cons, if_pos (show p = p from rfl), h3] at h2
  simp only [h4, if_true, List.nil_append, hin] at h2
  obtain ⟨rfl, _, hw⟩ := h2
  exact ⟨w, h1, hw⟩

/-! ### Examples -/

/-- A statement as it was imported. -/
def Ex.bill : List TransactionPostings :=
  [Ex.trn 1 "shop" [Ex.post "assets:a" (-5) ["fp-1"], Ex.post "expenses:unknown" 5 ["fp-2", "unknown-account"]],
   Ex.trn 2 "rent" [Ex.post "assets:a" (-9) ["fp-3", "card"], Ex.post "expenses:unknown" 9 ["fp-4", "unknown-account"]]]

/-- The journal after the user has edited it: dates, descriptions, accounts and an amount are other ones, a posting was split in two, the
tag `card` was removed, and there is a transaction of their own. -/
def Ex.edited : List TransactionPostings :=
  [Ex.trn 3 "food and drink" [Ex.post "expenses:drink" 2 ["fp-own1"], Ex.post "expenses:food" 3 ["fp-2"], Ex.post "assets:a" (-5) ["fp-1", "seen"]],
   Ex.trn 2 "rent" [Ex.post "assets:a" (-9) ["fp-3"], Ex.post "expenses:rent" 9 ["fp-4"]],
   Ex.trn 1 "cash" [Ex.post "assets:cash" 1 ["fp-own2"], Ex.post "equity" (-1) ["fp-own3"]]]

/-- The edited journal after the statement was merged again: only the tag `card` has come back, and it is sorted. -/
def Ex.editedAfter : List TransactionPostings :=
  [Ex.trn 1 "cash" [Ex.post "assets:cash" 1 ["fp-own2"], Ex.post "equity" (-1) ["fp-own3"]],
   Ex.trn 2 "rent" [Ex.post "assets:a" (-9) ["fp-3", "card"], Ex.post "expenses:rent" 9 ["fp-4"]],
   Ex.trn 3 "food and drink" [Ex.post "expenses:drink" 2 ["fp-own1"], Ex.post "expenses:food" 3 ["fp-2"], Ex.post "assets:a" (-5) ["fp-1", "seen"]]]

set_option maxRecDepth 100000 in
theorem Ex.bill_kept : InOrder Ex.edited ∧ Keeps Ex.bill Ex.edited :=
  ⟨⟨by decide +kernel, by decide +kernel, by decide +kernel, by decide +kernel⟩, ⟨by decide +kernel, by decide +kernel⟩⟩

set_option maxRecDepth 100000 in
theorem Ex.bill_first : oneRun [(HashOrder.sorted, Ex.bill)] = some (Ex.bill, [[]]) := by
  unfold oneRun
  simp only [Ex.build_eval]
  decide +kernel

set_option maxRecDepth 100000 in
/-- The hypotheses of `C101_edited` are met, and what it says is what is to be expected. -/
example (o o' : HashOrder) : ∃ us, oneRun [(o, Ex.edited), (o', Ex.bill)] = some (Ex.editedAfter, us) ∧ us.flatten = [] := by
  obtain ⟨us, h1, h2⟩ := C101_edited _ _ _ Ex.bill_first rfl Ex.edited Ex.bill_kept.1 Ex.bill_kept.2 o [(o', Ex.bill)] (fun g hg => hg)
  refine ⟨us, ?_, h2⟩
  rw [h1]
  congr 2
  simp only [Ex.mergeSort_eval dateOf]
  show Ex.insSort dateOf ([Ex.bill].foldl broughtInto Ex.edited) = Ex.editedAfter
  decide +kernel

set_option maxRecDepth 100000 in
/-- The tag is new to the journal, so `C101_unchanged_iff` says that the journal does not stay as it is. -/
example : broughtInto Ex.edited Ex.bill ≠ Ex.edited := by
  have hb : InOrder Ex.bill := ⟨by decide +kernel, by decide +kernel, by decide +kernel, by decide +kernel⟩
  rw [Ne, C101_unchanged_iff _ _ hb Ex.bill_kept.2]
  intro h
  have := (h (Ex.post "assets:a" (-9) ["fp-3"]) (by decide +kernel) (Ex.post "assets:a" (-9) ["fp-3", "card"]) (by decide +kernel)
    (by decide +kernel)).tags "card".toList (by decide +kernel) (by decide +kernel)
  exact absurd this (by decide +kernel)

set_option maxRecDepth 100000 in
theorem Ex.bill_simple : (∀ t ∈ Ex.edited, Simple t) ∧ ∀ t ∈ Ex.bill, Simple t := by decide +kernel

/-- The edited journal is in the file `j` (number 106), the statement in every other file. -/
noncomputable def Ex.billSystem : Sys := { daySystem with
  start := fun n => if n = 106 then some (encodeUtf8 (textOf daySystem Ex.edited)) else some (encodeUtf8 (textOf daySystem Ex.bill)) }

set_option maxRecDepth 100000 in
/-- The hypotheses of `C101_command` are met: `merge j a b --unmerged u --output j`, with the statement in `a` and in `b`. -/
example (ho : Nat → HashOrder) : ∃ w, MergeCmd.run Ex.billSystem ho ⟨["j".toList, "a".toList, "b".toList].map .path, some (.path "u".toList), .path "j".toList⟩
      World.start = (.ok (), w) ∧ w.log = wholeWrite Ex.billSystem (.path "j".toList) (textOf Ex.billSystem Ex.editedAfter) := by
  have hr0 : ∀ t ∈ Ex.edited, Readable1 t := fun t ht => (Ex.bill_simple.1 t ht).readable1
  have hr1 : ∀ t ∈ Ex.bill, Readable1 t := fun t ht => (Ex.bill_simple.2 t ht).readable1
  have hb : InOrder Ex.bill := ⟨by decide +kernel, by decide +kernel, by decide +kernel, by decide +kernel⟩
  obtain ⟨w, h1, h2⟩ := C101_command Ex.billSystem ho "j".toList ["a".toList, "b".toList] Ex.edited (fun _ => Ex.bill) (.path "u".toList)
    (.path "j".toList) (fun _ => rfl) (by decide +kernel)
    ⟨content_of_text hr0 (daySystem_back _) rfl, fun t ht => (hr0 t ht).1.2.2.1⟩
    (by
      intro q hq
      have hn : daySystem.file q ≠ 106 := by
        simp only [List.mem_cons, List.not_mem_nil, or_false] at hq
        rcases hq with rfl | rfl <;> decide +kernel
      exact ⟨content_of_text hr1 (daySystem_back _) (if_neg hn), fun t ht => (hr1 t ht).1.2.2.1⟩)
    Ex.bill_kept.1 (fun _ _ => ⟨hb, Ex.bill_kept.2⟩)
  refine ⟨w, h1, ?_⟩
  rw [h2]
  congr 2
  simp only [Ex.mergeSort_eval dateOf]
  show Ex.insSort dateOf ([Ex.bill, Ex.bill].foldl broughtInto Ex.edited) = Ex.editedAfter
  decide +kernel

/-- The journal after the user has moved a posting into a transaction of its own. -/
def Ex.moved : List TransactionPostings :=
  [Ex.trn 1 "shop" [Ex.post "assets:a" (-5) ["fp-1"], Ex.post "transfer" 5 ["fp-own1"]],
   Ex.trn 1 "shop" [Ex.post "transfer" (-5) ["fp-own2"], Ex.post "expenses:food" 5 ["fp-2"]],
   Ex.trn 2 "rent" [Ex.post "assets:a" (-9) ["fp-3", "card"], Ex.post "expenses:rent" 9 ["fp-4"]]]

set_option maxRecDepth 100000 in
/-- The hypotheses of `C101_recognised_iff` are met. The statement can then not be merged any more. -/
example (o o' : HashOrder) : (oneRun [(o, Ex.edited), (o', Ex.bill)]).isSome ∧ oneRun [(o, Ex.moved), (o', Ex.bill)] = none := by
  have hb : InOrder Ex.bill := ⟨by decide +kernel, by decide +kernel, by decide +kernel, by decide +kernel⟩
  have hm : InOrder Ex.moved := ⟨by decide +kernel, by decide +kernel, by decide +kernel, by decide +kernel⟩
  constructor
  · exact (C101_recognised_iff o o' Ex.edited Ex.bill Ex.bill_kept.1 hb (by unfold AllKnown; decide +kernel)).1.2
      ⟨by decide +kernel, by decide +kernel, by decide +kernel⟩
  · rw [← Option.not_isSome_iff_eq_none, (C101_recognised_iff o o' Ex.moved Ex.bill hm hb (by unfold AllKnown; decide +kernel)).1]
    intro h
    exact absurd h.together (by decide +kernel)

end Verif
