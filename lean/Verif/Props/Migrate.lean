import Verif.Props.Return
import Verif.Props.Status
import Verif.Props.PdfStatements
import Verif.Proofs.Rename

/-!
# C109: a journal with fingerprints of an older version

The option `--include-legacy-fingerprint` (/repo/src/importers/nationwide_csv.rs:48-50, /repo/src/importers/paypal_csv.rs:38-40) gives each posting
the fingerprint of an older version besides the new one. Here is what it is good for: one merge of a file that has both moves a journal over, and
from then on files without the older ones are recognised.
-/

namespace Verif.Spec
open Verif Book

/-- The transactions of one file, posting for posting, in another one that knows at least their fingerprints. -/
def KnowsMore (A B : List TransactionPostings) : Prop :=
  List.Forall₂ (fun t u => List.Forall₂ (fun p q => ∀ f ∈ fps p, f ∈ fps q) t.posts u.posts) A B

/-- The fingerprints that the one file has more than the other one are not in the journal. -/
def RestNew (A B js : List TransactionPostings) : Prop :=
  List.Forall₂ (fun t u => List.Forall₂ (fun p q => ∀ f ∈ fps q, f ∉ fps p → ∀ x ∈ allPosts js, f ∉ fps x) t.posts u.posts) A B

/-- Posting for posting, the second file has the fingerprints of the first one and at most one more. -/
def OneMore (A B : List TransactionPostings) : Prop :=
  List.Forall₂ (fun t u => List.Forall₂ (fun p q => (∀ f ∈ fps p, f ∈ fps q) ∧ ∃ l, ∀ f ∈ fps q, f ∈ fps p ∨ f = l) t.posts u.posts) A B

end Verif.Spec

namespace Verif
open Spec Spec.Book

/-! ### Files with more fingerprints -/

theorem knowsMore_posts {A B : List TransactionPostings} (h : KnowsMore A B) :
    List.Forall₂ (fun p q => ∀ f ∈ fps p, f ∈ fps q) (allPosts A) (allPosts B) := forall₂_allPosts h

theorem index_eq {A : List TransactionPostings} (hA : InOrder A) {i j : Nat} {p : PostingInternal} (hi : (allPosts A)[i]? = some p)
    (hj : (allPosts A)[j]? = some p) : i = j := by
  obtain ⟨hi', e⟩ := List.getElem?_eq_some_iff.1 hi
  obtain ⟨hj', e'⟩ := List.getElem?_eq_some_iff.1 hj
  exact (List.Nodup.getElem_inj_iff (inOrder_nodup hA)).1 (e.trans e'.symm)

theorem forall₂_left {α β : Type} {R : α → β → Prop} {l : List α} {l' : List β} (h : List.Forall₂ R l l') {i : Nat} {a : α}
    (ha : l[i]? = some a) : ∃ b, l'[i]? = some b ∧ R a b := forall₂_getElem? h.flip ha

/-- What has fewer fingerprints is in order too, as long as it has some. -/
theorem inOrder_fewer {A B : List TransactionPostings} (h : KnowsMore A B) (hB : InOrder B) (hm : ∀ p ∈ allPosts A, fps p ≠ [])
    (hc : ∀ p ∈ allPosts A, ∀ tag ∈ tagsOf p, ¬ IsCand tag) : InOrder A := by
  refine ⟨?_, hc, hm, ?_⟩
  · intro t ht he
    obtain ⟨i, hi⟩ := List.mem_iff_getElem?.1 ht
    obtain ⟨u, hu, hr⟩ := forall₂_left h hi
    rw [he] at hr
    have hx := hB.nonempty u (List.mem_of_getElem? hu)
    cases hp : u.posts with
    | nil => exact hx hp
    | cons a l => rw [hp] at hr; cases hr
  · rw [List.pairwise_iff_getElem]
    rintro i j hi hj hij ⟨f, h1, h2⟩
    obtain ⟨p, hp, hm⟩ := forall₂_left (knowsMore_posts h) (List.getElem?_eq_getElem hi)
    obtain ⟨q, hq, hm'⟩ := forall₂_left (knowsMore_posts h) (List.getElem?_eq_getElem hj)
    have e := inOrder_same hB (List.mem_of_getElem? hp) (List.mem_of_getElem? hq) ⟨f, hm f h1, hm' f h2⟩
    subst e
    have := index_eq hB hp hq
    omega

/-- What is found with more fingerprints is found with fewer ones. -/
theorem keeps_fewer {A B js : List TransactionPostings} (h : KnowsMore A B) (hB : InOrder B) (hk : Keeps B js) : Keeps A js := by
  refine ⟨fun t ht => ?_, ?_⟩
  · obtain ⟨i, hi⟩ := List.mem_iff_getElem?.1 ht
    obtain ⟨u, hu, hr⟩ := forall₂_left h hi
    obtain ⟨x, hx, hq⟩ := hk.together u (List.mem_of_getElem? hu)
    refine ⟨x, hx, fun p hp => ?_⟩
    obtain ⟨k, hpk⟩ := List.mem_iff_getElem?.1 hp
    obtain ⟨b, hb, hf⟩ := forall₂_left hr hpk
    obtain ⟨q, hqx, hfq⟩ := hq b (List.mem_of_getElem? hb)
    exact ⟨q, hqx, fun f hfp => hfq f (hf f hfp)⟩
  · rintro p hp p' hp' q hq ⟨f, h1, h2⟩ ⟨f', h3, h4⟩
    obtain ⟨i, hi⟩ := List.mem_iff_getElem?.1 hp
    obtain ⟨j, hj⟩ := List.mem_iff_getElem?.1 hp'
    obtain ⟨b, hb, hf⟩ := forall₂_left (knowsMore_posts h) hi
    obtain ⟨b', hb', hf'⟩ := forall₂_left (knowsMore_posts h) hj
    have e := hk.apart b (List.mem_of_getElem? hb) b' (List.mem_of_getElem? hb') q hq ⟨f, h1, hf f h2⟩ ⟨f', h3, hf' f' h4⟩
    subst e
    have e := index_eq hB hb hb'
    subst e
    rw [hi] at hj
    exact Option.some.inj hj

/-- A file is recognised by the older fingerprints that it has. -/
theorem recognised_more {old both js : List TransactionPostings} (h : KnowsMore old both) (hn : RestNew old both js) (ho : InOrder old)
    (hj : InOrder js) (hk : Keeps old js) : Recognised both js ∧ AllKnown both js := by
  have hr := keeps_recognised ho.marked hj hk
  have hold : ∀ {i : Nat} {p b q : PostingInternal}, (allPosts old)[i]? = some p → (allPosts both)[i]? = some b → q ∈ allPosts js → SharesFp q b →
      SharesFp q p := by
    rintro i p b q hp hb hq ⟨f, h1, h2⟩
    obtain ⟨p', hp', hx⟩ := forall₂_getElem? (forall₂_allPosts hn) hb
    rw [hp] at hp'
    cases hp'
    exact ⟨f, h1, Classical.byContradiction fun hno => hx f h2 hno q hq h1⟩
  have back : ∀ {b : PostingInternal}, b ∈ allPosts both → ∃ (i : Nat) (p : PostingInternal), (allPosts old)[i]? = some p ∧
      (allPosts both)[i]? = some b ∧ ∀ f ∈ fps p, f ∈ fps b := by
    intro b hb
    obtain ⟨i, hi⟩ := List.mem_iff_getElem?.1 hb
    obtain ⟨p, hp, hf⟩ := forall₂_getElem? (knowsMore_posts h) hi
    exact ⟨i, p, hp, hi, hf⟩
  have share : ∀ {p b q : PostingInternal}, p ∈ allPosts old → (∀ f ∈ fps p, f ∈ fps b) → (∀ f ∈ fps p, f ∈ fps q) → SharesFp q b := by
    intro p b q hp h1 h2
    obtain ⟨f, hf⟩ := List.exists_mem_of_ne_nil _ (ho.marked p hp)
    exact ⟨f, h2 f hf, h1 f hf⟩
  have htog : ∀ t ∈ both, ∃ u ∈ js, ∀ p ∈ t.posts, ∃ q ∈ u.posts, SharesFp q p := by
    intro t ht
    obtain ⟨i, hi⟩ := List.mem_iff_getElem?.1 ht
    obtain ⟨t0, ht0, hr⟩ := forall₂_getElem? h hi
    obtain ⟨u, hu, hq⟩ := hk.together t0 (List.mem_of_getElem? ht0)
    refine ⟨u, hu, fun b hb => ?_⟩
    obtain ⟨k, hbk⟩ := List.mem_iff_getElem?.1 hb
    obtain ⟨p, hp, hf⟩ := forall₂_getElem? hr hbk
    obtain ⟨q, hqu, hfq⟩ := hq p (List.mem_of_getElem? hp)
    exact ⟨q, hqu, share (mem_allPosts.2 ⟨t0, List.mem_of_getElem? ht0, List.mem_of_getElem? hp⟩) hf hfq⟩
  refine ⟨⟨htog, ?_, ?_⟩, ?_⟩
  · intro b hb q hq q' hq' h1 h2
    obtain ⟨i, p, hp, hbi, _⟩ := back hb
    exact hr.one p (List.mem_of_getElem? hp) q hq q' hq' (hold hp hbi hq h1) (hold hp hbi hq' h2)
  · intro b hb b' hb' q hq h1 h2
    obtain ⟨i, p, hp, hbi, _⟩ := back hb
    obtain ⟨j, p', hp', hbj, _⟩ := back hb'
    have e := hk.apart p (List.mem_of_getElem? hp) p' (List.mem_of_getElem? hp') q hq (hold hp hbi hq h1) (hold hp' hbj hq h2)
    subst e
    have e := index_eq ho hp hp'
    subst e
    rw [hbi] at hbj
    exact Option.some.inj hbj
  · intro b hb
    obtain ⟨t, ht, hbt⟩ := mem_allPosts.1 hb
    obtain ⟨u, hu, hq⟩ := htog t ht
    obtain ⟨q, hqu, hs⟩ := hq b hbt
    exact ⟨q, mem_allPosts.2 ⟨u, hu, hqu⟩, hs⟩

/-! ### C109 -/

/-- **C109.** The transactions `old` can be found in a journal by their fingerprints. A file has them with more fingerprints, none of which are in
the journal, and could be merged alone. Merging it succeeds and hands back nothing, and the journal that comes of it has the transactions of the
journal before, with the postings of the file brought in; so it has all fingerprints of the file, those of one posting on one posting. -/
theorem C109_first (old both js : List TransactionPostings) (hj : InOrder js) (ho : InOrder old) (hb : InOrder both) (hk : Keeps old js)
    (hm : KnowsMore old both) (hn : RestNew old both js) (o o' : HashOrder) :
    ∃ us, oneRun [(o, js), (o', both)] = some ((broughtInto js both).mergeSort fun a b => (compare (dateOf a) (dateOf b)).isLE, us) ∧
      us.flatten = [] ∧ Keeps both ((broughtInto js both).mergeSort fun a b => (compare (dateOf a) (dateOf b)).isLE) := by
  obtain ⟨hr, ha⟩ := recognised_more hm hn ho hj hk
  obtain ⟨h1, h2⟩ := C101_recognised_iff o o' js both hj hb ha
  obtain ⟨⟨j, us⟩, hx⟩ := Option.isSome_iff_exists.1 (h1.2 hr)
  obtain ⟨e, e'⟩ := h2 _ hx
  simp only at e e'
  subst e
  exact ⟨us, hx, e', (C101_keeps _ _ _ hx e' both (List.mem_cons_of_mem _ List.mem_cons_self)).2⟩

/-- **C109: afterwards.** Later the journal may be edited by hand, as long as fingerprints are kept together and apart. A file with the same
transactions that has none of the older fingerprints is merged then: it is found, nothing is handed back, and nothing is there twice. -/
theorem C109_later (js both new : List TransactionPostings) (hn : InOrder new) (hm : KnowsMore new both) (o o' : HashOrder)
    (j : List TransactionPostings) (us : List (List TransactionPostings)) (h : oneRun [(o, js), (o', both)] = some (j, us)) (hu : us.flatten = [])
    (js' : List TransactionPostings) (hj : InOrder js') (hk : Keeps j js') (o₁ o₂ : HashOrder) :
    ∃ us', oneRun [(o₁, js'), (o₂, new)] = some ((broughtInto js' new).mergeSort fun a b => (compare (dateOf a) (dateOf b)).isLE, us') ∧
      us'.flatten = [] := by
  obtain ⟨h1, h2⟩ := C101_keeps _ _ _ h hu both (List.mem_cons_of_mem _ List.mem_cons_self)
  exact C101_found o₁ js' [(o₂, new)] hj (by
    intro g hg
    obtain rfl := List.mem_singleton.1 hg
    exact ⟨hn, (keeps_fewer hm h1 h2).trans hn.marked hk⟩)

/-- Journals that were made by merging can be merged alone. -/
theorem oneRun_inOrder {calls : History} {j : List TransactionPostings} {us : List (List TransactionPostings)} (h : oneRun calls = some (j, us)) :
    InOrder j := by
  have hb : ¬ Refused Book.empty (inputs calls) := by
    intro hb
    rw [oneRun_refused hb] at h
    cases h
  obtain ⟨us', h1, _⟩ := oneRun_all hb
  rw [h] at h1
  cases h1
  have hp : Populated Book.empty := by intro t ht; cases ht
  obtain ⟨m, hm, _⟩ := reread (reached_calls reached_empty hb).wf (populated_of_calls reached_empty hp hb) HashOrder.sorted
  exact (inOrder_iff HashOrder.sorted).2 (by rw [show bookAfter (inputs calls) = (inputs calls).foldl Book.after Book.empty from rfl, hm])

/-! ### Importers -/

/-- With at most one more fingerprint for each posting, those of the journal are the older ones if they are not the new ones. -/
theorem restNew_of {old both new js : List TransactionPostings} (hm : KnowsMore old both) (hone : OneMore new both)
    (ho : ∀ p ∈ allPosts old, fps p ≠ []) (hk : Keeps old js) (hfree : ∀ q ∈ allPosts js, ∀ p ∈ allPosts new, ¬ SharesFp q p) :
    RestNew old both js := by
  refine List.forall₂_iff_get.2 ⟨hm.length_eq, fun i hi hi' => List.forall₂_iff_get.2 ⟨((List.forall₂_iff_get.1 hm).2 i hi hi').length_eq,
    fun k hk1 hk2 f hf hno q hq hfq => ?_⟩⟩
  have hin : i < new.length := by rw [hone.length_eq]; exact hi'
  have h1 := (List.forall₂_iff_get.1 hm).2 i hi hi'
  have h2 := (List.forall₂_iff_get.1 hone).2 i hin hi'
  have hkn : k < (new.get ⟨i, hin⟩).posts.length := by rw [h2.length_eq]; exact hk2
  have h3 := (List.forall₂_iff_get.1 h1).2 k hk1 hk2
  obtain ⟨h4, l, h5⟩ := (List.forall₂_iff_get.1 h2).2 k hkn hk2
  have hn : (new.get ⟨i, hin⟩).posts.get ⟨k, hkn⟩ ∈ allPosts new := mem_allPosts.2 ⟨_, List.get_mem .., List.get_mem ..⟩
  rcases h5 f hf with h | rfl
  · exact hfree q hq _ hn ⟨f, hfq, h⟩
  · obtain ⟨u, hu, hq⟩ := hk.together (old.get ⟨i, hi⟩) (List.get_mem ..)
    obtain ⟨q', hq', hff⟩ := hq _ (List.get_mem (old.get ⟨i, hi⟩).posts ⟨k, hk1⟩)
    obtain ⟨g, hg⟩ := List.exists_mem_of_ne_nil _ (ho _ (mem_allPosts.2 ⟨_, List.get_mem .., List.get_mem (old.get ⟨i, hi⟩).posts ⟨k, hk1⟩⟩))
    rcases h5 g (h3 g hg) with h | rfl
    · exact hfree q' (mem_allPosts.2 ⟨u, hu, hq'⟩) _ hn ⟨g, hff g hg, h⟩
    · exact hno hg

theorem oneMore_knows {A B : List TransactionPostings} (h : OneMore A B) : KnowsMore A B := h.imp fun _ _ h => h.imp fun _ _ h => h.1

namespace NationwideCsv
open Nationwide

theorem mem_fps_ofPosting {x : Posting} {f : Str} : f ∈ fps (PostingInternal.ofPosting x) ↔ f ∈ (Comment.fromOptComment x.comment).tags ∧ IsFp f :=
  mem_fps_iff

/-- **C109, Nationwide CSV.** A file that is imported with the option is imported without it, with the same fingerprints but at most one for each
posting. -/
theorem C109_nationwide_import {L : ImportLib} {fpNs : FpNamespace} {records : List (Option Row)} {both : Import}
    (h : getTransactions L fpNs true records = .ok both) (hpl : PlainFields records) :
    ∃ new, getTransactions L fpNs false records = .ok new ∧ OneMore new.postings both.postings := by
  obtain ⟨new, h'⟩ := (C45_accepted L fpNs false records).2 ((C45_accepted L fpNs true records).1 ⟨both, h⟩)
  refine ⟨new, h', ?_⟩
  obtain ⟨account, columns, rows, hs, _, hc⟩ := (getTransactions_iff ..).1 h
  obtain ⟨hacc, hrows⟩ := shape_plain hs hpl
  have hcol : columns = fiveColumns ∨ columns = sixColumns := hc.imp And.left And.left
  clear hc
  have build : new.transactions.length = both.transactions.length → (∀ (i : Nat) (t u : Transaction), new.transactions[i]? = some t →
      both.transactions[i]? = some u → t.postings.length = u.postings.length ∧ ∀ (a : Nat) (x y : Posting), t.postings[a]? = some x →
        u.postings[a]? = some y → (∀ f ∈ fps (PostingInternal.ofPosting x), f ∈ fps (PostingInternal.ofPosting y)) ∧
          ∃ l, ∀ f ∈ fps (PostingInternal.ofPosting y), f ∈ fps (PostingInternal.ofPosting x) ∨ f = l) → OneMore new.postings both.postings := by
    intro hl hx
    unfold OneMore Import.postings
    refine List.forall₂_iff_get.2 ⟨by rw [List.length_map, List.length_map, hl], fun i hi hi' => ?_⟩
    rw [List.length_map] at hi hi'
    rw [List.get_eq_getElem, List.get_eq_getElem, List.getElem_map, List.getElem_map]
    obtain ⟨hl2, hy⟩ := hx i new.transactions[i] both.transactions[i] (List.getElem?_eq_getElem hi) (List.getElem?_eq_getElem hi')
    show List.Forall₂ _ (List.map _ _) (List.map _ _)
    refine List.forall₂_iff_get.2 ⟨(List.length_map _).trans (hl2.trans (List.length_map _).symm), fun a ha ha' => ?_⟩
    rw [List.length_map] at ha ha'
    rw [List.get_eq_getElem, List.get_eq_getElem, List.getElem_map, List.getElem_map]
    exact hy a _ _ (List.getElem?_eq_getElem ha) (List.getElem?_eq_getElem ha')
  rcases hcol with rfl | rfl
  · obtain ⟨hn, hl, rs, hlr, hr⟩ := C45_five h hs
    obtain ⟨hn', hl', rs', hlr', hr'⟩ := C45_five h' hs
    have hns : both.userFpNamespace = new.userFpNamespace := by rw [hn] at hn'; exact Except.ok.inj hn'
    obtain rfl : rs' = rs := List.ext_getElem (by omega) fun i h1 h2 => by
      obtain ⟨row, e, r1⟩ := (hr i h2).1
      obtain ⟨row', e', r2⟩ := (hr' i h1).1
      rw [e] at e'
      cases e'
      rw [← fiveRow_iff] at r1 r2
      rw [r1] at r2
      exact (Option.some.inj r2).symm
    refine build (by omega) fun i t u et eu => ?_
    have hi : i < rs'.length := by have := (List.getElem?_eq_some_iff.1 et).1; omega
    have hg : GoodNamespace both.userFpNamespace := (good_of_row h hs).resolve_left (by rintro rfl; rw [hlr] at hi; cases hi)
    obtain ⟨⟨row, er, hrow⟩, u', eu', hu⟩ := hr i hi
    obtain ⟨_, t', et', ht⟩ := hr' i hi
    rw [et] at et'; cases et'
    rw [eu] at eu'; cases eu'
    have hnl : '\n' ∉ rs'[i].transactions ∧ '\n' ∉ rs'[i].location := by
      obtain ⟨d, o, i', _, rfl, _⟩ := hrow
      have := hrows _ (List.mem_of_getElem? er)
      simp only [List.forall_mem_cons] at this
      exact ⟨this.2.1.2, this.2.2.1.2⟩
    refine ⟨?_, fun a x y hx hy => ?_⟩
    · obtain ⟨_, _, _, _, a1, _⟩ := hu
      obtain ⟨_, _, _, _, a2, _⟩ := ht
      rw [a1.postings, a2.postings]
      rfl
    · obtain ⟨s, e1, k1⟩ := five_read ht (hns ▸ hg) hacc hnl.1 hnl.2 hx
      obtain ⟨s', e2, k2⟩ := five_read hu hg hacc hnl.1 hnl.2 hy
      obtain rfl : s = s' := index_inj (e1.symm.trans e2)
      rw [← hns] at k1
      refine ⟨fun f hf => ?_, [], fun f hf => .inl ?_⟩
      · rw [mem_fps_ofPosting] at hf ⊢
        exact ⟨(k2 f hf.2).2 ((k1 f hf.2).1 hf.1), hf.2⟩
      · rw [mem_fps_ofPosting] at hf ⊢
        exact ⟨(k1 f hf.2).2 ((k2 f hf.2).1 hf.1), hf.2⟩
  · obtain ⟨hn, hl, rs, hlr, hr⟩ := C45_six h hs
    obtain ⟨hn', hl', rs', hlr', hr'⟩ := C45_six h' hs
    have hns : both.userFpNamespace = new.userFpNamespace := by rw [hn] at hn'; exact Except.ok.inj hn'
    obtain rfl : rs' = rs := List.ext_getElem (by omega) fun i h1 h2 => by
      obtain ⟨row, e, r1⟩ := (hr i h2).1
      obtain ⟨row', e', r2⟩ := (hr' i h1).1
      rw [e] at e'
      cases e'
      rw [← sixRow_iff] at r1 r2
      rw [r1] at r2
      exact (Option.some.inj r2).symm
    refine build (by omega) fun i t u et eu => ?_
    have hi : i < rs'.length := by have := (List.getElem?_eq_some_iff.1 et).1; omega
    have hg : GoodNamespace both.userFpNamespace := (good_of_row h hs).resolve_left (by rintro rfl; rw [hlr] at hi; cases hi)
    obtain ⟨⟨row, er, hrow⟩, u', eu', hu⟩ := hr i hi
    obtain ⟨_, t', et', ht⟩ := hr' i hi
    rw [et] at et'; cases et'
    rw [eu] at eu'; cases eu'
    have hnl : '\n' ∉ rs'[i].type_ := by
      obtain ⟨date, out, inn, bal, rest, rfl, _⟩ := hrow
      exact (hrows _ (List.mem_of_getElem? er) rs'[i].type_ (by simp)).2
    refine ⟨?_, fun a x y hx hy => ?_⟩
    · obtain ⟨_, _, _, _, a1, _⟩ := hu
      obtain ⟨_, _, _, _, a2, _⟩ := ht
      rw [a1.postings, a2.postings]
      rfl
    · obtain ⟨s, amt, e1, _, k1⟩ := six_read ht (hns ▸ hg) hacc hnl hx
      obtain ⟨s', amt', e2, _, k2⟩ := six_read hu hg hacc hnl hy
      obtain rfl : s = s' := index_inj (e1.symm.trans e2)
      rw [← hns] at k1
      refine ⟨fun f hf => ?_, (Side.pick (sixLegacyFp L rs'[i] both.userFpNamespace (sinceChange (List.map RecordSix.date rs') i)
        (selfAndPeerAccountAmount amt' ownAccount)).self (sixLegacyFp L rs'[i] both.userFpNamespace (sinceChange (List.map RecordSix.date rs') i)
        (selfAndPeerAccountAmount amt' ownAccount)).peer s).legacyTag, fun f hf => ?_⟩
      · rw [mem_fps_ofPosting] at hf ⊢
        exact ⟨(k2 f hf.2).2 (.inl (((k1 f hf.2).1 hf.1).resolve_right fun h => Bool.noConfusion h.1)), hf.2⟩
      · rw [mem_fps_ofPosting] at hf
        rcases (k2 f hf.2).1 hf.1 with e | e
        · exact .inl (mem_fps_ofPosting.2 ⟨(k1 f hf.2).2 (.inl e), hf.2⟩)
        · exact .inr e.2

/-- An imported file is in order if no two of its postings share a fingerprint. -/
theorem imported_inOrder {L : ImportLib} {fpNs : FpNamespace} {legacy : Bool} {records : List (Option Row)} {imp : Import}
    (h : getTransactions L fpNs legacy records = .ok imp) (hpl : PlainFields records) (hd : DistinctFingerprints imp.transactions) :
    InOrder imp.postings :=
  (inOrder_iff HashOrder.sorted).2 ((C47_nationwide_csv_merge h hpl HashOrder.sorted).2 hd)

/-- **C109, Nationwide CSV.** A journal has the transactions of a file with other fingerprints than those that are made now. The file is imported with
the option for older fingerprints, no two of its postings share one, and the fingerprints in the journal are among them. It is merged with nothing
handed back, and all its fingerprints are in the journal. From then on, also if the journal is edited by hand, the file can be merged without the
option, with nothing handed back. -/
theorem C109_nationwide {L : ImportLib} {fpNs : FpNamespace} {records : List (Option Row)} {both : Import}
    (h : getTransactions L fpNs true records = .ok both) (hpl : PlainFields records) (hd : DistinctFingerprints both.transactions)
    (old js : List TransactionPostings) (hj : InOrder js) (ho : InOrder old) (hk : Keeps old js) (hm : KnowsMore old both.postings) :
    ∃ new, getTransactions L fpNs false records = .ok new ∧ ((∀ q ∈ allPosts js, ∀ p ∈ allPosts new.postings, ¬ SharesFp q p) →
      ∀ o o', ∃ j us, oneRun [(o, js), (o', both.postings)] = some (j, us) ∧ us.flatten = [] ∧
        j = (broughtInto js both.postings).mergeSort (fun a b => (compare (dateOf a) (dateOf b)).isLE) ∧ InOrder j ∧
        Keeps both.postings j ∧
        ∀ js', InOrder js' → Keeps j js' → ∀ o₁ o₂, ∃ us', oneRun [(o₁, js'), (o₂, new.postings)] =
          some ((broughtInto js' new.postings).mergeSort fun a b => (compare (dateOf a) (dateOf b)).isLE, us') ∧ us'.flatten = []) := by
  obtain ⟨new, h', hone⟩ := C109_nationwide_import h hpl
  refine ⟨new, h', fun hfree o o' => ?_⟩
  have hb := imported_inOrder h hpl hd
  obtain ⟨us, h1, h2, h3⟩ := C109_first old both.postings js hj ho hb hk hm (restNew_of hm hone ho.marked hk hfree) o o'
  have hnew : InOrder new.postings := by
    refine inOrder_fewer (oneMore_knows hone) hb ?_ ?_
    · intro p hp he
      obtain ⟨t, ht, hpt⟩ := mem_allPosts.1 hp
      obtain ⟨t', ht', p', hp', rfl⟩ := import_post ht hpt
      obtain ⟨f, hf, hfp⟩ := C47_nationwide_csv h' ht' hp'
      have : f ∈ fps (PostingInternal.ofPosting p') := mem_fps_ofPosting.2 ⟨hf, hfp⟩
      rw [he] at this
      cases this
    · intro p hp c hc
      obtain ⟨t, ht, hpt⟩ := mem_allPosts.1 hp
      obtain ⟨t', ht', p', hp', rfl⟩ := import_post ht hpt
      rcases (import_tags h' hpl ht').2 p' hp' c hc with hf | hf
      · exact fp_not_cand hf
      · exact fixed_not_cand c hf
  exact ⟨_, us, h1, h2, rfl, oneRun_inOrder h1, h3, fun js' hj' hk' o₁ o₂ =>
    C109_later js both.postings new.postings hnew (oneMore_knows hone) o o' _ us h1 h2 js' hj' hk' o₁ o₂⟩

/-- A file as an older version imported it: with the fingerprints of `both` that are not in `new`. -/
def Ex.older (new both : List TransactionPostings) : List TransactionPostings :=
  List.zipWith (fun t u => ⟨u.trn, List.zipWith (fun p q => ⟨q.raw, { q.comment with tags := q.comment.tags.filter fun f => !decide (f ∈ fps p) }⟩)
    t.posts u.posts⟩) new both

set_option maxRecDepth 100000 in
/-- The file of the test with six columns, into a journal that an older version made of it. -/
example : ∃ both old, getTransactions Ex.plainLib .generated true Ex.file6 = .ok both ∧ PlainFields Ex.file6 ∧
    DistinctFingerprints both.transactions ∧ InOrder old ∧ Keeps old old ∧ KnowsMore old both.postings ∧
    ∃ new, getTransactions Ex.plainLib .generated false Ex.file6 = .ok new ∧
      (∀ q ∈ allPosts old, ∀ p ∈ allPosts new.postings, ¬ SharesFp q p) ∧ old.length = 3 := by
  have key : (match getTransactions Ex.plainLib .generated true Ex.file6, getTransactions Ex.plainLib .generated false Ex.file6 with
    | .ok both, .ok new => decide ((Merger.new.merge HashOrder.sorted both.postings).1 = .ok [] ∧
        (Merger.new.merge HashOrder.sorted (Ex.older new.postings both.postings)).1 = .ok [] ∧
        (∀ q ∈ allPosts (Ex.older new.postings both.postings), ∀ p ∈ allPosts new.postings, ¬ SharesFp q p) ∧
        (Ex.older new.postings both.postings).length = 3 ∧
        List.Forall₂ (fun t u => List.Forall₂ (fun p q => ∀ f ∈ fps p, f ∈ fps q) t.posts u.posts) (Ex.older new.postings both.postings) both.postings)
    | _, _ => false) = true := by decide +kernel
  have hpl : PlainFields Ex.file6 := by unfold PlainFields; decide +kernel
  split at key
  swap
  · cases key
  rename_i both new e e'
  obtain ⟨k1, k2, k3, k4, k5⟩ := of_decide_eq_true key
  have ho := (inOrder_iff HashOrder.sorted).2 k2
  refine ⟨both, _, e, hpl, (C47_nationwide_csv_merge e hpl HashOrder.sorted).1 k1, ho, ?_, k5, new, e', k3, k4⟩
  exact ⟨fun t ht => ⟨t, ht, fun p hp => ⟨p, hp, fun f hf => hf⟩⟩, fun p hp p' hp' q hq h1 h2 =>
    (inOrder_same ho hq hp h1).symm.trans (inOrder_same ho hq hp' h2)⟩

/-- Two withdrawals of the same amount on one day. -/
def Ex.twins6 : List (Option Row) := Ex.rows
  [["Account Name:", "Current"], ["Account Balance:", "£150.00"], ["Available Balance:", "£150.00"],
   ["Date", "Transaction type", "Description", "Paid out", "Paid in", "Balance"],
   ["01 Jan 2019", "ATM", "High Street", "£30.00", "", "£170.00"],
   ["01 Jan 2019", "ATM", "Station", "£30.00", "", "£140.00"]]

set_option maxRecDepth 100000 in
/-- **C109: what the option is good for.** A journal has two withdrawals of the same amount on one day, as an older version imported them. If the file
is merged without the option both are handed back; with it neither is, and both have the new fingerprints. -/
theorem C109_without : ∃ both new j j' us us', getTransactions Ex.plainLib .generated true Ex.twins6 = .ok both ∧
    getTransactions Ex.plainLib .generated false Ex.twins6 = .ok new ∧
    oneRun [(HashOrder.sorted, Ex.older new.postings both.postings), (HashOrder.sorted, new.postings)] = some (j, us) ∧ us.flatten.length = 2 ∧
    oneRun [(HashOrder.sorted, Ex.older new.postings both.postings), (HashOrder.sorted, both.postings)] = some (j', us') ∧ us'.flatten = [] ∧
    (∀ p ∈ allPosts new.postings, ∃ q ∈ allPosts j', SharesFp q p) := by
  have key : (match getTransactions Ex.plainLib .generated true Ex.twins6, getTransactions Ex.plainLib .generated false Ex.twins6 with
    | .ok both, .ok new =>
      (match oneRun [(HashOrder.sorted, Ex.older new.postings both.postings), (HashOrder.sorted, new.postings)],
        oneRun [(HashOrder.sorted, Ex.older new.postings both.postings), (HashOrder.sorted, both.postings)] with
      | some (_, us), some (j', us') => decide (us.flatten.length = 2 ∧ us'.flatten = [] ∧
          ∀ p ∈ allPosts new.postings, ∃ q ∈ allPosts j', SharesFp q p)
      | _, _ => false)
    | _, _ => false) = true := by
    unfold oneRun
    simp only [Ex.build_eval]
    decide +kernel
  split at key
  swap
  · cases key
  rename_i both new e e'
  split at key
  swap
  · cases key
  rename_i j us j' us' r r'
  obtain ⟨k1, k2, k3⟩ := of_decide_eq_true key
  exact ⟨both, new, j, j', us, us', e, e', r, k1, r', k2, k3⟩

end NationwideCsv

namespace PaypalCsv
open NationwideCsv

theorem group_more {L : ImportLib} {tz : TzAbbr.DB} {ns : Str} {g : List RawRecord} {t t' : Transaction}
    (h : GroupSays L tz ns false g t) (h' : GroupSays L tz ns true g t') (hg : GoodNamespace ns)
    (hv : ∀ v ∈ g, (∀ n, v.name = some n → '\n' ∉ n) ∧ '\n' ∉ v.type_ ∧ ∀ n, v.receiptId = some n → '\n' ∉ n) :
    List.Forall₂ (fun p q => (∀ f ∈ fps p, f ∈ fps q) ∧ ∃ l, ∀ f ∈ fps q, f ∈ fps p ∨ f = l)
      (TransactionPostings.ofTransaction t).posts (TransactionPostings.ofTransaction t').posts := by
  obtain ⟨dt, d, before, after, v, pairs, _, _, _, _, hts, hlen, hps⟩ := h
  obtain ⟨dt', d', before', after', v', pairs', _, _, _, _, hts', hlen', hps'⟩ := h'
  show List.Forall₂ _ (t.postings.map _) (t'.postings.map _)
  rw [hts.postings, hts'.postings]
  refine forall₂_pairs (by omega) fun i hi hi' => ?_
  have hig : i < g.length := by omega
  have a := fun f => pair_tags (hps i hig hi) hg (hv _ (List.getElem_mem hig)) f
  have b := fun f => pair_tags (hps' i hig hi') hg (hv _ (List.getElem_mem hig)) f
  refine ⟨⟨fun f hf => ?_, (fingerprints L ns g[i] i).self.legacyTag, fun f hf => ?_⟩,
    fun f hf => ?_, (fingerprints L ns g[i] i).peer.legacyTag, fun f hf => ?_⟩
  · rw [mem_fps_ofPosting] at hf ⊢
    refine ⟨(b f).1.2 ?_, hf.2⟩
    rcases (a f).1.1 hf.1 with e | e | e
    · exact .inl e
    · exact Bool.noConfusion e.1
    · exact .inr (.inr e)
  · rw [mem_fps_ofPosting] at hf
    rcases (b f).1.1 hf.1 with e | e | e
    · exact .inl (mem_fps_ofPosting.2 ⟨(a f).1.2 (.inl e), hf.2⟩)
    · exact .inr e.2
    · exact .inl (mem_fps_ofPosting.2 ⟨(a f).1.2 (.inr (.inr e)), hf.2⟩)
  · rw [mem_fps_ofPosting] at hf ⊢
    refine ⟨(b f).2.2 ?_, hf.2⟩
    rcases (a f).2.1 hf.1 with e | e
    · exact Bool.noConfusion e.1
    · exact .inr e
  · rw [mem_fps_ofPosting] at hf
    rcases (b f).2.1 hf.1 with e | e
    · exact .inr e.2
    · exact .inl (mem_fps_ofPosting.2 ⟨(a f).2.2 (.inr e), hf.2⟩)

/-- **C109, PayPal.** A file that is imported with the option is imported without it, with the same fingerprints but at most one for each posting. -/
theorem C109_paypal_import {L : ImportLib} {ns : Str} {headers : Option Row} {rows : List (Option Row)}
    {tzRecords : List (Option TzAbbr.Record)} {both : Import} (h : getTransactions L ns true headers rows tzRecords = .ok both) (hp : NoNewlines rows) :
    ∃ new, getTransactions L ns false headers rows tzRecords = .ok new ∧ OneMore new.postings both.postings := by
  obtain ⟨new, h'⟩ := (C50_accepted L ns false headers rows tzRecords).2 ((C50_accepted L ns true headers rows tzRecords).1 ⟨both, h⟩)
  refine ⟨new, h', ?_⟩
  obtain ⟨hs, tz, rfl, htz, _⟩ := (getTransactions_iff ..).1 h
  obtain ⟨_, vs, gs, c1, c2, c3⟩ := C50_groups h htz
  obtain ⟨_, vs', gs', d1, d2, d3⟩ := C50_groups h' htz
  obtain rfl := rows_unique c1 d1
  obtain rfl := c2.unique d2
  unfold OneMore Import.postings
  refine List.forall₂_iff_get.2 ⟨by rw [List.length_map, List.length_map, ← c3.length_eq, ← d3.length_eq], fun i hi hi' => ?_⟩
  rw [List.length_map] at hi hi'
  have hig : i < gs.length := by rw [d3.length_eq]; exact hi
  rw [List.get_eq_getElem, List.get_eq_getElem, List.getElem_map, List.getElem_map]
  have hgood : GoodNamespace ns := (from_group h (t := both.transactions[i]) (List.getElem_mem hi')).1
  have s1 : GroupSays L tz ns true gs[i] both.transactions[i] := (List.forall₂_iff_get.1 c3).2 i hig hi'
  have s2 : GroupSays L tz ns false gs[i] new.transactions[i] := (List.forall₂_iff_get.1 d3).2 i hig hi
  exact group_more s2 s1 hgood fun v hv => rows_plain c1 hp (by
    rw [← c2.flatten]; exact List.mem_flatten.2 ⟨gs[i], List.getElem_mem hig, hv⟩)

/-- **C109, PayPal.** A journal has the transactions of a file with fingerprints of an older version. The file is imported with the option, no two
of its postings share a fingerprint, and those in the journal are among them. It is merged with nothing handed back, and all its
fingerprints are in the journal. From then on, also if the journal is edited by hand, it can be merged again with the option, with nothing handed back. (Without it merging never succeeds, see
`C47_paypal_false`.) -/
theorem C109_paypal {L : ImportLib} {ns : Str} {headers : Option Row} {rows : List (Option Row)}
    {tzRecords : List (Option TzAbbr.Record)} {both : Import} (h : getTransactions L ns true headers rows tzRecords = .ok both) (hp : NoNewlines rows)
    (hd : DistinctFingerprints both.transactions)
    (old js : List TransactionPostings) (hj : InOrder js) (ho : InOrder old) (hk : Keeps old js) (hm : KnowsMore old both.postings) :
    ∃ new, getTransactions L ns false headers rows tzRecords = .ok new ∧ ((∀ q ∈ allPosts js, ∀ p ∈ allPosts new.postings, ¬ SharesFp q p) →
      ∀ o o', ∃ j us, oneRun [(o, js), (o', both.postings)] = some (j, us) ∧ us.flatten = [] ∧
        j = (broughtInto js both.postings).mergeSort (fun a b => (compare (dateOf a) (dateOf b)).isLE) ∧ InOrder j ∧
        Keeps both.postings j ∧
        ∀ js', InOrder js' → Keeps j js' → ∀ o₁ o₂, ∃ us', oneRun [(o₁, js'), (o₂, both.postings)] =
          some ((broughtInto js' both.postings).mergeSort fun a b => (compare (dateOf a) (dateOf b)).isLE, us') ∧ us'.flatten = []) := by
  obtain ⟨new, h', hone⟩ := C109_paypal_import h hp
  refine ⟨new, h', fun hfree o o' => ?_⟩
  have hb : InOrder both.postings := (inOrder_iff HashOrder.sorted).2 ((C47_paypal_merge h hp HashOrder.sorted).2 (.inr ⟨rfl, hd⟩))
  obtain ⟨us, h1, h2, h3⟩ := C109_first old both.postings js hj ho hb hk hm (restNew_of hm hone ho.marked hk hfree) o o'
  exact ⟨_, us, h1, h2, rfl, oneRun_inOrder h1, h3, fun js' hj' hk' o₁ o₂ =>
    C109_later js both.postings both.postings hb (List.forall₂_same.2 fun _ _ => List.forall₂_same.2 fun _ _ _ hf => hf) o o' _ us h1 h2 js' hj' hk' o₁ o₂⟩

set_option maxRecDepth 100000 in
/-- The file of the test, into a journal that an older version made of it. -/
example : ∃ both old, getTransactions Ex.plainLib "test".toList true (some Ex.paypalHeaders) Ex.paypalRows Ex.paypalTz = .ok both ∧
    NoNewlines Ex.paypalRows ∧ DistinctFingerprints both.transactions ∧ InOrder old ∧ Keeps old old ∧ KnowsMore old both.postings ∧
    ∃ new, getTransactions Ex.plainLib "test".toList false (some Ex.paypalHeaders) Ex.paypalRows Ex.paypalTz = .ok new ∧
      (∀ q ∈ allPosts old, ∀ p ∈ allPosts new.postings, ¬ SharesFp q p) ∧ (allPosts old).length = 16 := by
  have key : (match getTransactions Ex.plainLib "test".toList true (some Ex.paypalHeaders) Ex.paypalRows Ex.paypalTz,
      getTransactions Ex.plainLib "test".toList false (some Ex.paypalHeaders) Ex.paypalRows Ex.paypalTz with
    | .ok both, .ok new => decide ((Merger.new.merge HashOrder.sorted both.postings).1 = .ok [] ∧
        (Merger.new.merge HashOrder.sorted (Ex.older new.postings both.postings)).1 = .ok [] ∧
        (∀ q ∈ allPosts (Ex.older new.postings both.postings), ∀ p ∈ allPosts new.postings, ¬ SharesFp q p) ∧
        (allPosts (Ex.older new.postings both.postings)).length = 16 ∧
        List.Forall₂ (fun t u => List.Forall₂ (fun p q => ∀ f ∈ fps p, f ∈ fps q) t.posts u.posts) (Ex.older new.postings both.postings) both.postings)
    | _, _ => false) = true := by decide +kernel
  have hn : ∀ o ∈ Ex.paypalRows, ∀ row ∈ o, ∀ f ∈ row, '\n' ∉ f := by decide +kernel
  have hpl : NoNewlines Ex.paypalRows := fun row hr => hn _ hr row rfl
  split at key
  swap
  · cases key
  rename_i both new e e'
  obtain ⟨k1, k2, k3, k4, k5⟩ := of_decide_eq_true key
  have ho := (inOrder_iff HashOrder.sorted).2 k2
  refine ⟨both, _, e, hpl, (((C47_paypal_merge e hpl HashOrder.sorted).1 k1).resolve_left (by decide +kernel)).2, ho, ?_, k5, new, e', k3, k4⟩
  exact ⟨fun t ht => ⟨t, ht, fun p hp => ⟨p, hp, fun f hf => hf⟩⟩, fun p hp p' hp' q hq h1 h2 =>
    (inOrder_same ho hq hp h1).symm.trans (inOrder_same ho hq hp' h2)⟩

end PaypalCsv
end Verif
