import Verif.Proofs.Bisim2
import Verif.Examples.Books

/-!
# C20: one run or two runs

Full statement: a posting is soft matched by the date of the transaction that holds it, so that merging in one run, or
in two runs with a journal file in between, gives the same result. `C20_counterexample` shows that this is false.
`C20_partial` is what is true: it holds if no posting has been added to a transaction of another date.
-/

namespace Verif
open Spec Spec.Book Ex

theorem filed_iff {J : Book} : Filed J ↔ ∀ g ∈ J.grp, ∀ x ∈ g.2, x.1 = g.1.raw.date := by
  unfold Filed Spec.Book.grp
  constructor
  · intro hf g hg x hx
    rw [List.mem_mapIdx] at hg
    obtain ⟨k, hk, rfl⟩ := hg
    obtain ⟨r, hr, rfl⟩ := List.mem_map.1 hx
    rw [List.mem_filter, decide_eq_true_iff] at hr
    exact hf r hr.1 _ (by rw [hr.2]; exact List.getElem?_eq_getElem hk)
  · intro hg r hr hdr hh
    have hk : r.trn < J.hdrs.length := by
      by_contra hn
      rw [List.getElem?_eq_none (by omega)] at hh; cases hh
    rw [List.getElem?_eq_getElem hk] at hh
    have := hg (hdr, (J.recs.filter (·.trn = r.trn)).map fun r => (r.date, r.post))
      (by rw [List.mem_mapIdx]; exact ⟨r.trn, hk, by rw [Option.some.inj hh]⟩) (r.date, r.post)
      (List.mem_map.2 ⟨r, by simp [hr], rfl⟩)
    exact this

/-- In each successful call of the history, a transaction that is merged into an existing transaction and adds a posting to
it has the date of that transaction. -/
def KeepsDates : Book → List (List TransactionPostings) → Prop
  | _, [] => True
  | J, ts :: rest =>
    (¬ J.Bad ts → ∀ t ∈ ts, ¬ Undecided J t → (∃ p ∈ t.posts, (J.verdict (dateOf t) p).dest? = none) →
      ∀ i ∈ J.dests t, ∀ r ∈ J.recs[i]?, ∀ hdr ∈ J.hdrs[r.trn]?, hdr.raw.date = dateOf t) ∧
    KeepsDates (J.step ts) rest

theorem filed_after {J : Book} (hw : J.WF) {ts : List TransactionPostings} (hg : Good J ts) (hf : Filed J)
    (hk : ∀ t ∈ ts, ¬ Undecided J t → (∃ p ∈ t.posts, (J.verdict (dateOf t) p).dest? = none) →
      ∀ i ∈ J.dests t, ∀ r ∈ J.recs[i]?, ∀ hdr ∈ J.hdrs[r.trn]?, hdr.raw.date = dateOf t) :
    Filed (J.after ts) := by
  classical
  have hf' := filed_iff.1 hf
  rw [filed_iff, grp_after hw ts (trnsError_none_iff' hg)]
  intro g hgm x hx
  rcases List.mem_append.1 hgm with hgm | hgm
  · obtain ⟨g, hg0, rfl⟩ := List.mem_map.1 hgm
    unfold Spec.Book.grown at hx
    rcases List.mem_append.1 hx with hx | hx
    · obtain ⟨y, hy, rfl⟩ := List.mem_map.1 hx
      exact hf' g hg0 y hy
    · unfold Spec.Book.added at hx
      obtain ⟨t, ht, hx⟩ := List.mem_flatMap.1 hx
      split at hx
      · rename_i hc
        obtain ⟨p, hp, rfl⟩ := List.mem_map.1 hx
        rw [List.mem_filter, decide_eq_true_iff, target_eq_none] at hp
        obtain ⟨hu, q, hq, y, hy, hv⟩ := hc
        obtain ⟨i, r, hvi, hr, rfl⟩ := target_eq_some.1 hv
        unfold Spec.Book.grp at hg0
        rw [List.mem_mapIdx] at hg0
        obtain ⟨k, hkl, rfl⟩ := hg0
        rw [List.map_map] at hy
        obtain ⟨s, hs, he⟩ := List.mem_map.1 hy
        rw [List.mem_filter, decide_eq_true_iff] at hs
        obtain ⟨j, hj⟩ := List.mem_iff_getElem?.1 hs.1
        have := hw.post_inj hj hr he
        subst this
        have hrt : r.trn = k := by
          have hsr : s = r := Option.some.inj (hj.symm.trans hr)
          rw [← hsr]; exact hs.2
        exact (hk t ht hu ⟨p, hp⟩ j (mem_dests.2 ⟨q, hq, hvi⟩) r hr _
          (by rw [hrt]; exact List.getElem?_eq_getElem hkl)).symm
      · cases hx
  · obtain ⟨t, _, rfl⟩ := List.mem_map.1 hgm
    obtain ⟨p, _, rfl⟩ := List.mem_map.1 hx
    rfl

theorem wf_continue {J : Book} {m : Merger} (hR : R m J) (later : List (List TransactionPostings)) :
    (later.foldl Book.step J).WF := by
  have := (hR.continue (later.map (fun ts => (HashOrder.sorted, ts)))).wf
  unfold inputs at this
  rw [List.map_map] at this
  simpa [Function.comp_def] using this

/-- After a history that keeps dates, every posting is filed under the date of its transaction. -/
theorem filed_history {J : Book} {m : Merger} (hR : R m J) (hist : List (List TransactionPostings)) (hf : Filed J)
    (hk : KeepsDates J hist) : Filed (hist.foldl Book.step J) := by
  induction hist generalizing J m with
  | nil => exact hf
  | cons ts hist ih =>
    obtain ⟨h1, h2⟩ := hk
    have hR' := hR.step HashOrder.sorted ts
    refine ih hR' ?_ h2
    by_cases hb : J.Bad ts
    · have : J.step ts = J := by unfold Book.step; exact if_pos hb
      rw [this]; exact hf
    · have : J.step ts = J.after ts := by unfold Book.step; exact if_neg hb
      rw [this]; exact filed_after hR.wf (good_iff.2 hb) hf (h1 hb)

theorem Same.steps {J K : Book} {m m' : Merger} (h : Same J K) (hJ : R m J) (hK : R m' K) (later : List (List TransactionPostings)) :
    Same (later.foldl Book.step J) (later.foldl Book.step K) := by
  induction later generalizing J K m m' with
  | nil => exact h
  | cons ts later ih =>
    have h1 := hJ.step HashOrder.sorted ts
    have h2 := hK.step HashOrder.sorted ts
    exact ih (h.step ts h1.wf h2.wf) h1 h2

theorem Same.softMatches {J K : Book} (h : Same J K) (d : Date) (p : PostingInternal) :
    (J.softMatches d p).Perm (K.softMatches d p) := by
  have key : ∀ J : Book, J.softMatches d p = softM J.dated d p := by
    intro J
    unfold Spec.Book.softMatches softM Spec.Book.dated
    rw [List.filter_map, List.map_map]; rfl
  rw [key, key]
  exact (h.dated.filter _).map _

theorem Same.unclear {J K : Book} (h : Same J K) (d : Date) (p : PostingInternal) : J.Unclear d p ↔ K.Unclear d p := by
  have key : ∀ {J K : Book}, Same J K → (∀ r ∈ J.recs, ¬ SharesFp r.post p) → ∀ r ∈ K.recs, ¬ SharesFp r.post p := by
    intro J K h hJ r hr
    have : (r.date, r.post) ∈ K.dated := List.mem_map.2 ⟨r, hr, rfl⟩
    obtain ⟨s, hs, he⟩ := List.mem_map.1 (h.dated.mem_iff.2 this)
    have he2 : s.post = r.post := (Prod.mk.inj he).2
    rw [← he2]; exact hJ s hs
  unfold Spec.Book.Unclear
  rw [(h.softMatches d p).length_eq]
  exact and_congr_left fun _ => ⟨key h, key h.symm⟩

/-- Two results of handing back the same transaction: the same, with the same postings of the journal `js` as candidates,
up to which fingerprint names a candidate. -/
def HandedBackAlike (js : List TransactionPostings) (v v' : TransactionPostings) : Prop :=
  v.trn = v'.trn ∧ List.Forall₂ (fun q q' => ∃ p named named', named.Perm named' ∧ (∀ c ∈ named, c ∈ postingsOf js) ∧
    Annotated named p q ∧ Annotated named' p q') v.posts v'.posts

theorem Same.candidates {J K : Book} (h : Same J K) (d : Date) (p : PostingInternal) :
    (J.candidates d p).Perm (K.candidates d p) := by
  rw [candidates_eq, candidates_eq]
  by_cases hu : J.Unclear d p
  · rw [if_pos hu, if_pos ((h.unclear d p).1 hu)]; exact h.softMatches d p
  · rw [if_neg hu, if_neg (fun x => hu ((h.unclear d p).2 x))]

theorem Same.handedBack {J K : Book} (h : Same J K) (o o' : HashOrder) (ts : List TransactionPostings) :
    List.Forall₂ (HandedBackAlike J.journal) (J.handedBack (pickFp o J) ts) (K.handedBack (pickFp o' K) ts) := by
  unfold Spec.Book.handedBack
  have : (fun t => decide (Undecided J t)) = fun t => decide (Undecided K t) := by
    funext t; rw [decide_eq_decide, h.undecided]
  rw [this, List.forall₂_map_left_iff, List.forall₂_map_right_iff, List.forall₂_same]
  intro t _
  refine ⟨rfl, ?_⟩
  unfold handBack
  rw [List.forall₂_map_left_iff, List.forall₂_map_right_iff, List.forall₂_same]
  intro p _
  exact ⟨p, _, _, h.candidates (dateOf t) p, fun c hc => candidates_mem h.wf hc, handBackPost_annotated (pickFp_ok h.wf) _ p,
    handBackPost_annotated (pickFp_ok h.wf') _ p⟩

/-- Whatever is merged `later`, a merger that carries on after the calls and a merger that starts by reading the journal `js`
give the same errors, hand back the same transactions with the same candidates, and build the same journal. -/
def CarriesOnAlike (calls : History) (js : List TransactionPostings) : Prop :=
  ∀ (later later' : History) (h' h₁ h₂ : HashOrder) (ts : List TransactionPostings), inputs later = inputs later' →
    let m := run (calls ++ later)
    let m' := run ((h', js) :: later')
    (∀ e, (m.merge h₁ ts).1 = .error e ↔ (m'.merge h₂ ts).1 = .error e) ∧
    (∀ u u' js', (m.merge h₁ ts).1 = .ok u → (m'.merge h₂ ts).1 = .ok u' → m.build h₁ = .ok js' →
      List.Forall₂ (HandedBackAlike js') u u') ∧
    m.build h₁ = m'.build h₂

theorem carriesOn_of_filed {calls : History} (hfiled : Filed (ofHistory (inputs calls))) :
    CarriesOnAlike calls (ofHistory (inputs calls)).journal := by
  intro later later' h' h₁ h₂ ts hl m m'
  have hR := run_refines calls
  obtain ⟨m₀, hm₀, hR₀⟩ := reread hR.wf (populated_ofHistory _) h'
  have hsame := same_reread hR.wf (populated_ofHistory _) hfiled hR₀.wf
  have hs := hsame.steps hR hR₀ (inputs later)
  have hRm : R m ((inputs later).foldl Book.step (ofHistory (inputs calls))) := by
    have := run_refines (calls ++ later)
    unfold ofHistory inputs at this ⊢
    rw [List.map_append, List.foldl_append] at this
    exact this
  have hRm' : R m' ((inputs later).foldl Book.step (Book.empty.after (ofHistory (inputs calls)).journal)) := by
    have := hR₀.continue later'
    rw [← hl] at this
    have he : continueFrom m₀ later' = m' := by
      show _ = List.foldl _ _ _
      rw [List.foldl_cons]
      show _ = continueFrom (Merger.new.merge h' _).2 later'
      rw [hm₀]
    rw [← he]; exact this
  refine ⟨?_, ?_, ?_⟩
  · intro e
    rw [merge_error_iff hRm, merge_error_iff hRm', hs.error?]
  · intro u u' js' hu hu' hjs
    rw [hRm.build, Except.ok.injEq] at hjs
    subst hjs
    obtain ⟨_, rfl, _⟩ := merge_ok hRm (m' := (m.merge h₁ ts).2) (Prod.ext hu rfl)
    obtain ⟨_, rfl, _⟩ := merge_ok hRm' (m' := (m'.merge h₂ ts).2) (Prod.ext hu' rfl)
    exact hs.handedBack _ _ _
  · rw [hRm.build, hRm'.build, hs.journal]

/-- C20 (partial): if no posting was added to a transaction of another date up to the point where the journal is written,
then carrying on and starting again from the journal is the same. Missing: histories that do add a posting to a transaction of another
date. For those it is false, see `C20_counterexample` and `C20_exact`. -/
theorem C20_partial (calls : History) (h : HashOrder) (js : List TransactionPostings)
    (hk : KeepsDates Book.empty (inputs calls)) (hb : (run calls).build h = .ok js) : CarriesOnAlike calls js := by
  rw [build_iff] at hb; subst hb
  exact carriesOn_of_filed (filed_history R_new (inputs calls) (by intro r hr; cases hr) hk)

/-- A statement with one posting that is known and one that is not, both on the date of the known one. -/
def more : List TransactionPostings :=
  [trn 2 "shop again" [post "assets:a" (-500) ["fp-a1"], post "expenses:bag" 10 ["fp-m1"]]]

/-- A posting that is added to a transaction, which it then softly matches. -/
example : KeepsDates Book.empty (inputs [(HashOrder.sorted, bankA), (HashOrder.rev, more)]) ∧
    ∃ js, (run [(HashOrder.sorted, bankA), (HashOrder.rev, more)]).build HashOrder.rev = .ok js ∧
      (postingsOf js).length = 5 := by
  refine ⟨⟨?_, ?_, trivial⟩, ?_⟩
  · intro _ t _ _ _ i hi
    rw [empty_dests] at hi; cases hi
  · have : Book.empty.step bankA = ofHistory [bankA] := rfl
    intro _
    show ∀ t ∈ more, ¬ Undecided (Book.empty.step bankA) t → _
    rw [this, ofHistory_eval]
    set_option maxRecDepth 100000 in decide +kernel
  · refine ⟨[trn 1 "cafe" [post "assets:a" (-200) ["fp-a3"], post "expenses:food" 200 ["fp-a4"]],
     trn 2 "shop" [post "assets:a" (-500) ["fp-a1"], post "expenses" 500 ["fp-a2", "unknown-account"],
       post "expenses:bag" 10 ["fp-m1"]]], ?_, rfl⟩
    rw [build_eval]
    set_option maxRecDepth 100000 in decide +kernel

/-- The transaction of the 2nd again, this time dated the 5th, with a further posting. -/
def late : List TransactionPostings :=
  [trn 5 "shop" [post "assets:a" (-500) ["fp-a1"], post "expenses:bag" 10 ["fp-m1"]]]

/-- A posting of the 5th that softly matches the one added by `late`. -/
def bag : List TransactionPostings := [trn 5 "bag" [post "expenses:bag" 10 ["fp-n1"]]]

/-- The journal after `bankA` and `late`: the added posting is in a transaction of the 2nd. -/
def lateJournal : List TransactionPostings :=
  [trn 1 "cafe" [post "assets:a" (-200) ["fp-a3"], post "expenses:food" 200 ["fp-a4"]],
   trn 2 "shop" [post "assets:a" (-500) ["fp-a1"], post "expenses" 500 ["fp-a2", "unknown-account"],
     post "expenses:bag" 10 ["fp-m1"]]]

/-- C20 as stated is false: the posting added by `late` is in a transaction of the 2nd, but the same run matches a posting
of the 5th with it. A second run, which reads the written journal, does not. -/
theorem C20_counterexample :
    (run [(HashOrder.sorted, bankA), (HashOrder.sorted, late)]).build HashOrder.sorted = .ok lateJournal ∧
    (run [(HashOrder.sorted, bankA), (HashOrder.sorted, late), (HashOrder.sorted, bag)]).build HashOrder.sorted = .ok
      [trn 1 "cafe" [post "assets:a" (-200) ["fp-a3"], post "expenses:food" 200 ["fp-a4"]],
       trn 2 "shop" [post "assets:a" (-500) ["fp-a1"], post "expenses" 500 ["fp-a2", "unknown-account"],
         post "expenses:bag" 10 ["fp-m1", "fp-n1"]]] ∧
    (run [(HashOrder.sorted, lateJournal), (HashOrder.sorted, bag)]).build HashOrder.sorted = .ok (lateJournal ++ bag) := by
  refine ⟨?_, ?_, ?_⟩
  all_goals
    rw [build_eval]
    set_option maxRecDepth 100000 in decide +kernel

end Verif
