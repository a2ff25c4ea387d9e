import Verif.Props.Rules
import Verif.Props.Convergence

/-!
# C70: importing again with other rules
-/

namespace Verif.Spec.Rules
open Verif.Rules

/-- The action may add this tag to a posting or remove it, at any depth of `All`. -/
inductive Touches : Action → Str → Prop
  | adds {tag} : Touches (.addPostingFlagTag tag) tag
  | removes {tag} : Touches (.removePostingFlagTag tag) tag
  | inside {as a tag} : a ∈ as → Touches a tag → Touches (.all as) tag

/-- No rule of the table adds or removes a fingerprint or a candidate tag. -/
def LeavesFingerprints (T : Table) : Prop :=
  ∀ (name : Str) (ch : Chain), T[name]? = some ch → ∀ r ∈ ch, ∀ tag, Touches r.action tag → ¬ IsFp tag ∧ ¬ IsCand tag

/-- Something that is run does not touch the tag. -/
def JobLeaves (tag : Str) : Job → Prop
  | .action a => ¬ Touches a tag
  | .actions as => ∀ a ∈ as, ¬ Touches a tag
  | .rules rs => ∀ r ∈ rs, ¬ Touches r.action tag

end Verif.Spec.Rules

namespace Verif
open Spec Spec.Book Spec.Rules Verif.Rules

/-! ### Rules and tags -/

theorem changes_tag {a : Action} {c c' : Ctx} {tag : Str} (h : Changes a c c') (hn : ¬ Touches a tag) :
    tag ∈ c'.post.comment.tags ↔ tag ∈ c.post.comment.tags := by
  cases h with
  | addPostingFlagTag h =>
    show tag ∈ _ ↔ _
    rw [withPostTags]
    simp only
    rw [h]
    constructor
    · rintro (rfl | h)
      · exact absurd .adds hn
      · exact h
    · exact Or.inr
  | removePostingFlagTag h =>
    rw [withPostTags]
    simp only
    rw [h]
    constructor
    · exact And.right
    · intro h
      refine ⟨?_, h⟩
      rintro rfl
      exact hn .removes
  | _ => exact Iff.rfl

theorem runs_tag {lower : Str → Str} {T : Table} {tag : Str}
    (hT : ∀ (name : Str) (ch : Chain), T[name]? = some ch → ∀ r ∈ ch, ¬ Touches r.action tag) {j : Job} {c : Ctx} {r : Res}
    (h : Runs lower T j c r) : JobLeaves tag j → ∀ c', r = .ok c' → (tag ∈ c'.post.comment.tags ↔ tag ∈ c.post.comment.tags) := by
  induction h with
  | change h => intro hj c' he; cases he; exact changes_tag h hj
  | report => intro _ _ h; cases h
  | all _ ih => intro hj; exact ih fun a ha ht => hj (.inside ha ht)
  | jump hn _ ih => intro _; exact ih (hT _ _ hn)
  | noChain => intro _ _ h; cases h
  | actionsNil => intro _ _ h; cases h; exact Iff.rfl
  | actionsCons _ _ ih1 ih2 =>
    intro hj c' h
    exact (ih2 (fun a ha => hj a (List.mem_cons_of_mem _ ha)) _ h).trans (ih1 (hj _ List.mem_cons_self) _ rfl)
  | actionsError => intro _ _ h; cases h
  | rulesNil => intro _ _ h; cases h; exact Iff.rfl
  | skip _ _ ih => intro hj; exact ih fun r hr => hj r (List.mem_cons_of_mem _ hr)
  | continue_ _ _ _ ih1 ih2 =>
    intro hj c' h
    exact (ih2 (fun r hr => hj r (List.mem_cons_of_mem _ hr)) _ h).trans (ih1 (hj _ List.mem_cons_self) _ rfl)
  | return_ _ _ ih => intro hj; exact ih (hj _ List.mem_cons_self)
  | ruleError => intro _ _ h; cases h

/-- The two postings have the same fingerprints and the same candidate tags. -/
def SameMarks (p q : PostingInternal) : Prop := ∀ tag, IsFp tag ∨ IsCand tag → (tag ∈ tagsOf q ↔ tag ∈ tagsOf p)

theorem runsPosts_marks {lower : Str → Str} {T : Table} (hT : LeavesFingerprints T) {start : List Rule}
    (hs : ∀ r ∈ start, ∀ tag, Touches r.action tag → ¬ IsFp tag ∧ ¬ IsCand tag) {t : TransactionInternal}
    {ps : List PostingInternal} {r} (h : RunsPosts lower T start t ps r) :
    ∀ t' ps', r = .ok (t', ps') → List.Forall₂ SameMarks ps ps' := by
  have no : ∀ tag, IsFp tag ∨ IsCand tag → ∀ a, (Touches a tag → ¬ IsFp tag ∧ ¬ IsCand tag) → ¬ Touches a tag := by
    intro tag ht a ha hh
    rcases ht with h | h
    · exact (ha hh).1 h
    · exact (ha hh).2 h
  induction h with
  | nil => intro _ _ h; cases h; exact .nil
  | cons h1 _ ih =>
    intro t' ps' h
    cases h
    refine .cons ?_ (ih _ _ rfl)
    intro tag ht
    exact runs_tag (fun name ch hc r hr => no tag ht _ (hT name ch hc r hr tag)) h1 (fun r hr => no tag ht _ (hs r hr tag)) _ rfl
  | error => intro _ _ h; cases h
  | later => intro _ _ h; cases h

/-- Rules that leave fingerprints alone do so. -/
theorem updateTransactions_marks {lower : Str → Str} {T : Table} (hT : LeavesFingerprints T) {fuel : Nat}
    {ts ts' : List TransactionPostings} (h : T.updateTransactions lower fuel ts = .ok ts') :
    List.Forall₂ (fun t t' => List.Forall₂ SameMarks t.posts t'.posts) ts ts' := by
  rw [updateTransactions_ok] at h
  refine h.imp fun t t' ht => ?_
  have hr := (C31_semantics lower T t).1 fuel (by rw [ht]; simp)
  rw [ht] at hr
  cases hr with
  | ok hc h => exact runsPosts_marks hT (hT _ _ hc) h _ _ rfl

/-! ### Settled inputs -/

theorem SameMarks.fps {p q : PostingInternal} (h : SameMarks p q) (f : Str) : f ∈ fps q ↔ f ∈ fps p := by
  unfold Spec.fps
  rw [List.mem_filter, List.mem_filter, decide_eq_true_iff, Std.ExtTreeSet.mem_toList, Std.ExtTreeSet.mem_toList]
  constructor
  · rintro ⟨h1, h2⟩; exact ⟨(h f (Or.inl h2)).1 h1, h2⟩
  · rintro ⟨h1, h2⟩; exact ⟨(h f (Or.inl h2)).2 h1, h2⟩

theorem SameMarks.symm {p q : PostingInternal} (h : SameMarks p q) : SameMarks q p := fun t ht => (h t ht).symm
theorem SameMarks.trans {p q r : PostingInternal} (h : SameMarks p q) (h' : SameMarks q r) : SameMarks p r :=
  fun t ht => (h' t ht).trans (h t ht)

theorem SameMarks.shares {p q p' q' : PostingInternal} (h : SameMarks p q) (h' : SameMarks p' q') : SharesFp q q' → SharesFp p p' := by
  rintro ⟨f, h1, h2⟩
  exact ⟨f, (h.fps f).1 h1, (h'.fps f).1 h2⟩

theorem forall₂_allPosts {Rel : PostingInternal → PostingInternal → Prop} {ts us : List TransactionPostings}
    (h : List.Forall₂ (fun t u => List.Forall₂ Rel t.posts u.posts) ts us) : List.Forall₂ Rel (allPosts ts) (allPosts us) := by
  induction h with
  | nil => exact .nil
  | cons h _ ih => exact List.rel_append h ih

theorem forall₂_getElem? {α β : Type} {Rel : α → β → Prop} {l : List α} {l' : List β} (h : List.Forall₂ Rel l l') {i : Nat} {b : β}
    (hb : l'[i]? = some b) : ∃ a, l[i]? = some a ∧ Rel a b := by
  induction h generalizing i with
  | nil => cases hb
  | cons h _ ih =>
    cases i with
    | zero => cases hb; exact ⟨_, rfl, h⟩
    | succ i => exact ih hb

/-- What matters for being settled are the fingerprints. -/
theorem Settled.marks {J : Book} {ts us : List TransactionPostings} (hs : Settled J ts)
    (h : List.Forall₂ (fun t u => List.Forall₂ SameMarks t.posts u.posts) ts us) : Settled J us := by
  have hall := forall₂_allPosts h
  have index : ∀ {i j : Nat} {p q : PostingInternal}, (allPosts ts)[i]? = some p → (allPosts ts)[j]? = some q →
      SharesFp p q → i = j := by
    intro i j p q hi hj hs'
    have hp := hs.disjoint
    rw [List.pairwise_iff_getElem] at hp
    obtain ⟨hi', rfl⟩ := List.getElem?_eq_some_iff.1 hi
    obtain ⟨hj', rfl⟩ := List.getElem?_eq_some_iff.1 hj
    rcases Nat.lt_trichotomy i j with h | h | h
    · exact absurd hs' (hp i j hi' hj' h)
    · exact h
    · exact absurd (sharesFp_comm.1 hs') (hp j i hj' hi' h)
  refine ⟨?_, ?_, ?_, ?_, ?_⟩
  · intro q hq
    obtain ⟨i, hi⟩ := List.mem_iff_getElem?.1 hq
    obtain ⟨p, hp, hm⟩ := forall₂_getElem? hall hi
    obtain ⟨h1, h2⟩ := hs.ok p (List.mem_of_getElem? hp)
    refine ⟨?_, ?_⟩
    · intro t ht hc
      exact h1 t ((hm t (Or.inr hc)).1 ht) hc
    · obtain ⟨f, hf⟩ := List.exists_mem_of_ne_nil _ h2
      intro he
      have := (hm.fps f).2 hf
      rw [he] at this; cases this
  · rw [List.pairwise_iff_getElem]
    intro i j hi hj hij hsh
    obtain ⟨p, hp, hm⟩ := forall₂_getElem? hall (List.getElem?_eq_getElem hi)
    obtain ⟨q, hq, hm'⟩ := forall₂_getElem? hall (List.getElem?_eq_getElem hj)
    have := index hp hq (hm.shares hm' hsh)
    omega
  · intro u hu
    obtain ⟨i, hi⟩ := List.mem_iff_getElem?.1 hu
    obtain ⟨t, ht, hm⟩ := forall₂_getElem? h hi
    intro he
    rw [he] at hm
    have := hs.nonempty t (List.mem_of_getElem? ht)
    cases hp : t.posts with
    | nil => exact this hp
    | cons a l => rw [hp] at hm; cases hm
  · intro u hu
    obtain ⟨i, hi⟩ := List.mem_iff_getElem?.1 hu
    obtain ⟨t, ht, hm⟩ := forall₂_getElem? h hi
    obtain ⟨k, hk⟩ := hs.home t (List.mem_of_getElem? ht)
    refine ⟨k, ?_⟩
    intro q hq
    obtain ⟨j, hj⟩ := List.mem_iff_getElem?.1 hq
    obtain ⟨p, hp, hm'⟩ := forall₂_getElem? hm hj
    obtain ⟨i, r, hr, hrk, hf⟩ := hk p (List.mem_of_getElem? hp)
    exact ⟨i, r, hr, hrk, fun f hfq => hf f ((hm'.fps f).1 hfq)⟩
  · intro q hq q' hq' i r hr hs1 hs2
    obtain ⟨a, ha⟩ := List.mem_iff_getElem?.1 hq
    obtain ⟨b, hb⟩ := List.mem_iff_getElem?.1 hq'
    obtain ⟨p, hp, hm⟩ := forall₂_getElem? hall ha
    obtain ⟨p', hp', hm'⟩ := forall₂_getElem? hall hb
    have hrefl : SameMarks r.post r.post := fun _ _ => Iff.rfl
    have := hs.apart p (List.mem_of_getElem? hp) p' (List.mem_of_getElem? hp') i r hr (hrefl.shares hm hs1) (hrefl.shares hm' hs2)
    subst this
    have := index hp hp' (sharesFp_self (hs.ok p (List.mem_of_getElem? hp)).2)
    subst this
    rw [ha] at hb
    exact Option.some.inj hb

/-! ### C70 -/

/-- C70: a statement was merged after some rules were applied to it, with nothing left over. Later, after any further calls, it
is merged again after other rules were applied to it. If neither table touches fingerprints, that succeeds, leaves nothing
over and adds no transaction and no posting: each transaction has the header it had and its postings, each possibly
`Grown`. In particular an account is changed only if it was unknown before. -/
theorem C70_other_rules (lower : Str → Str) (T T' : Table) (fuel fuel' : Nat) (statement ts ts' : List TransactionPostings)
    (hT : LeavesFingerprints T) (hT' : LeavesFingerprints T') (hr : T.updateTransactions lower fuel statement = .ok ts)
    (hr' : T'.updateTransactions lower fuel' statement = .ok ts') (calls later : History) (h h' h₁ h₂ : HashOrder)
    (js js' : List TransactionPostings) (hm : ((run calls).merge h ts).1 = .ok [])
    (hb : (run (calls ++ (h, ts) :: later)).build h₁ = .ok js)
    (hb' : (run (calls ++ (h, ts) :: later ++ [(h', ts')])).build h₂ = .ok js') :
    ((run (calls ++ (h, ts) :: later)).merge h' ts').1 = .ok [] ∧
    List.Forall₂ (fun T T' => T'.trn = T.trn ∧ List.Forall₂ Grown T.posts T'.posts) js js' := by
  have hmarks : List.Forall₂ (fun t u => List.Forall₂ SameMarks t.posts u.posts) ts ts' := by
    have h1 := updateTransactions_marks hT hr
    have h2 := updateTransactions_marks hT' hr'
    rw [List.forall₂_iff_get] at h1 h2 ⊢
    refine ⟨h1.1.symm.trans h2.1, ?_⟩
    intro i hi hi'
    have a := h1.2 i (by rw [h1.1]; exact hi) hi
    have b := h2.2 i (by rw [h1.1]; exact hi) hi'
    rw [List.forall₂_iff_get] at a b ⊢
    refine ⟨a.1.symm.trans b.1, ?_⟩
    intro j hj hj'
    exact (a.2 j (by rw [a.1]; exact hj) hj).symm.trans (b.2 j (by rw [a.1]; exact hj) hj')
  have hR := run_refines calls
  obtain ⟨hnb, hu, _⟩ := merge_ok hR (m' := ((run calls).merge h ts).2) (Prod.ext hm rfl)
  have hd := handedBack_nil_iff.1 hu.symm
  have hs := settled_after (good_iff.2 hnb) hd
  have hR₁ := run_refines (calls ++ (h, ts) :: later)
  have hJ : ofHistory (inputs (calls ++ (h, ts) :: later)) =
      (inputs later).foldl Book.step ((ofHistory (inputs calls)).after ts) := by
    unfold ofHistory inputs
    rw [List.map_append, List.foldl_append, List.map_cons, List.foldl_cons]
    congr 1
    unfold Book.step
    exact if_neg hnb
  have hs₁ : Settled (ofHistory (inputs (calls ++ (h, ts) :: later))) ts' := by
    rw [hJ]
    exact (hs.mono (ext_steps _ _) (by rw [← hJ]; exact hR₁.wf)).marks hmarks
  rw [hR₁.build h₁] at hb
  have := Except.ok.inj hb; subst this
  obtain ⟨m₂, hm₂, hR₂⟩ := merge_of_not_bad hR₁ h' (good_iff.1 (hs₁.good hR₁.wf))
  rw [handedBack_nil_iff.2 (fun t ht => hs₁.decided hR₁.wf ht)] at hm₂
  have hrun : run (calls ++ (h, ts) :: later ++ [(h', ts')]) = m₂ := by
    show List.foldl _ _ _ = _
    rw [List.foldl_append]
    show ((run (calls ++ (h, ts) :: later)).merge h' ts').2 = m₂
    rw [hm₂]
  rw [hrun, hR₂.build h₂] at hb'
  have := Except.ok.inj hb'; subst this
  exact ⟨by rw [hm₂], hs₁.journal hR₁.wf⟩

/-- Rules that know nothing yet. -/
def Ex.firstRules : Table := Std.ExtTreeMap.ofList [("start".toList, [])] compare

/-- Rules that know what account the shop is. -/
def Ex.betterRules : Table := Std.ExtTreeMap.ofList
  [("start".toList, [⟨.all [.postingHasFlagTag "unknown-account".toList, .transactionDescription (.eq "shop".toList)],
    .all [.setAccount "expenses:food".toList, .removePostingFlagTag "unknown-account".toList], .return_⟩])] compare

/-- The statement that is imported twice. -/
def Ex.shopStatement : List TransactionPostings :=
  [Ex.trn 1 "shop" [Ex.post "assets:a" (-5) ["fp-1"], Ex.post "expenses" 5 ["fp-2", "unknown-account"]]]

theorem Ex.only_chain {c : Chain} {name : Str} {ch : Chain}
    (h : (Std.ExtTreeMap.ofList [("start".toList, c)] compare : Table)[name]? = some ch) : ch = c := by
  have hm : name ∈ (Std.ExtTreeMap.ofList [("start".toList, c)] compare : Table) := by
    rw [Std.ExtTreeMap.mem_iff_isSome_getElem?, h]; rfl
  have hn : name = "start".toList := by
    have := Std.ExtTreeMap.mem_ofList.1 hm
    simpa only [List.map_cons, List.map_nil, List.contains_cons, List.contains_nil, Bool.or_false, beq_iff_eq] using this
  subst hn
  have h1 : (Std.ExtTreeMap.ofList [("start".toList, c)] compare : Table)["start".toList]? = some c :=
    Std.ExtTreeMap.getElem?_ofList_of_mem (k := "start".toList) (Std.LawfulEqOrd.compare_eq_iff_eq.2 rfl)
      (List.pairwise_singleton _ _) List.mem_cons_self
  rw [h1] at h
  exact (Option.some.inj h).symm

set_option maxRecDepth 100000 in
/-- The hypotheses are met, and the better rules fill in the account when the statement is merged again. -/
example : LeavesFingerprints Ex.firstRules ∧ LeavesFingerprints Ex.betterRules ∧
    ∃ ts ts', Ex.firstRules.updateTransactions id 2 Ex.shopStatement = .ok ts ∧
      Ex.betterRules.updateTransactions id 2 Ex.shopStatement = .ok ts' ∧
      ((run ([] : History)).merge HashOrder.sorted ts).1 = .ok [] ∧
      (run [(HashOrder.sorted, ts), (HashOrder.sorted, ts')]).build HashOrder.sorted =
        .ok [Ex.trn 1 "shop" [Ex.post "assets:a" (-5) ["fp-1"], Ex.post "expenses:food" 5 ["fp-2"]]] := by
  refine ⟨?_, ?_, Ex.shopStatement, [Ex.trn 1 "shop" [Ex.post "assets:a" (-5) ["fp-1"], Ex.post "expenses:food" 5 ["fp-2"]]],
    by decide +kernel, by decide +kernel, by decide +kernel, by rw [Ex.build_eval]; decide +kernel⟩
  · intro name ch h r hr
    rw [Ex.only_chain h] at hr
    cases hr
  · intro name ch h r hr tag ht
    rw [Ex.only_chain h] at hr
    rw [List.mem_singleton] at hr
    subst hr
    cases ht with
    | inside hm ht =>
      simp only [List.mem_cons, List.not_mem_nil, or_false] at hm
      rcases hm with rfl | rfl
      · cases ht
      · cases ht
        decide +kernel

end Verif
