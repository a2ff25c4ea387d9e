import Verif.Spec.Reorder
import Verif.Props.TwoRuns
import Mathlib.Data.List.Perm.Basic

/-!
# The order within the files decides nothing but the order of the journal
-/

namespace Verif
open Spec Spec.Book

section ButOrder
variable {α β γ δ : Type} {R : α → β → Prop} {S : γ → δ → Prop}

theorem Spec.ButOrder.mem_left {l : List α} {l' : List β} (h : ButOrder R l l') {a : α} (ha : a ∈ l) : ∃ b ∈ l', R a b := by
  obtain ⟨m, hf, hp⟩ := h
  obtain ⟨b, hb, hr⟩ := forall₂_mem_left hf ha
  exact ⟨b, hp.mem_iff.1 hb, hr⟩

theorem Spec.ButOrder.symm {S : β → α → Prop} (hs : ∀ a b, R a b → S b a) {l : List α} {l' : List β} (h : ButOrder R l l') :
    ButOrder S l' l := by
  obtain ⟨m, hf, hp⟩ := h
  have : Relation.Comp List.Perm (List.Forall₂ S) l' l := ⟨m, hp.symm, (hf.imp hs).flip⟩
  rw [← List.forall₂_comp_perm_eq_perm_comp_forall₂] at this
  exact this

theorem Spec.ButOrder.mem_right {l : List α} {l' : List β} (h : ButOrder R l l') {b : β} (hb : b ∈ l') : ∃ a ∈ l, R a b :=
  (h.symm (S := flip R) (fun _ _ x => x)).mem_left hb

theorem Spec.ButOrder.trans {T : β → γ → Prop} {U : α → γ → Prop} (ht : ∀ a b c, R a b → T b c → U a c) {l : List α} {l' : List β} {l'' : List γ}
    (h : ButOrder R l l') (h' : ButOrder T l' l'') : ButOrder U l l'' := by
  obtain ⟨m, hf, hp⟩ := h
  obtain ⟨m', hf', hp'⟩ := h'
  have : Relation.Comp List.Perm (List.Forall₂ T) m m' := ⟨l', hp, hf'⟩
  rw [← List.forall₂_comp_perm_eq_perm_comp_forall₂] at this
  obtain ⟨n, hn, hnp⟩ := this
  refine ⟨n, ?_, hnp.trans hp'⟩
  clear hp hp' hf' hnp
  induction hf generalizing n with
  | nil => cases hn; exact .nil
  | cons hr _ ih => cases hn with | cons ht' hn => exact .cons (ht _ _ _ hr ht') (ih _ hn)

theorem Spec.ButOrder.of_perm {R : α → α → Prop} (hr : ∀ a, R a a) {l l' : List α} (h : l.Perm l') : ButOrder R l l' :=
  ⟨l, List.forall₂_same.2 fun a _ => hr a, h⟩

theorem Spec.ButOrder.append {l₁ l₂ : List α} {l₁' l₂' : List β} (h₁ : ButOrder R l₁ l₁') (h₂ : ButOrder R l₂ l₂') :
    ButOrder R (l₁ ++ l₂) (l₁' ++ l₂') := by
  obtain ⟨m, hf, hp⟩ := h₁
  obtain ⟨m', hf', hp'⟩ := h₂
  exact ⟨m ++ m', List.rel_append hf hf', hp.append hp'⟩

theorem Spec.ButOrder.filter {l : List α} {l' : List β} (h : ButOrder R l l') (p : α → Bool) (q : β → Bool)
    (hpq : ∀ a b, R a b → p a = q b) : ButOrder R (l.filter p) (l'.filter q) := by
  obtain ⟨m, hf, hp⟩ := h
  refine ⟨m.filter q, ?_, hp.filter q⟩
  clear hp
  induction hf with
  | nil => exact .nil
  | @cons a b _ _ hr _ ih =>
    rw [List.filter_cons, List.filter_cons, hpq _ _ hr]
    split
    · exact .cons hr ih
    · exact ih

theorem Spec.ButOrder.map {l : List α} {l' : List β} (h : ButOrder R l l') (f : α → γ) (g : β → δ)
    (hfg : ∀ a ∈ l, ∀ b, R a b → S (f a) (g b)) : ButOrder S (l.map f) (l'.map g) := by
  obtain ⟨m, hf, hp⟩ := h
  refine ⟨m.map g, ?_, hp.map g⟩
  clear hp
  induction hf with
  | nil => exact .nil
  | cons hr _ ih => exact .cons (hfg _ List.mem_cons_self _ hr) (ih fun a ha => hfg a (List.mem_cons_of_mem _ ha))

theorem Spec.ButOrder.flatMap {l : List α} {l' : List β} (h : ButOrder R l l') (f : α → List γ) (g : β → List γ)
    (hfg : ∀ a b, R a b → (f a).Perm (g b)) : (l.flatMap f).Perm (l'.flatMap g) := by
  obtain ⟨m, hf, hp⟩ := h
  refine List.Perm.trans ?_ (hp.flatMap_right g)
  clear hp
  induction hf with
  | nil => exact .nil
  | cons hr _ ih => rw [List.flatMap_cons, List.flatMap_cons]; exact (hfg _ _ hr).append ih

end ButOrder

theorem Spec.Shuffled.symm {t t' : TransactionPostings} (h : Shuffled t t') : Shuffled t' t := ⟨h.1.symm, h.2.symm⟩

theorem Spec.Shuffled.refl (t : TransactionPostings) : Shuffled t t := ⟨rfl, .refl _⟩

theorem Spec.Shuffled.trans {t u v : TransactionPostings} (h : Shuffled t u) (h' : Shuffled u v) : Shuffled t v :=
  ⟨h.1.trans h'.1, h.2.trans h'.2⟩

theorem Spec.Shuffled.date {t t' : TransactionPostings} (h : Shuffled t t') : dateOf t = dateOf t' := by
  unfold dateOf; rw [h.1]

theorem Spec.Reordered.symm {ts ts' : List TransactionPostings} (h : Reordered ts ts') : Reordered ts' ts :=
  ButOrder.symm (fun _ _ => Shuffled.symm) h

theorem Spec.Reordered.trans {ts us vs : List TransactionPostings} (h : Reordered ts us) (h' : Reordered us vs) : Reordered ts vs :=
  ButOrder.trans (R := Shuffled) (T := Shuffled) (U := Shuffled) (fun _ _ _ x y => x.trans y) h h'

theorem Spec.Reordered.of_perm {ts ts' : List TransactionPostings} (h : ts.Perm ts') : Reordered ts ts' :=
  ButOrder.of_perm Shuffled.refl h

theorem Spec.Reordered.refl (ts : List TransactionPostings) : Reordered ts ts := .of_perm (.refl _)

theorem Spec.Reordered.allPosts {ts ts' : List TransactionPostings} (h : Reordered ts ts') : (allPosts ts).Perm (allPosts ts') :=
  ButOrder.flatMap h _ _ fun _ _ hr => hr.2

/-- The same transaction of a book, but for the order of its postings. -/
def GroupAlike (g g' : TransactionInternal × List (Date × PostingInternal)) : Prop := g.1 = g'.1 ∧ g.2.Perm g'.2

/-- Two books with the same transactions, but for order. -/
structure Alike (J K : Book) : Prop where
  wf : J.WF
  wf' : K.WF
  grp : ButOrder GroupAlike J.grp K.grp

namespace Alike
variable {J K : Book}

theorem symm (h : Alike J K) : Alike K J := ⟨h.wf', h.wf, ButOrder.symm (fun _ _ x => ⟨x.1.symm, x.2.symm⟩) h.grp⟩

theorem refl (h : J.WF) : Alike J J := ⟨h, h, ButOrder.of_perm (fun _ => ⟨rfl, .refl _⟩) (.refl _)⟩

theorem trans {L : Book} (h : Alike J K) (h' : Alike K L) : Alike J L :=
  ⟨h.wf, h'.wf', ButOrder.trans (fun _ _ _ x y => ⟨x.1.trans y.1, x.2.trans y.2⟩) h.grp h'.grp⟩

theorem dated (h : Alike J K) : J.dated.Perm K.dated :=
  (grp_flat h.wf).symm.trans ((ButOrder.flatMap h.grp _ _ fun _ _ hr => hr.2).trans (grp_flat h.wf'))

theorem kind (h : Alike J K) (d : Date) (p : PostingInternal) : J.kind (J.verdict d p) = K.kind (K.verdict d p) := by
  rw [kind_verdict, kind_verdict]
  exact kindOf_perm ((h.dated.filter _).map _) ((h.dated.filter _).map _)

theorem target (h : Alike J K) (d : Date) (p : PostingInternal) : J.target d p = K.target d p := by
  rw [target_kind, target_kind, h.kind]

theorem conflict (h : Alike J K) (d : Date) (p : PostingInternal) : J.verdict d p = .conflict ↔ K.verdict d p = .conflict := by
  have key : ∀ (J : Book) (v : Verdict), v = .conflict ↔ J.kind v = .conflict := by
    intro J v; cases v <;> simp [Spec.Book.kind]
  rw [key J, key K, h.kind]

theorem undecided_le (h : Alike J K) {t t' : TransactionPostings} (ht : Shuffled t t') (hu : Undecided J t) : Undecided K t' := by
  rcases hu with hu | ⟨v, hv, ha⟩
  · left
    have := ht.2
    rw [hu] at this
    exact this.symm.eq_nil
  · right
    unfold verdicts at *
    obtain ⟨p, hp, rfl⟩ := List.mem_map.1 hv
    refine ⟨_, List.mem_map.2 ⟨p, ht.2.mem_iff.1 hp, rfl⟩, (isAmbiguous_kind (J := K)).2 ?_⟩
    rw [← ht.date, ← h.kind]
    exact isAmbiguous_kind.1 ha

theorem undecided (h : Alike J K) {t t' : TransactionPostings} (ht : Shuffled t t') : Undecided J t ↔ Undecided K t' :=
  ⟨h.undecided_le ht, h.symm.undecided_le ht.symm⟩

theorem together_le (h : Alike J K) {x y : PostingInternal} (ht : Together J.grp x y) : Together K.grp x y := by
  obtain ⟨g, hg, hx, hy⟩ := ht
  obtain ⟨g', hg', _, hp⟩ := ButOrder.mem_left h.grp hg
  exact ⟨g', hg', (hp.map _).mem_iff.1 hx, (hp.map _).mem_iff.1 hy⟩

theorem together (h : Alike J K) (x y : PostingInternal) : Together J.grp x y ↔ Together K.grp x y := ⟨h.together_le, h.symm.together_le⟩

theorem splitTrn (h : Alike J K) {t t' : TransactionPostings} (ht : Shuffled t t') : SplitTrn J t ↔ SplitTrn K t' := by
  rw [splitTrn_iff h.wf, splitTrn_iff h.wf', h.undecided ht, ht.date]
  simp only [h.target, h.together, ht.2.mem_iff]

theorem into (h : Alike J K) {ts ts' : List TransactionPostings} (ht : Reordered ts ts') (x : PostingInternal) :
    (J.into ts x).Perm (K.into ts' x) := by
  unfold Spec.Book.into
  refine ButOrder.flatMap ht _ _ ?_
  intro t t' hs
  by_cases hu : Undecided J t
  · rw [if_pos hu, if_pos ((h.undecided hs).1 hu)]
  · rw [if_neg hu, if_neg fun y => hu ((h.undecided hs).2 y), hs.date]
    simp only [h.target]
    exact hs.2.filter _

theorem sameDest (h : Alike J K) {ts ts' : List TransactionPostings} (ht : Reordered ts ts') : SameDest J ts ↔ SameDest K ts' := by
  rw [sameDest_iff h.wf, sameDest_iff h.wf']
  simp only [(h.into ht _).length_eq, (h.dated.map _).mem_iff]

theorem bad_le (h : Alike J K) {ts ts' : List TransactionPostings} (ht : Reordered ts ts') (hb : J.Bad ts) : K.Bad ts' := by
  have hp := ht.allPosts
  rcases hb with ⟨p, hm, hh⟩ | ⟨p, hm, hh⟩ | hb | ⟨t, hm, hv⟩ | ⟨t, hm, hh⟩ | hb
  · exact .inl ⟨p, hp.mem_iff.1 hm, hh⟩
  · exact .inr (.inl ⟨p, hp.mem_iff.1 hm, hh⟩)
  · refine .inr (.inr (.inl fun hpw => hb ?_))
    exact (hp.pairwise_iff fun {x y} hxy hs => hxy (sharesFp_comm.1 hs)).2 hpw
  · obtain ⟨t', hm', hs⟩ := ButOrder.mem_left ht hm
    refine .inr (.inr (.inr (.inl ⟨t', hm', ?_⟩)))
    unfold verdicts at *
    obtain ⟨p, hpm, hv⟩ := List.mem_map.1 hv
    refine List.mem_map.2 ⟨p, hs.2.mem_iff.1 hpm, ?_⟩
    rw [← hs.date]
    exact (h.conflict _ _).1 hv
  · obtain ⟨t', hm', hs⟩ := ButOrder.mem_left ht hm
    exact .inr (.inr (.inr (.inr (.inl ⟨t', hm', (h.splitTrn hs).1 hh⟩))))
  · exact .inr (.inr (.inr (.inr (.inr ((h.sameDest ht).1 hb)))))

theorem bad (h : Alike J K) {ts ts' : List TransactionPostings} (ht : Reordered ts ts') : J.Bad ts ↔ K.Bad ts' :=
  ⟨h.bad_le ht, h.symm.bad_le ht.symm⟩

theorem fresh (h : Alike J K) {t t' : TransactionPostings} (ht : Shuffled t t') : J.Fresh t ↔ K.Fresh t' := by
  rw [fresh_iff, fresh_iff, h.undecided ht, ht.date]
  simp only [h.target, ht.2.mem_iff]

theorem added (h : Alike J K) {ts ts' : List TransactionPostings} (ht : Reordered ts ts') {g g' : List (Date × PostingInternal)} (hg : g.Perm g') :
    (J.added ts g).Perm (K.added ts' g') := by
  classical
  unfold Spec.Book.added
  refine ButOrder.flatMap ht _ _ ?_
  intro t t' hs
  have hc : (¬ Undecided J t ∧ ∃ p ∈ t.posts, ∃ x ∈ g.map (·.2), J.target (dateOf t) p = some x) ↔
      (¬ Undecided K t' ∧ ∃ p ∈ t'.posts, ∃ x ∈ g'.map (·.2), K.target (dateOf t') p = some x) := by
    rw [h.undecided hs, hs.date]
    simp only [h.target, hs.2.mem_iff, (hg.map _).mem_iff]
  by_cases hx : ¬ Undecided J t ∧ ∃ p ∈ t.posts, ∃ x ∈ g.map (·.2), J.target (dateOf t) p = some x
  · rw [if_pos hx, if_pos (hc.1 hx), hs.date]
    simp only [h.target]
    exact (hs.2.filter _).map _
  · rw [if_neg hx, if_neg (fun y => hx (hc.2 y))]

theorem grown (h : Alike J K) {ts ts' : List TransactionPostings} (ht : Reordered ts ts') (hJ : Good J ts)
    {g g' : List (Date × PostingInternal)} (hm : ∀ x ∈ g, x.2 ∈ J.dated.map (·.2)) (hg : g.Perm g') :
    (J.grown ts g).Perm (K.grown ts' g') := by
  unfold Spec.Book.grown
  refine List.Perm.append ?_ (h.added ht hg)
  refine List.Perm.trans (List.Perm.of_eq ?_) (hg.map _)
  apply List.map_congr_left
  intro x hx
  congr 1
  have hp := h.into ht x.2
  have hl : (J.into ts x.2).length ≤ 1 := by
    by_contra hn
    exact (sameDest_iff h.wf).2 ⟨_, hm x hx, by omega⟩ hJ.noSame
  have : J.into ts x.2 = K.into ts' x.2 := by
    generalize J.into ts x.2 = l at hp hl ⊢
    generalize K.into ts' x.2 = l' at hp ⊢
    cases l with
    | nil => exact hp.symm.eq_nil.symm
    | cons y l =>
      cases l with
      | nil => exact (List.singleton_perm.1 hp)
      | cons z l => simp at hl
  rw [this]

theorem mem_grp_dated {g : TransactionInternal × List (Date × PostingInternal)} (hg : g ∈ J.grp) : ∀ x ∈ g.2, x ∈ J.dated := by
  intro x hx
  unfold Spec.Book.grp at hg
  rw [List.mem_mapIdx] at hg
  obtain ⟨k, _, rfl⟩ := hg
  obtain ⟨r, hr, rfl⟩ := List.mem_map.1 hx
  exact List.mem_map.2 ⟨r, (List.mem_filter.1 hr).1, rfl⟩

theorem after (h : Alike J K) {ts ts' : List TransactionPostings} (ht : Reordered ts ts') (hJ : Good J ts) (hK : Good K ts')
    (hw : (J.after ts).WF) (hw' : (K.after ts').WF) : Alike (J.after ts) (K.after ts') where
  wf := hw
  wf' := hw'
  grp := by
    rw [grp_after h.wf ts (trnsError_none_iff' hJ), grp_after h.wf' ts' (trnsError_none_iff' hK)]
    refine ButOrder.append ?_ ?_
    · refine ButOrder.map h.grp _ _ ?_
      intro g hg g' hr
      exact ⟨hr.1, h.grown ht hJ (fun x hx => List.mem_map.2 ⟨x, mem_grp_dated hg x hx, rfl⟩) hr.2⟩
    · refine ButOrder.map (R := Shuffled) ?_ _ _ ?_
      · refine ButOrder.filter ht _ _ ?_
        intro t t' hs
        rw [decide_eq_decide]
        exact h.fresh hs
      · intro t _ t' hs
        refine ⟨hs.1, ?_⟩
        unfold asGroup
        rw [hs.date]
        exact hs.2.map _

theorem entries_grp (J : Book) : J.entries = J.grp.map (fun g => ⟨g.1, g.2.map (·.2)⟩) := by
  unfold Spec.Book.entries Spec.Book.grp
  apply List.ext_getElem?
  intro k
  rw [List.getElem?_mapIdx, List.getElem?_map, List.getElem?_mapIdx, Option.map_map]
  congr 1
  funext hdr
  simp only [Function.comp_def, List.map_map]

theorem journal (h : Alike J K) : Reordered J.journal K.journal := by
  refine (Reordered.of_perm (journal_perm J)).trans (Reordered.trans ?_ (Reordered.of_perm (journal_perm K).symm))
  rw [entries_grp, entries_grp]
  exact ButOrder.map h.grp _ _ fun g _ g' hr => ⟨hr.1, hr.2.map _⟩

theorem step (h : Alike J K) {ts ts' : List TransactionPostings} (ht : Reordered ts ts') (hw : (J.step ts).WF) (hw' : (K.step ts').WF) :
    Alike (J.step ts) (K.step ts') := by
  have hb := h.bad ht
  by_cases hJ : J.Bad ts
  · have e1 : J.step ts = J := by unfold Book.step; exact if_pos hJ
    have e2 : K.step ts' = K := by unfold Book.step; exact if_pos (hb.1 hJ)
    rw [e1, e2]; exact h
  · have hK := fun x => hJ (hb.2 x)
    have e1 : J.step ts = J.after ts := by unfold Book.step; exact if_neg hJ
    have e2 : K.step ts' = K.after ts' := by unfold Book.step; exact if_neg hK
    rw [e1] at hw ⊢; rw [e2] at hw' ⊢
    exact h.after ht (good_iff.2 hJ) (good_iff.2 hK) hw hw'

theorem steps {m m' : Merger} (h : Alike J K) (hJ : R m J) (hK : R m' K) {hist hist' : List (List TransactionPostings)}
    (hh : List.Forall₂ Reordered hist hist') : Alike (hist.foldl Book.step J) (hist'.foldl Book.step K) := by
  induction hh generalizing J K m m' with
  | nil => exact h
  | @cons ts ts' _ _ ht _ ih =>
    have h1 := hJ.step HashOrder.sorted ts
    have h2 := hK.step HashOrder.sorted ts'
    exact ih (h.step ht h1.wf h2.wf) h1 h2

theorem softMatches (h : Alike J K) (d : Date) (p : PostingInternal) : (J.softMatches d p).Perm (K.softMatches d p) := by
  have key : ∀ J : Book, J.softMatches d p = softM J.dated d p := by
    intro J
    unfold Spec.Book.softMatches softM Spec.Book.dated
    rw [List.filter_map, List.map_map]; rfl
  rw [key, key]
  exact (h.dated.filter _).map _

theorem unclear (h : Alike J K) (d : Date) (p : PostingInternal) : J.Unclear d p ↔ K.Unclear d p := by
  have key : ∀ {J K : Book}, Alike J K → (∀ r ∈ J.recs, ¬ SharesFp r.post p) → ∀ r ∈ K.recs, ¬ SharesFp r.post p := by
    intro J K h hJ r hr
    have : (r.date, r.post) ∈ K.dated := List.mem_map.2 ⟨r, hr, rfl⟩
    obtain ⟨s, hs, he⟩ := List.mem_map.1 (h.dated.mem_iff.2 this)
    have he2 : s.post = r.post := (Prod.mk.inj he).2
    rw [← he2]; exact hJ s hs
  unfold Spec.Book.Unclear
  rw [(h.softMatches d p).length_eq]
  exact and_congr_left fun _ => ⟨key h, key h.symm⟩

theorem candidates (h : Alike J K) (d : Date) (p : PostingInternal) : (J.candidates d p).Perm (K.candidates d p) := by
  rw [candidates_eq, candidates_eq]
  by_cases hu : J.Unclear d p
  · rw [if_pos hu, if_pos ((h.unclear d p).1 hu)]; exact h.softMatches d p
  · rw [if_neg hu, if_neg (fun x => hu ((h.unclear d p).2 x))]

/-- The transactions handed back are the same but for order, with the same candidates. -/
theorem handedBack (h : Alike J K) (o o' : HashOrder) {ts ts' : List TransactionPostings} (ht : Reordered ts ts') :
    ∃ w, List.Forall₂ (HandedBackAlike J.journal) (J.handedBack (pickFp o J) ts) w ∧ Reordered w (K.handedBack (pickFp o' K) ts') := by
  refine ⟨K.handedBack (pickFp o' K) ts, ?_, ?_⟩
  · unfold Spec.Book.handedBack
    have : (fun t => decide (Undecided J t)) = fun t => decide (Undecided K t) := by
      funext t; rw [decide_eq_decide, h.undecided (Shuffled.refl t)]
    rw [this, List.forall₂_map_left_iff, List.forall₂_map_right_iff, List.forall₂_same]
    intro t _
    refine ⟨rfl, ?_⟩
    unfold handBack
    rw [List.forall₂_map_left_iff, List.forall₂_map_right_iff, List.forall₂_same]
    intro p _
    exact ⟨p, _, _, h.candidates (dateOf t) p, fun c hc => candidates_mem h.wf hc, handBackPost_annotated (pickFp_ok h.wf) _ p,
      handBackPost_annotated (pickFp_ok h.wf') _ p⟩
  · unfold Spec.Book.handedBack
    refine ButOrder.map (R := Shuffled) (ButOrder.filter ht _ _ ?_) _ _ ?_
    · intro t t' hs
      rw [decide_eq_decide]
      exact (refl h.wf').undecided hs
    · intro t _ t' hs
      refine ⟨hs.1, ?_⟩
      unfold handBack
      rw [hs.date]
      exact hs.2.map _

end Alike
end Verif
