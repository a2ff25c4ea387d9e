import Verif.Spec.Order
import Verif.Props.BalanceExact
import Verif.Proofs.Overlap
import Verif.Proofs.Transfer
import Verif.Props.Convergence
import Mathlib.Data.List.Perm.Basic
import Mathlib.Data.List.Dedup

/-!
# Two inputs in either order
-/

namespace Verif
open Spec Spec.Book

open Classical in
/-- Two lists, some members of which belong together: those of the first list and what is left of the second are, member for
member, those of the second and what is left of the first, but for their order. -/
theorem either_way {α β γ : Type} {a : List α} {b : List β} {M : α → β → Prop} {R : γ → γ → Prop} {f j : α → γ} {g i : β → γ}
    (ha : a.Nodup) (hb : b.Nodup)
    (h1 : ∀ x ∈ a, ∀ y ∈ b, ∀ y' ∈ b, M x y → M x y' → y = y')
    (h2 : ∀ x ∈ a, ∀ x' ∈ a, ∀ y ∈ b, M x y → M x' y → x = x')
    (hm : ∀ x ∈ a, ∀ y ∈ b, M x y → R (f x) (g y))
    (hl : ∀ x ∈ a, (∀ y ∈ b, ¬ M x y) → R (f x) (j x))
    (hr : ∀ y ∈ b, (∀ x ∈ a, ¬ M x y) → R (i y) (g y)) :
    ∃ l, l.Perm (b.map g ++ (a.filter fun x => ¬ ∃ y ∈ b, M x y).map j) ∧
      List.Forall₂ R (a.map f ++ (b.filter fun y => ¬ ∃ x ∈ a, M x y).map i) l := by
  by_cases hb0 : Nonempty β
  swap
  · have : b = [] := by
      cases b with
      | nil => rfl
      | cons y _ => exact absurd ⟨y⟩ hb0
    subst this
    refine ⟨a.map j, ?_, ?_⟩
    · rw [List.filter_eq_self.2 (by simp)]
      simp
    · simp only [List.filter_nil, List.map_nil, List.append_nil]
      rw [List.forall₂_map_left_iff, List.forall₂_map_right_iff, List.forall₂_same]
      exact fun x hx => hl x hx (by simp)
  · let π : α → β := fun x => if h : ∃ y ∈ b, M x y then h.choose else Classical.choice hb0
    have hπ : ∀ x, (∃ y ∈ b, M x y) → π x ∈ b ∧ M x (π x) := by
      intro x h
      simp only [π, dif_pos h]
      exact h.choose_spec
    refine ⟨a.map (fun x => if ∃ y ∈ b, M x y then g (π x) else j x) ++ (b.filter fun y => ¬ ∃ x ∈ a, M x y).map g, ?_, ?_⟩
    · have e1 : (a.map fun x => if ∃ y ∈ b, M x y then g (π x) else j x).Perm
          ((a.filter fun x => ∃ y ∈ b, M x y).map (fun x => g (π x)) ++ (a.filter fun x => ¬ ∃ y ∈ b, M x y).map j) := by
        have e := (List.filter_append_perm (fun x => decide (∃ y ∈ b, M x y)) a).map fun x => if ∃ y ∈ b, M x y then g (π x) else j x
        rw [List.map_append] at e
        refine e.symm.trans (List.Perm.of_eq ?_)
        congr 1
        · refine List.map_congr_left fun x hx => ?_
          rw [List.mem_filter, decide_eq_true_iff] at hx
          rw [if_pos hx.2]
        · have : (a.filter fun x => !decide (∃ y ∈ b, M x y)) = a.filter fun x => ¬ ∃ y ∈ b, M x y := by
            apply List.filter_congr; intro x _; exact decide_not.symm
          rw [this]
          refine List.map_congr_left fun x hx => ?_
          rw [List.mem_filter, decide_eq_true_iff] at hx
          rw [if_neg hx.2]
      have e2 : ((a.filter fun x => ∃ y ∈ b, M x y).map π).Perm (b.filter fun y => ∃ x ∈ a, M x y) := by
        rw [List.perm_ext_iff_of_nodup]
        · intro y
          rw [List.mem_map, List.mem_filter, decide_eq_true_iff]
          constructor
          · rintro ⟨x, hx, rfl⟩
            rw [List.mem_filter, decide_eq_true_iff] at hx
            exact ⟨(hπ x hx.2).1, x, hx.1, (hπ x hx.2).2⟩
          · rintro ⟨hy, x, hx, hxy⟩
            refine ⟨x, ?_, ?_⟩
            · rw [List.mem_filter, decide_eq_true_iff]
              exact ⟨hx, y, hy, hxy⟩
            · obtain ⟨p1, p2⟩ := hπ x ⟨y, hy, hxy⟩
              exact h1 x hx _ p1 _ hy p2 hxy
        · refine List.Nodup.map_on ?_ (ha.filter _)
          intro x hx x' hx' he
          rw [List.mem_filter, decide_eq_true_iff] at hx hx'
          obtain ⟨p1, p2⟩ := hπ x hx.2
          obtain ⟨p1', p2'⟩ := hπ x' hx'.2
          exact h2 x hx.1 x' hx'.1 (π x) p1 p2 (he ▸ p2')
        · exact hb.filter _
      have e3 := e2.map g
      rw [List.map_map] at e3
      have e4 : (b.map g).Perm ((b.filter fun y => ∃ x ∈ a, M x y).map g ++ (b.filter fun y => ¬ ∃ x ∈ a, M x y).map g) := by
        have e := (List.filter_append_perm (fun y => decide (∃ x ∈ a, M x y)) b).map g
        rw [List.map_append] at e
        have : (b.filter fun y => !decide (∃ x ∈ a, M x y)) = b.filter fun y => ¬ ∃ x ∈ a, M x y := by
          apply List.filter_congr; intro x _; exact decide_not.symm
        rw [this] at e
        exact e.symm
      refine (e1.append_right _).trans ?_
      refine ((e3.append_right _).append_right _).trans ?_
      refine List.Perm.trans ?_ (e4.symm.append_right _)
      rw [List.append_assoc, List.append_assoc]
      exact List.Perm.append_left _ List.perm_append_comm
    · refine List.rel_append ?_ ?_
      · rw [List.forall₂_map_left_iff, List.forall₂_map_right_iff, List.forall₂_same]
        intro x hx
        split_ifs with h
        · exact hm x hx _ (hπ x h).1 (hπ x h).2
        · exact hl x hx fun y hy hxy => h ⟨y, hy, hxy⟩
      · rw [List.forall₂_map_left_iff, List.forall₂_map_right_iff, List.forall₂_same]
        intro y hy
        rw [List.mem_filter, decide_eq_true_iff] at hy
        exact hr y hy.1 fun x hx hxy => hy.2 ⟨x, hx, hxy⟩

/-! ### The records of a file in an empty book -/

theorem newRecs_get {c : Nat} {ts : List TransactionPostings} {r : Rec} (h : r ∈ newRecs c ts) :
    ∃ k t, r.trn = c + k ∧ ts[k]? = some t ∧ r.date = dateOf t ∧ r.post ∈ t.posts := by
  induction ts generalizing c with
  | nil => cases h
  | cons t ts ih =>
    rcases List.mem_append.1 h with h | h
    · obtain ⟨p, hp, rfl⟩ := List.mem_map.1 h
      exact ⟨0, t, rfl, rfl, rfl, hp⟩
    · obtain ⟨k, u, h1, h2, h3⟩ := ih h
      exact ⟨k + 1, u, by omega, by simpa using h2, h3⟩

theorem newRecs_of {c : Nat} {ts : List TransactionPostings} {k : Nat} {t : TransactionPostings} (ht : ts[k]? = some t)
    {p : PostingInternal} (hp : p ∈ t.posts) : (⟨c + k, dateOf t, p⟩ : Rec) ∈ newRecs c ts := by
  induction ts generalizing c k with
  | nil => simp at ht
  | cons u ts ih =>
    rw [newRecs, List.mem_append]
    cases k with
    | zero =>
      cases ht
      exact .inl (List.mem_map.2 ⟨p, hp, rfl⟩)
    | succ k =>
      right
      have := ih (c := c + 1) (k := k) (by simpa using ht)
      rwa [show c + 1 + k = c + (k + 1) from by omega] at this

/-- Two files of which the second can be merged after the first, without anything being handed back. -/
structure OneAfter (A B : List TransactionPostings) : Prop where
  ne : ∀ t ∈ A, t.posts ≠ []
  goodA : Good Book.empty A
  good : Good (Book.empty.after A) B
  dec : ∀ u ∈ B, ¬ Undecided (Book.empty.after A) u

/-- The posting `q` of the file `B` is taken for the posting `p` of `A`. -/
def Pairs (A B : List TransactionPostings) (p q : PostingInternal) : Prop :=
  ∃ t ∈ A, p ∈ t.posts ∧ ∃ u ∈ B, q ∈ u.posts ∧ Taken A t p u q

/-- A posting of the transaction `u` of the file `B` is taken for a posting of `t` of `A`. -/
def PairsTrn (A B : List TransactionPostings) (t u : TransactionPostings) : Prop := ∃ p ∈ t.posts, ∃ q ∈ u.posts, Pairs A B p q

namespace OneAfter
variable {A B : List TransactionPostings}

theorem allNew (h : OneAfter A B) : AllNew Book.empty A := fun t ht => ⟨h.ne t ht, fun _ _ => rfl⟩

theorem after_eq (h : OneAfter A B) : Book.empty.after A = ⟨A.map (·.trn), newRecs 0 A⟩ := by
  rw [h.allNew.after]
  rfl

theorem recs_eq (h : OneAfter A B) : (Book.empty.after A).recs = newRecs 0 A := by rw [h.after_eq]
theorem hdrs_eq (h : OneAfter A B) : (Book.empty.after A).hdrs = A.map (·.trn) := by rw [h.after_eq]

theorem neB (h : OneAfter A B) : ∀ u ∈ B, u.posts ≠ [] := fun u hu he => h.dec u hu (.inl he)

theorem wf (h : OneAfter A B) : (Book.empty.after A).WF := by
  have := merge_spec R_new HashOrder.sorted A
  rcases this with ⟨hb, _⟩ | ⟨_, m', _, hR⟩
  · exact absurd hb (good_iff.1 h.goodA)
  · exact hR.wf

theorem recOf (h : OneAfter A B) {r : Rec} (hr : r ∈ (Book.empty.after A).recs) :
    ∃ t, A[r.trn]? = some t ∧ r.date = dateOf t ∧ r.post ∈ t.posts := by
  rw [h.recs_eq] at hr
  obtain ⟨k, t, h1, h2, h3⟩ := newRecs_get hr
  rw [Nat.zero_add] at h1
  exact ⟨t, h1 ▸ h2, h3⟩

theorem ofRec (h : OneAfter A B) {k : Nat} {t : TransactionPostings} (ht : A[k]? = some t) {p : PostingInternal} (hp : p ∈ t.posts) :
    (⟨k, dateOf t, p⟩ : Rec) ∈ (Book.empty.after A).recs := by
  rw [h.recs_eq]
  have := newRecs_of (c := 0) ht hp
  rwa [Nat.zero_add] at this

/-- A posting belongs to one transaction. -/
theorem home (h : OneAfter A B) {t t' : TransactionPostings} (ht : t ∈ A) (ht' : t' ∈ A) {p : PostingInternal} (hp : p ∈ t.posts)
    (hp' : p ∈ t'.posts) : t = t' := h.goodA.trn_eq ht ht' hp hp'
theorem homeB (h : OneAfter A B) {t t' : TransactionPostings} (ht : t ∈ B) (ht' : t' ∈ B) {p : PostingInternal} (hp : p ∈ t.posts)
    (hp' : p ∈ t'.posts) : t = t' := h.good.trn_eq ht ht' hp hp'

theorem taken_iff (h : OneAfter A B) {r : Rec} {t : TransactionPostings}
    (hd : r.date = dateOf t) {u : TransactionPostings} {q : PostingInternal} :
    (Book.empty.after A).TakenFor (dateOf u) q r ↔ Taken A t r.post u q := by
  unfold Book.TakenFor Taken
  rw [hd]
  have : (∀ r' ∈ (Book.empty.after A).recs, ¬ SharesFp r'.post q) ↔ ∀ p' ∈ allPosts A, ¬ SharesFp p' q := by
    constructor
    · intro hx p' hp'
      obtain ⟨t', ht', hp'⟩ := mem_allPosts.1 hp'
      obtain ⟨k, hk⟩ := List.mem_iff_getElem?.1 ht'
      exact hx _ (h.ofRec hk hp')
    · intro hx r' hr'
      obtain ⟨t', ht', _, hp'⟩ := h.recOf hr'
      exact hx _ (mem_allPosts.2 ⟨t', List.mem_of_getElem? ht', hp'⟩)
  rw [this]

/-- A posting goes into a record exactly if it is taken for the posting there. -/
theorem into_pairs (h : OneAfter A B) {i : Nat} {r : Rec} (hr : (Book.empty.after A).recs[i]? = some r) {u : TransactionPostings}
    (hu : u ∈ B) {q : PostingInternal} (hq : q ∈ u.posts) :
    (Book.empty.after A).verdict (dateOf u) q = .into i ↔ Pairs A B r.post q := by
  obtain ⟨t, ht, hd, hp⟩ := h.recOf (List.mem_of_getElem? hr)
  rw [into_iff (decided_clear (h.dec u hu) hq) (not_conflict h.good hu hq) hr, h.taken_iff hd]
  constructor
  · intro hx
    exact ⟨t, List.mem_of_getElem? ht, hp, u, hu, hq, hx⟩
  · rintro ⟨t', ht', hp', u', hu', hq', hx⟩
    rw [h.home (List.mem_of_getElem? ht) ht' hp hp', h.homeB hu hu' hq hq']
    exact hx

theorem mem_hits_iff (h : OneAfter A B) {i : Nat} {r : Rec} (hr : (Book.empty.after A).recs[i]? = some r) {q : PostingInternal} :
    q ∈ (Book.empty.after A).hits B i ↔ Pairs A B r.post q := by
  rw [mem_hits]
  constructor
  · rintro ⟨u, hu, _, hq, hv⟩
    exact (h.into_pairs hr hu hq).1 hv
  · intro hx
    have hx' := hx
    obtain ⟨t, ht, hp, u, hu, hq, _⟩ := hx'
    exact ⟨u, hu, h.dec u hu, hq, (h.into_pairs hr hu hq).2 hx⟩

/-- Every posting of the first file is in a record. -/
theorem index (h : OneAfter A B) {p : PostingInternal} (hp : p ∈ allPosts A) :
    ∃ (i : Nat) (r : Rec), (Book.empty.after A).recs[i]? = some r ∧ r.post = p := by
  obtain ⟨t, ht, hp⟩ := mem_allPosts.1 hp
  obtain ⟨k, hk⟩ := List.mem_iff_getElem?.1 ht
  obtain ⟨i, hi⟩ := List.mem_iff_getElem?.1 (h.ofRec hk hp)
  exact ⟨i, _, hi, rfl⟩

theorem pairs_left {p q : PostingInternal} (hx : Pairs A B p q) : p ∈ allPosts A := by
  obtain ⟨t, ht, hp, _⟩ := hx
  exact mem_allPosts.2 ⟨t, ht, hp⟩

/-- No two postings are taken for the same. -/
theorem pairs_right_unique (h : OneAfter A B) {p q q' : PostingInternal} (hx : Pairs A B p q) (hx' : Pairs A B p q') : q = q' := by
  obtain ⟨i, r, hi, rfl⟩ := h.index (pairs_left hx)
  exact h.good.hits_eq ((h.mem_hits_iff hi).2 hx) ((h.mem_hits_iff hi).2 hx')

/-- No posting is taken for two. -/
theorem pairs_left_unique (h : OneAfter A B) {p p' q : PostingInternal} (hx : Pairs A B p q) (hx' : Pairs A B p' q) : p = p' := by
  obtain ⟨i, r, hi, rfl⟩ := h.index (pairs_left hx)
  obtain ⟨i', r', hi', rfl⟩ := h.index (pairs_left hx')
  have hy := hx
  obtain ⟨_, _, _, u, hu, hq, _⟩ := hy
  have h1 := (h.into_pairs hi hu hq).2 hx
  have h2 := (h.into_pairs hi' hu hq).2 hx'
  rw [h1] at h2
  cases h2
  rw [hi] at hi'
  cases hi'
  rfl

/-- If one is taken for the other, so is the other for the one. -/
theorem pairs_symm (h : OneAfter A B) {p q : PostingInternal} (hx : Pairs A B p q) : Pairs B A q p := by
  have hy := hx
  obtain ⟨t, ht, hp, u, hu, hq, hr⟩ := hy
  refine ⟨u, hu, hq, t, ht, hp, ?_⟩
  by_cases hs : SharesFp p q
  · exact .inl (sharesFp_comm.1 hs)
  · rcases hr with hr | ⟨h1, h2, h3⟩
    · exact absurd hr hs
    · refine .inr ⟨?_, h2.symm, softMatch_comm h3⟩
      intro q' hq' hs'
      obtain ⟨u', hu', hq'⟩ := mem_allPosts.1 hq'
      have : Pairs A B p q' := ⟨t, ht, hp, u', hu', hq', .inl (sharesFp_comm.1 hs')⟩
      rw [h.pairs_right_unique this hx] at hs'
      exact hs (sharesFp_comm.1 hs')

/-- The transaction that is joined. -/
theorem trn_left_unique (h : OneAfter A B) {t t' u : TransactionPostings} (ht : t ∈ A) (ht' : t' ∈ A) (hu : u ∈ B)
    (hx : PairsTrn A B t u) (hx' : PairsTrn A B t' u) : t = t' := by
  obtain ⟨p, hp, q, hq, hx⟩ := hx
  obtain ⟨p', hp', q', hq', hx'⟩ := hx'
  obtain ⟨i, r, hi, rfl⟩ := h.index (pairs_left hx)
  obtain ⟨i', r', hi', rfl⟩ := h.index (pairs_left hx')
  have d1 := mem_dests.2 ⟨q, hq, (h.into_pairs hi hu hq).2 hx⟩
  have d2 := mem_dests.2 ⟨q', hq', (h.into_pairs hi' hu hq').2 hx'⟩
  have e : (Book.empty.after A).trnOf i = (Book.empty.after A).trnOf i' := by
    by_contra hne
    exact h.good.noSplit ⟨u, hu, h.dec u hu, i, d1, i', d2, hne⟩
  rw [trnOf, trnOf, hi, hi'] at e
  simp only [Option.map_some, Option.some.injEq] at e
  obtain ⟨s, hs, _, hps⟩ := h.recOf (List.mem_of_getElem? hi)
  obtain ⟨s', hs', _, hps'⟩ := h.recOf (List.mem_of_getElem? hi')
  rw [e, hs'] at hs
  cases hs
  rw [h.home ht (List.mem_of_getElem? hs') hp hps, h.home ht' (List.mem_of_getElem? hs') hp' hps']

open Classical in
/-- A posting of the first file after the second has been merged. -/
noncomputable def merged (A B : List TransactionPostings) (p : PostingInternal) : PostingInternal :=
  if h : ∃ q, Pairs A B p q then absorb p h.choose else p

theorem merged_of (h : OneAfter A B) {p q : PostingInternal} (hx : Pairs A B p q) : merged A B p = absorb p q := by
  have he : ∃ q, Pairs A B p q := ⟨q, hx⟩
  rw [merged, dif_pos he, h.pairs_right_unique he.choose_spec hx]

theorem merged_none {p : PostingInternal} (hx : ∀ q, ¬ Pairs A B p q) : merged A B p = p := by
  rw [merged, dif_neg]
  rintro ⟨q, hq⟩
  exact hx q hq

theorem fold_hits (h : OneAfter A B) {i : Nat} {r : Rec} (hr : (Book.empty.after A).recs[i]? = some r) :
    ((Book.empty.after A).hits B i).foldl absorb r.post = merged A B r.post := by
  by_cases he : ∃ q, Pairs A B r.post q
  · obtain ⟨q, hq⟩ := he
    rw [h.good.hits_one ((h.mem_hits_iff hr).2 hq), h.merged_of hq]
    rfl
  · rw [merged_none fun q hq => he ⟨q, hq⟩]
    have : (Book.empty.after A).hits B i = [] := by
      rw [List.eq_nil_iff_forall_not_mem]
      exact fun q hq => he ⟨q, (h.mem_hits_iff hr).1 hq⟩
    rw [this]
    rfl

/-- A posting is recognised if it is taken for something. -/
theorem recognised_iff (h : OneAfter A B) {u : TransactionPostings} (hu : u ∈ B) {q : PostingInternal} (hq : q ∈ u.posts) :
    (Book.empty.after A).Recognised (dateOf u) q ↔ ∃ p, Pairs A B p q := by
  have hd := dest_iff (decided_clear (h.dec u hu) hq) (not_conflict h.good hu hq)
  constructor
  · intro hr
    cases hv : (Book.empty.after A).verdict (dateOf u) q with
    | into i =>
      have hlt := dests_lt (mem_dests.2 ⟨q, hq, hv⟩)
      exact ⟨_, (h.into_pairs (List.getElem?_eq_getElem hlt) hu hq).1 hv⟩
    | _ => exact absurd hr (hd.1 (by rw [hv]; rfl))
  · rintro ⟨p, hx⟩
    by_contra hn
    obtain ⟨i, r, hi, rfl⟩ := h.index (pairs_left hx)
    have := hd.2 hn
    rw [(h.into_pairs hi hu hq).2 hx] at this
    cases this

theorem joins_pairs (h : OneAfter A B) {k : Nat} {t : TransactionPostings} (ht : A[k]? = some t) {u : TransactionPostings} (hu : u ∈ B) :
    (Book.empty.after A).Joins k u ↔ PairsTrn A B t u := by
  constructor
  · rintro ⟨_, q, hq, r, hr, rfl, hx⟩
    obtain ⟨t', ht', hd, hp⟩ := h.recOf hr
    rw [ht] at ht'
    cases ht'
    rw [h.taken_iff hd] at hx
    exact ⟨_, hp, q, hq, t, List.mem_of_getElem? ht, hp, u, hu, hq, hx⟩
  · rintro ⟨p, hp, q, hq, hx⟩
    refine ⟨h.dec u hu, q, hq, _, h.ofRec ht hp, rfl, ?_⟩
    rw [h.taken_iff rfl]
    obtain ⟨t', ht', hp', u', hu', hq', hx⟩ := hx
    rw [h.home (List.mem_of_getElem? ht) ht' hp hp', h.homeB hu hu' hq hq']
    exact hx

open Classical in
/-- A transaction of the first file after the second has been merged. -/
noncomputable def grown (A B : List TransactionPostings) (t : TransactionPostings) : TransactionPostings :=
  ⟨t.trn, t.posts.map (merged A B) ++ (B.filter fun u => PairsTrn A B t u).flatMap fun u => u.posts.filter fun q => ¬ ∃ p ∈ t.posts, Pairs A B p q⟩

open Classical in
theorem addedTo_eq (h : OneAfter A B) {k : Nat} {t : TransactionPostings} (ht : A[k]? = some t) :
    (Book.empty.after A).addedTo B k =
      (B.filter fun u => PairsTrn A B t u).flatMap fun u => u.posts.filter fun q => ¬ ∃ p ∈ t.posts, Pairs A B p q := by
  unfold Book.addedTo
  have e : (B.filter fun u => (Book.empty.after A).Joins k u) = B.filter fun u => PairsTrn A B t u := by
    apply List.filter_congr
    intro u hu
    rw [decide_eq_decide]
    exact h.joins_pairs ht hu
  rw [e]
  refine List.flatMap_congr ?_
  intro u hu
  rw [List.mem_filter, decide_eq_true_iff] at hu
  apply List.filter_congr
  intro q hq
  rw [decide_eq_decide, h.recognised_iff hu.1 hq]
  refine not_congr ⟨?_, ?_⟩
  · rintro ⟨p, hx⟩
    have hy := hx
    obtain ⟨t', ht', hp', _⟩ := hy
    rw [← h.trn_left_unique (List.mem_of_getElem? ht) ht' hu.1 hu.2 ⟨p, hp', q, hq, hx⟩] at hp'
    exact ⟨p, hp', hx⟩
  · rintro ⟨p, _, hx⟩
    exact ⟨p, hx⟩

open Classical in
/-- The book after both files. -/
theorem entries (h : OneAfter A B) : ((Book.empty.after A).after B).entries =
    A.map (grown A B) ++ B.filter fun u => ¬ ∃ t ∈ A, PairsTrn A B t u := by
  obtain ⟨old, ho, hf⟩ := entries_after h.wf B
  have hlen : old.length = A.length := by rw [← hf.length_eq, entries_empty_after h.ne]
  have hh : (Book.empty.after A).hdrs.length = A.length := by rw [h.hdrs_eq]; simp
  have hfr : B.filter ((Book.empty.after A).Fresh ·) = B.filter fun u => ¬ ∃ t ∈ A, PairsTrn A B t u := by
    apply List.filter_congr
    intro u hu
    rw [decide_eq_decide, standsAlone_iff h.good hu]
    constructor
    · rintro ⟨_, hn⟩ ⟨t, ht, p, hp, q, hq, hx⟩
      exact hn q hq ((h.recognised_iff hu hq).2 ⟨p, hx⟩)
    · intro hn
      refine ⟨h.neB u hu, fun q hq hr => ?_⟩
      obtain ⟨p, hx⟩ := (h.recognised_iff hu hq).1 hr
      have hy := hx
      obtain ⟨t, ht, hp, _⟩ := hy
      exact hn ⟨t, ht, p, hp, q, hq, hx⟩
  rw [ho, hfr]
  congr 1
  apply List.ext_getElem?
  intro k
  rw [List.getElem?_map]
  by_cases hk : k < A.length
  · have ht : A[k]? = some A[k] := List.getElem?_eq_getElem hk
    have h1 : ((Book.empty.after A).after B).entries[k]? = old[k]? := by rw [ho, List.getElem?_append_left (by omega)]
    rw [← h1, ht]
    unfold Spec.Book.entries
    rw [List.getElem?_mapIdx]
    have hhdr : ((Book.empty.after A).after B).hdrs[k]? = some A[k].trn := by
      rw [after_hdrs, List.getElem?_append_left (by omega), h.hdrs_eq, List.getElem?_map, ht]
      rfl
    rw [hhdr]
    simp only [Option.map_some, Option.some.injEq, grown]
    congr 1
    rw [after_recs, List.filter_append, List.map_append, news_joined h.good (by omega) B (fun _ h => h) _ (Nat.le_refl _), h.addedTo_eq ht]
    congr 1
    have e : (Book.empty.after A).recs.mapIdx (fun i r => { r with post := ((Book.empty.after A).hits B i).foldl absorb r.post }) =
        (Book.empty.after A).recs.map fun r => { r with post := merged A B r.post } := by
      apply List.ext_getElem?
      intro i
      rw [List.getElem?_mapIdx, List.getElem?_map]
      cases hr : (Book.empty.after A).recs[i]? with
      | none => rfl
      | some r => simp only [Option.map_some, h.fold_hits hr]
    rw [e, List.filter_map, List.map_map]
    have e2 := congrArg (·[k]?) (entries_empty_after h.ne)
    simp only [Spec.Book.entries, List.getElem?_mapIdx, h.hdrs_eq, List.getElem?_map, ht, Option.map_some, Option.some.injEq] at e2
    have e3 := congrArg TransactionPostings.posts e2
    simp only at e3
    rw [← e3, List.map_map]
    rfl
  · rw [List.getElem?_eq_none (by omega), List.getElem?_eq_none (by omega)]
    rfl

end OneAfter

end Verif
