import Verif.Proofs.Plan
import Mathlib.Data.List.Nodup

/-!
# `make_pending` and `check_pending` on whole inputs
-/

namespace Verif
open Spec Spec.Book

/-- What an error says about the input. Internal errors and panics mean `False`. -/
def ErrMeans (J : Book) (ts : List TransactionPostings) : MergeErr → Prop
  | .candidateTag => HasCandidate ts
  | .noFingerprint => LacksFingerprint ts
  | .duplicateFingerprint => DuplicateFp ts
  | .multipleDestinations => J.Conflicting ts
  | .splitTransaction => J.Split ts
  | .sameDestination => J.SameDest ts
  | .internalFingerprint => False
  | .panic _ => False

theorem ErrMeans.bad {J : Book} {ts : List TransactionPostings} {e : MergeErr} (h : ErrMeans J ts e) : J.Bad ts := by
  cases e <;> simp only [ErrMeans] at h <;> unfold Bad <;> tauto

theorem allPosts_cons (t : TransactionPostings) (ts : List TransactionPostings) :
    allPosts (t :: ts) = t.posts ++ allPosts ts := by simp [allPosts]

/-- Everything that `make_pending` has checked when it succeeds. -/
structure Checked (J : Book) (ts : List TransactionPostings) : Prop where
  ok : ∀ p ∈ allPosts ts, PostOK p
  disjoint : (allPosts ts).Pairwise (fun p q => ¬ SharesFp p q)
  noConflict : ¬ J.Conflicting ts
  noSplit : ¬ J.Split ts

theorem ErrMeans.cons {J : Book} {t : TransactionPostings} {ts : List TransactionPostings} {e : MergeErr}
    (h : ErrMeans J ts e) (hne : e ≠ .sameDestination) : ErrMeans J (t :: ts) e := by
  cases e <;> simp only [ErrMeans] at h ⊢
  · obtain ⟨p, hp, x⟩ := h; exact ⟨p, by rw [allPosts_cons]; simp [hp], x⟩
  · obtain ⟨p, hp, x⟩ := h; exact ⟨p, by rw [allPosts_cons]; simp [hp], x⟩
  · unfold DuplicateFp at *; rw [allPosts_cons]; intro hp; exact h (List.pairwise_append.1 hp).2.1
  · obtain ⟨p, hp, x⟩ := h; exact ⟨p, by simp [hp], x⟩
  · obtain ⟨p, hp, x⟩ := h; exact ⟨p, by simp [hp], x⟩
  · exact absurd rfl hne

theorem makePendingLoop_spec {m : Merger} {J : Book} (hR : R m J) (h : HashOrder) (ts : List TransactionPostings)
    (n : Nat) (seen : TagSet) :
    (∃ e, m.makePendingLoop h ts n seen = .error e ∧ e ≠ .sameDestination ∧
      (ErrMeans J ts e ∨ (e = .duplicateFingerprint ∧ ∃ p ∈ allPosts ts, ∃ f ∈ fps p, f ∈ seen))) ∨
    (m.makePendingLoop h ts n seen = .ok (ts.map (trnPlan J h)) ∧ Checked J ts ∧
      ∀ p ∈ allPosts ts, ∀ f ∈ fps p, f ∉ seen) := by
  induction ts generalizing n seen with
  | nil =>
    right
    refine ⟨rfl, ⟨by simp [allPosts], by simp [allPosts], by simp [Conflicting], by simp [Split]⟩, by simp [allPosts]⟩
  | cons t ts ih =>
    unfold Merger.makePendingLoop
    simp only [bind, Except.bind]
    rcases toTransactionMergeAction_spec hR h n seen t with ⟨e, he, hte⟩ | ⟨n', seen', he, g1, g2, g3, g4, g5, g6⟩
    · left
      rw [he]
      cases hte with
      | post hpe =>
        cases hpe with
        | cand p hp x hx hc =>
          exact ⟨_, rfl, by simp, Or.inl ⟨p, by rw [allPosts_cons]; simp [hp], x, hx, hc⟩⟩
        | nofp p hp hf => exact ⟨_, rfl, by simp, Or.inl ⟨p, by rw [allPosts_cons]; simp [hp], hf⟩⟩
        | seen p hp f hf hs =>
          exact ⟨_, rfl, by simp, Or.inr ⟨rfl, p, by rw [allPosts_cons]; simp [hp], f, hf, hs⟩⟩
        | dup hd =>
          refine ⟨_, rfl, by simp, Or.inl ?_⟩
          unfold ErrMeans DuplicateFp
          rw [allPosts_cons]; intro hp; exact hd (List.pairwise_append.1 hp).1
        | multi p hp hv =>
          exact ⟨_, rfl, by simp, Or.inl ⟨t, by simp, by unfold verdicts; exact List.mem_map.2 ⟨p, hp, hv⟩⟩⟩
      | split hu i hi j hj hij => exact ⟨_, rfl, by simp, Or.inl ⟨t, by simp, hu, i, hi, j, hj, hij⟩⟩
    · rw [he]
      simp only
      rcases ih n' seen' with ⟨e, he', hne, hm⟩ | ⟨he', hc, hns⟩
      · left
        rw [he']
        refine ⟨e, rfl, hne, ?_⟩
        rcases hm with hm | ⟨rfl, p, hp, f, hf, hs⟩
        · exact Or.inl (hm.cons hne)
        · rcases (g6 f).1 hs with hs | ⟨q, hq, hfq⟩
          · exact Or.inr ⟨rfl, p, by rw [allPosts_cons]; simp [hp], f, hf, hs⟩
          · left
            unfold ErrMeans DuplicateFp
            rw [allPosts_cons]
            intro hpw
            exact (List.pairwise_append.1 hpw).2.2 q hq p hp ⟨f, hfq, hf⟩
      · right
        rw [he']
        refine ⟨rfl, ⟨?_, ?_, ?_, ?_⟩, ?_⟩
        · intro p hp
          rw [allPosts_cons, List.mem_append] at hp
          rcases hp with hp | hp
          · exact g1 p hp
          · exact hc.ok p hp
        · rw [allPosts_cons, List.pairwise_append]
          refine ⟨g2, hc.disjoint, ?_⟩
          rintro p hp q hq ⟨f, hf, hfq⟩
          exact hns q hq f hfq ((g6 f).2 (Or.inr ⟨p, hp, hf⟩))
        · rintro ⟨t', ht', hv⟩
          rcases List.mem_cons.1 ht' with rfl | ht'
          · exact g4 hv
          · exact hc.noConflict ⟨t', ht', hv⟩
        · rintro ⟨t', ht', hu, i, hi, j, hj, hij⟩
          rcases List.mem_cons.1 ht' with rfl | ht'
          · exact hij (g5 hu i hi j hj)
          · exact hc.noSplit ⟨t', ht', hu, i, hi, j, hj, hij⟩
        · intro p hp f hf
          rw [allPosts_cons, List.mem_append] at hp
          rcases hp with hp | hp
          · exact g3 p hp f hf
          · intro hfs; exact hns p hp f hf ((g6 f).2 (Or.inl hfs))

theorem makePending_spec {m : Merger} {J : Book} (hR : R m J) (h : HashOrder) (ts : List TransactionPostings) :
    (∃ e, m.makePending h ts = .error e ∧ ErrMeans J ts e) ∨
    (m.makePending h ts = .ok (ts.map (trnPlan J h)) ∧ Checked J ts) := by
  unfold Merger.makePending
  rcases makePendingLoop_spec hR h ts 0 ∅ with ⟨e, he, _, hm⟩ | ⟨he, hc, _⟩
  · left
    refine ⟨e, he, ?_⟩
    rcases hm with hm | ⟨rfl, p, hp, f, hf, hs⟩
    · exact hm
    · simp at hs
  · exact Or.inr ⟨he, hc⟩

/-! ### `check_pending` -/

/-- The destinations in a list of actions, in order. -/
def pendingDests : List TransactionMergeAction → List Nat
  | [] => []
  | .mergeInto pending _ :: rest => Merger.mergeDests pending.postActions ++ pendingDests rest
  | _ :: rest => pendingDests rest

theorem pendingDests_plan (J : Book) (h : HashOrder) (ts : List TransactionPostings) :
    pendingDests (ts.map (trnPlan J h)) = J.allDests ts := by
  induction ts with
  | nil => rfl
  | cons t ts ih =>
    unfold allDests at ih ⊢
    rw [List.map_cons, List.filter_cons]
    by_cases hu : Undecided J t
    · have : trnPlan J h t = .leaveUnmerged (J.handBack (pickFp h J) t) := by unfold trnPlan; rw [if_pos hu]
      rw [this]
      simp only [pendingDests, ih, hu, not_true, decide_false]
      rfl
    · simp only [hu, not_false_eq_true, decide_true, if_true, List.flatMap_cons]
      cases hd : (J.dests t).head?.bind J.trnOf with
      | some k =>
        have : trnPlan J h t = .mergeInto ⟨⟨t.trn, []⟩, trnActions J t⟩ k := by
          unfold trnPlan; rw [if_neg hu]; simp only [hd]
        rw [this]
        simp only [pendingDests, mergeDests_trnActions, ih]
      | none =>
        have : J.dests t = [] := by
          cases hl : J.dests t with
          | nil => rfl
          | cons i l =>
            rw [hl] at hd
            have hi : i < J.recs.length := dests_lt (t := t) (by rw [hl]; simp)
            simp [trnOf, List.getElem?_eq_getElem hi] at hd
        have hp : trnPlan J h t = .new ⟨⟨t.trn, []⟩, trnActions J t⟩ := by
          unfold trnPlan; rw [if_neg hu]; simp only [hd]
        rw [hp]
        simp only [pendingDests, ih, this, List.nil_append]

/-- Number of sources recorded for a destination. -/
def cnt (m : Std.ExtTreeMap Nat (List Input) compare) (d : Nat) : Nat := ((m[d]?).getD []).length

theorem cnt_fold (as : List (Input × PostingMergeAction)) (m : Std.ExtTreeMap Nat (List Input) compare) (d : Nat) :
    cnt (as.foldl (fun m a =>
      match a.2 with
      | .new => m
      | .mergeIntoExisting d => m.insert d ((m[d]?).getD [] ++ [a.1])) m) d = cnt m d + (Merger.mergeDests as).count d := by
  induction as generalizing m with
  | nil => simp [Merger.mergeDests]
  | cons a as ih =>
    rcases a with ⟨i, _ | e⟩
    · rw [List.foldl_cons, ih]; simp [Merger.mergeDests]
    · rw [List.foldl_cons, ih]
      have : Merger.mergeDests ((i, .mergeIntoExisting e) :: as) = e :: Merger.mergeDests as := rfl
      rw [this, List.count_cons]
      unfold cnt
      rw [Std.ExtTreeMap.getElem?_insert]
      by_cases hde : e = d
      · subst hde; simp; omega
      · have : ¬ compare e d = .eq := by simpa using hde
        simp [hde]

theorem cnt_srcByDest (pend : List TransactionMergeAction) (m : Std.ExtTreeMap Nat (List Input) compare) (d : Nat) :
    cnt (Merger.srcByDest m pend) d = cnt m d + (pendingDests pend).count d := by
  induction pend generalizing m with
  | nil => simp [Merger.srcByDest, pendingDests]
  | cons a rest ih =>
    cases a with
    | new p => simp only [Merger.srcByDest, pendingDests, ih]
    | leaveUnmerged t => simp only [Merger.srcByDest, pendingDests, ih]
    | mergeInto p k =>
      simp only [Merger.srcByDest, pendingDests]
      rw [ih, List.count_append]
      refine (congrArg (· + _) (cnt_fold p.postActions m d)).trans ?_
      omega

theorem checkDests_spec {m : Merger} {J : Book} (hR : R m J) (l : List (Nat × List Input))
    (hl : ∀ e ∈ l, e.2.length > 1 → e.1 < J.recs.length) :
    (m.checkDests l = .error .sameDestination ∧ ∃ e ∈ l, e.2.length > 1) ∨
    (m.checkDests l = .ok () ∧ ∀ e ∈ l, e.2.length ≤ 1) := by
  induction l with
  | nil => right; exact ⟨rfl, by simp⟩
  | cons e l ih =>
    unfold Merger.checkDests
    rcases e with ⟨dest, srcs⟩
    by_cases hs : srcs.length > 1
    · left
      have := hl (dest, srcs) (by simp) hs
      rw [if_pos hs, hR.get, List.getElem?_eq_getElem this]
      exact ⟨rfl, (dest, srcs), by simp, hs⟩
    · rw [if_neg hs]
      rcases ih (fun e he => hl e (by simp [he])) with ⟨h1, e, he, h2⟩ | ⟨h1, h2⟩
      · left; exact ⟨h1, e, by simp [he], h2⟩
      · right
        refine ⟨h1, ?_⟩
        intro e he
        rcases List.mem_cons.1 he with rfl | he
        · simpa using hs
        · exact h2 e he

theorem checkPending_spec {m : Merger} {J : Book} (hR : R m J) (h : HashOrder) (ts : List TransactionPostings) :
    (m.checkPending h (ts.map (trnPlan J h)) = .error .sameDestination ∧ J.SameDest ts) ∨
    (m.checkPending h (ts.map (trnPlan J h)) = .ok () ∧ ¬ J.SameDest ts) := by
  unfold Merger.checkPending
  set M := Merger.srcByDest ∅ (ts.map (trnPlan J h)) with hM
  have hcnt : ∀ d, cnt M d = (J.allDests ts).count d := by
    intro d
    rw [hM, cnt_srcByDest, pendingDests_plan]
    simp [cnt]
  have hmem : ∀ e, e ∈ h.iter .srcByDest M.toList ↔ M[e.1]? = some e.2 := by
    intro e
    rw [(h.iter_perm _ _).mem_iff]
    exact Std.ExtTreeMap.mem_toList_iff_getElem?_eq_some (k := e.1) (v := e.2)
  have hlen : ∀ e ∈ h.iter .srcByDest M.toList, e.2.length = (J.allDests ts).count e.1 := by
    intro e he
    rw [← hcnt, cnt, (hmem e).1 he]; rfl
  have hlt : ∀ d ∈ J.allDests ts, d < J.recs.length := by
    intro d hd
    unfold allDests at hd
    obtain ⟨t, _, hd⟩ := List.mem_flatMap.1 hd
    exact dests_lt hd
  have hv : ∀ e ∈ h.iter .srcByDest M.toList, e.2.length > 1 → e.1 < J.recs.length := by
    intro e he hgt
    rw [hlen e he] at hgt
    exact hlt _ (List.count_pos_iff.1 (by omega))
  unfold SameDest
  rcases checkDests_spec hR _ hv with ⟨h1, e, he, h2⟩ | ⟨h1, h2⟩
  · left
    refine ⟨h1, ?_⟩
    rw [hlen e he] at h2
    rw [List.nodup_iff_count_le_one]
    push Not
    exact ⟨e.1, h2⟩
  · right
    refine ⟨h1, ?_⟩
    rw [not_not, List.nodup_iff_count_le_one]
    intro d
    rw [← hcnt]
    unfold cnt
    cases hd : M[d]? with
    | none => simp
    | some l => exact h2 (d, l) ((hmem (d, l)).2 hd)

end Verif
