import Verif.Model.MergePosting
import Verif.Spec.Posting
import Mathlib.Data.Rat.Lemmas
import Mathlib.Tactic.NormNum
import Mathlib.Tactic.FieldSimp

namespace Verif
open Spec

theorem numEq_iff (a b : Decimal) : a.numEq b = true ↔ value a = value b := by
  have h10 : ∀ n : Nat, (10 : Rat) ^ n ≠ 0 := fun n => pow_ne_zero _ (by norm_num)
  have hv : ∀ d : Decimal, value d = (d.sMant : Rat) / (10 : Rat) ^ d.scale := by
    intro d; unfold value Decimal.sMant; split <;> simp
  rw [hv, hv, div_eq_div_iff (h10 _) (h10 _)]
  simp only [Decimal.numEq, beq_iff_eq]
  exact_mod_cast Iff.rfl

theorem Amount.eqv_iff (a b : Amount) : a.eqv b = true ↔ SameAmount a b := by
  simp [Amount.eqv, SameAmount, numEq_iff]

theorem Price.eqv_iff (a b : Price) : a.eqv b = true ↔ SamePrice a b := by
  cases a <;> cases b <;> simp [Price.eqv, SamePrice, Amount.eqv_iff]

theorem optEqv_iff {α : Type} (f : α → α → Bool) (R : α → α → Prop) (h : ∀ a b, f a b = true ↔ R a b) (a b : Option α) :
    optEqv f a b = true ↔ OptRel R a b := by
  cases a <;> cases b <;> simp [optEqv, OptRel, h]

theorem PostingAmount.eqv_iff (a b : PostingAmount) : a.eqv b = true ↔ SamePostingAmount a b := by
  simp [PostingAmount.eqv, SamePostingAmount, Amount.eqv_iff, optEqv_iff _ _ Price.eqv_iff, and_assoc]

theorem Balance.eqv_iff (a b : Balance) : a.eqv b = true ↔ SameBalance a b := by
  cases a <;> cases b <;> simp [Balance.eqv, SameBalance, Amount.eqv_iff]

theorem unknownAccount_eq : Tags.unknownAccount = unknownTag := rfl
theorem candidatePrefix_eq : Tags.candidatePrefix = candPrefix := rfl
theorem fingerprintPrefix_eq : Tags.fingerprintPrefix = fpPrefix := rfl

theorem postingMatches_iff (a b : PostingInternal) : postingMatches a b = true ↔ SoftMatch a b := by
  have hb : (match a.raw.balance, b.raw.balance with
    | some aBal, some bBal => aBal.eqv bBal
    | _, _ => true) = true ↔ BalancesAgree a.raw.balance b.raw.balance := by
    cases a.raw.balance <;> cases b.raw.balance <;> simp [BalancesAgree, Balance.eqv_iff]
  unfold postingMatches SoftMatch UnknownAccount
  simp only [Bool.and_eq_true, optEqv_iff _ _ PostingAmount.eqv_iff, unknownAccount_eq, tagsOf]
  by_cases h1 : unknownTag ∈ a.comment.tags <;>
  by_cases h2 : unknownTag ∈ b.comment.tags <;>
  simp [h1, h2, and_assoc] <;> intros <;> exact hb

theorem postingMatches_eq (a b : PostingInternal) : postingMatches a b = decide (SoftMatch a b) := by
  rw [Bool.eq_iff_iff, postingMatches_iff]; simp

theorem isFingerprint_eq (t : Str) : isFingerprint t = decide (IsFp t) := by
  rw [Bool.eq_iff_iff, decide_eq_true_iff]
  exact List.isPrefixOf_iff_prefix

theorem isCandidate_eq (t : Str) : isCandidate t = decide (IsCand t) := by
  rw [Bool.eq_iff_iff, decide_eq_true_iff]
  exact List.isPrefixOf_iff_prefix

theorem mem_fps {p : PostingInternal} {f : Str} : f ∈ fps p ↔ f ∈ tagsOf p ∧ IsFp f := by
  simp [fps]

theorem nodup_of_lt {l : List Str} (h : l.Pairwise (fun a b => compare a b = .lt)) : l.Nodup := by
  refine h.imp ?_
  intro a b hab he
  subst he
  rw [Std.ReflOrd.compare_self] at hab
  cases hab

theorem tags_toList_nodup (s : TagSet) : s.toList.Nodup := nodup_of_lt Std.ExtTreeSet.ordered_toList

theorem fps_nodup (p : PostingInternal) : (fps p).Nodup := (tags_toList_nodup _).filter _

theorem fingerprintsFromComment_perm (h : HashOrder) (site : Site) (p : PostingInternal) :
    (fingerprintsFromComment h site p.comment).Perm (fps p) := by
  unfold fingerprintsFromComment fps
  have : isFingerprint = fun t => decide (IsFp t) := funext isFingerprint_eq
  rw [this]
  exact (h.iter_perm site _).filter _

theorem mem_fingerprintsFromComment {h : HashOrder} {site : Site} {p : PostingInternal} {f : Str} :
    f ∈ fingerprintsFromComment h site p.comment ↔ f ∈ fps p :=
  (fingerprintsFromComment_perm h site p).mem_iff

theorem mergeLines_eq (d s : List Str) :
    Comment.mergeLines d s = d ++ (s.filter (fun l => l ∉ d)).eraseDups := by
  induction s generalizing d with
  | nil => simp [Comment.mergeLines]
  | cons l ls ih =>
    unfold Comment.mergeLines
    by_cases h : l ∈ d
    · have h' : d.any (fun s => s == l) = true := by simpa using h
      simp [h', h, ih]
    · have h' : d.any (fun s => s == l) = false := by
        simp only [List.any_eq_false, beq_iff_eq]; intro x hx hxl; exact h (hxl ▸ hx)
      rw [h']
      simp only [Bool.false_eq_true, if_false, ih, List.filter_cons, h, not_false_eq_true, decide_true, if_true,
        List.eraseDups_cons, List.append_assoc, List.singleton_append, List.filter_filter, List.mem_append,
        List.mem_singleton, not_or]
      congr 4
      funext x
      rw [Bool.eq_iff_iff]; simp [and_comm]

theorem mem_mergedTags {d s : TagSet} {t : Str} : t ∈ mergedTags d s ↔
    if t = unknownTag then t ∈ d ∧ t ∈ s else t ∈ d ∨ t ∈ s := by
  unfold mergedTags
  by_cases ht : t = unknownTag
  · subst ht
    split <;> simp_all [Std.ExtTreeSet.mem_union_iff, Std.ExtTreeSet.mem_erase]
  · have : unknownTag ≠ t := fun h => ht h.symm
    split <;> simp_all [Std.ExtTreeSet.mem_union_iff, Std.ExtTreeSet.mem_erase]

theorem mergeStatus_eq (a b : Option Status) : mergeStatus a b = strongest a b := by
  rcases a with _ | _ | _ <;> rcases b with _ | _ | _ <;> rfl

theorem postingMerge_eq (d s : PostingInternal) : postingMerge d s = absorb d s := by
  unfold postingMerge absorb Comment.mergeFrom
  simp only [mergeStatus_eq, mergeLines_eq]
  have hc : (d.comment.tags.contains Tags.unknownAccount && !s.comment.tags.contains Tags.unknownAccount) =
      decide (UnknownAccount d ∧ ¬ UnknownAccount s) := by
    rw [Bool.eq_iff_iff, decide_eq_true_iff]
    simp [UnknownAccount, unknownAccount_eq, ← Bool.not_eq_true]
  rw [hc]
  congr 1
  · congr 1
    · simp
    · cases d.raw.balance <;> simp
  · congr 1
    apply Std.ExtTreeSet.ext_mem
    intro t
    rw [mem_mergedTags, unknownAccount_eq]
    unfold UnknownAccount
    by_cases ht : t = unknownTag
    · subst ht
      by_cases h1 : unknownTag ∈ d.comment.tags <;> by_cases h2 : unknownTag ∈ s.comment.tags <;>
        simp [h1, h2, Std.ExtTreeSet.mem_union_iff, Std.ExtTreeSet.mem_erase]
    · have : unknownTag ≠ t := fun h => ht h.symm
      by_cases h1 : unknownTag ∈ d.comment.tags <;> by_cases h2 : unknownTag ∈ s.comment.tags <;>
        simp [h1, h2, ht, this, Std.ExtTreeSet.mem_union_iff, Std.ExtTreeSet.mem_erase]

end Verif
