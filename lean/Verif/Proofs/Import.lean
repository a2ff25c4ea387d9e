import Verif.Spec.Import
import Verif.Model.NationwideCsv
import Mathlib.Data.Rat.Lemmas
import Mathlib.Algebra.Order.Field.Rat
import Mathlib.Algebra.Order.Field.Basic
import Mathlib.Tactic.Ring
import Mathlib.Tactic.Linarith

/-!
# What importers make: comments, postings, pairs of postings
-/

namespace Verif
open Spec

namespace Spec.CommentSays

theorem empty : CommentSays Comment.empty [] [] where
  lines := rfl
  tags t := by
    refine iff_of_false ?_ (List.not_mem_nil)
    exact Std.ExtTreeSet.not_mem_empty
  values k := by
    show (∅ : StrMap)[k]? = none
    exact Std.ExtTreeMap.getElem?_empty

variable {c : Comment} {tags : List Str} {values : List (Str × Str)}

theorem tag (h : CommentSays c tags values) (t : Str) : CommentSays (c.withTag t) (t :: tags) values where
  lines := h.lines
  tags x := by
    show x ∈ c.tags.insert t ↔ _
    rw [Std.ExtTreeSet.mem_insert, h.tags, List.mem_cons, Std.LawfulEqOrd.compare_eq_iff_eq, eq_comm]
  values := h.values

theorem value (h : CommentSays c tags values) (k v : Str) : CommentSays (c.withValueTag k v) tags ((k, v) :: values) where
  lines := h.lines
  tags := h.tags
  values x := by
    show (c.valueTags.insert k v)[x]? = _
    rw [Std.ExtTreeMap.getElem?_insert, h.values, List.lookup_cons]
    by_cases hx : x = k
    · subst hx
      rw [if_pos (by rw [Std.LawfulEqOrd.compare_eq_iff_eq]), beq_self_eq_true]
    · rw [if_neg (by rw [Std.LawfulEqOrd.compare_eq_iff_eq]; exact fun e => hx e.symm), beq_eq_false_iff_ne.2 hx]

theorem optionTag (h : CommentSays c tags values) (o : Option Str) : CommentSays (c.withOptionTag o) (o.toList ++ tags) values := by
  cases o with
  | none => exact h
  | some t => exact h.tag t

theorem optionValue (h : CommentSays c tags values) (k : Str) (o : Option Str) :
    CommentSays (c.withOptionValueTag k o) tags ((o.map fun v => (k, v)).toList ++ values) := by
  cases o with
  | none => exact h
  | some v => exact h.value k v

end Spec.CommentSays

namespace NationwideCsv

theorem mkPosting_says (L : ImportLib) (half : AccountAmount) (balance : Option Amount) (status : Option Status) {c : Comment}
    {tags : List Str} {values : List (Str × Str)} (h : CommentSays c tags values) :
    Says L.order (mkPosting L half balance status c) half.account half.amount balance status tags values where
  account := rfl
  reality := rfl
  amount := rfl
  balance := rfl
  status := rfl
  comment := ⟨c, h, rfl⟩

theorem mkTransaction_says (date : Date) (effective : Option Date) (description : Str) (postings : List Posting) :
    TransactionSays (mkTransaction date effective description postings) date effective description postings :=
  ⟨rfl, rfl, rfl, rfl, rfl, rfl, rfl⟩

end NationwideCsv

theorem value_negate (d : Decimal) : value d.negate = -value d := by
  unfold value Decimal.negate
  cases d with | mk n m s => cases n <;> simp <;> ring

theorem value_neg_of {d : Decimal} (h : value d < 0) : d.neg = true := by
  by_contra hn
  have : d.neg = false := by simpa using hn
  unfold value at h
  rw [this] at h
  simp only [Bool.false_eq_true, if_false] at h
  have : (0 : Rat) ≤ (d.mant : Rat) / 10 ^ d.scale := div_nonneg (Nat.cast_nonneg _) (pow_nonneg (by norm_num) _)
  linarith

theorem value_pos_of {d : Decimal} (h : 0 < value d) : d.neg = false := by
  by_contra hn
  have : d.neg = true := by simpa using hn
  unfold value at h
  rw [this] at h
  simp only [if_true] at h
  have : (0 : Rat) ≤ (d.mant : Rat) / 10 ^ d.scale := div_nonneg (Nat.cast_nonneg _) (pow_nonneg (by norm_num) _)
  rw [neg_div] at h
  linarith

/-- Postings for the two halves are opposite. -/
theorem opposite_halves {h : HashOrder} {p q : Posting} (a : Amount) {b1 b2 : Option Amount} {s1 s2 : Option Status} {t1 t2 : List Str}
    {v1 v2 : List (Str × Str)}
    (hp : Says h p (selfAndPeerAccountAmount a Accounts.assetsUnknown).self.account (selfAndPeerAccountAmount a Accounts.assetsUnknown).self.amount
      b1 s1 t1 v1)
    (hq : Says h q (selfAndPeerAccountAmount a Accounts.assetsUnknown).peer.account (selfAndPeerAccountAmount a Accounts.assetsUnknown).peer.amount
      b2 s2 t2 v2) : Opposite p q where
  own := hp.account
  amounts := by
    refine ⟨a, negateAmount a, hp.amount, hq.amount, rfl, value_negate _, fun h => ?_, fun h => ?_, ?_⟩
    · rw [hq.account]
      show (if a.quantity.neg = true then Accounts.expensesUnknown else Accounts.incomeUnknown) = _
      rw [if_pos (value_neg_of h)]; rfl
    · rw [hq.account]
      show (if a.quantity.neg = true then Accounts.expensesUnknown else Accounts.incomeUnknown) = _
      rw [if_neg (by rw [value_pos_of h]; simp)]; rfl
    · rw [hq.account]
      show (if a.quantity.neg = true then Accounts.expensesUnknown else Accounts.incomeUnknown) = _ ∨
        (if a.quantity.neg = true then Accounts.expensesUnknown else Accounts.incomeUnknown) = _
      by_cases hn : a.quantity.neg = true
      · rw [if_pos hn]; exact Or.inl rfl
      · rw [if_neg hn]; exact Or.inr rfl

/-- Pairs of opposite postings balance. -/
theorem balanced_pairs (pairs : List (Posting × Posting)) (h : ∀ x ∈ pairs, Opposite x.1 x.2) :
    Balanced (pairs.flatMap fun x => [x.1, x.2]) := by
  induction pairs with
  | nil => exact ⟨fun p hp => absurd hp List.not_mem_nil, fun c => rfl⟩
  | cons x pairs ih =>
    obtain ⟨ih1, ih2⟩ := ih fun y hy => h y (List.mem_cons_of_mem _ hy)
    obtain ⟨a, b, ha, hb, hc, hv, _⟩ := (h x List.mem_cons_self).amounts
    constructor
    · intro p hp
      rw [List.flatMap_cons] at hp
      rcases List.mem_append.1 hp with hp | hp
      · rcases List.mem_cons.1 hp with rfl | hp
        · exact ⟨a, ha⟩
        · obtain rfl := List.mem_singleton.1 hp; exact ⟨b, hb⟩
      · exact ih1 p hp
    · intro c
      have := ih2 c
      unfold total at this ⊢
      rw [List.flatMap_cons, List.map_append, List.sum_append, this, List.map_cons, List.map_cons, List.map_nil, List.sum_cons, List.sum_cons,
        List.sum_nil, ha, hb]
      simp only [hc]
      split
      · rw [hv]; ring
      · ring

end Verif
