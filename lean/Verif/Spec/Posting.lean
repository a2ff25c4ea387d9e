import Verif.Model.Internal

/-!
# Specification: postings

What README.md ("Matching algorithm") says about two postings, written without the model's helpers.
-/

namespace Verif.Spec

/-- Every fingerprint tag starts with this. -/
def fpPrefix : Str := "fp-".toList
/-- Every candidate tag starts with this. -/
def candPrefix : Str := "candidate-".toList
/-- The tag that marks the account of a posting as unknown. -/
def unknownTag : Str := "unknown-account".toList

/-- A fingerprint tag starts with `fp-`. -/
def IsFp (t : Str) : Prop := fpPrefix <+: t
instance (t : Str) : Decidable (IsFp t) := by unfold IsFp; infer_instance

/-- A candidate tag starts with `candidate-`. -/
def IsCand (t : Str) : Prop := candPrefix <+: t
instance (t : Str) : Decidable (IsCand t) := by unfold IsCand; infer_instance

/-- The tags of a posting. -/
abbrev tagsOf (p : PostingInternal) : TagSet := p.comment.tags

/-- The fingerprints of a posting, in some fixed order. -/
def fps (p : PostingInternal) : List Str := (tagsOf p).toList.filter (fun t => IsFp t)

/-- Two postings have a fingerprint in common. -/
def SharesFp (p q : PostingInternal) : Prop := ∃ f ∈ fps p, f ∈ fps q
instance (p q) : Decidable (SharesFp p q) := by unfold SharesFp; infer_instance

/-- The account of the posting is marked as unknown. -/
def UnknownAccount (p : PostingInternal) : Prop := unknownTag ∈ tagsOf p
instance (p) : Decidable (UnknownAccount p) := by unfold UnknownAccount; infer_instance

/-- The number a decimal denotes. -/
def value (d : Decimal) : Rat := (if d.neg then -(d.mant : Rat) else (d.mant : Rat)) / (10 : Rat) ^ d.scale

/-- Same number of the same commodity. -/
def SameAmount (a b : Amount) : Prop := value a.quantity = value b.quantity ∧ a.commodity = b.commodity
instance (a b) : Decidable (SameAmount a b) := by unfold SameAmount; infer_instance

/-- Lifts a relation to optional values: both absent, or both present and related. -/
def OptRel {α : Type} (R : α → α → Prop) : Option α → Option α → Prop
  | none, none => True
  | some a, some b => R a b
  | _, _ => False
instance {α} (R : α → α → Prop) [∀ a b, Decidable (R a b)] : ∀ a b, Decidable (OptRel R a b)
  | none, none => isTrue trivial
  | some a, some b => by unfold OptRel; infer_instance
  | none, some _ => isFalse id
  | some _, none => isFalse id

/-- Same kind of price with the same amount. -/
def SamePrice : Price → Price → Prop
  | .unit a, .unit b => SameAmount a b
  | .total a, .total b => SameAmount a b
  | _, _ => False
instance : ∀ a b, Decidable (SamePrice a b)
  | .unit a, .unit b => by unfold SamePrice; infer_instance
  | .total a, .total b => by unfold SamePrice; infer_instance
  | .unit _, .total _ => isFalse id
  | .total _, .unit _ => isFalse id

/-- Same amount, lot price and price. -/
def SamePostingAmount (a b : PostingAmount) : Prop :=
  SameAmount a.amount b.amount ∧ OptRel SamePrice a.lotPrice b.lotPrice ∧ OptRel SamePrice a.price b.price
instance (a b) : Decidable (SamePostingAmount a b) := by unfold SamePostingAmount; infer_instance

/-- The same balance assertion. -/
def SameBalance : Balance → Balance → Prop
  | .zero, .zero => True
  | .amount a, .amount b => SameAmount a b
  | _, _ => False
instance : ∀ a b, Decidable (SameBalance a b)
  | .zero, .zero => isTrue trivial
  | .amount a, .amount b => by unfold SameBalance; infer_instance
  | .zero, .amount _ => isFalse id
  | .amount _, .zero => isFalse id

/-- The balances do not contradict each other: not both present and different. -/
def BalancesAgree : Option Balance → Option Balance → Prop
  | some a, some b => SameBalance a b
  | _, _ => True
instance : ∀ a b, Decidable (BalancesAgree a b)
  | some a, some b => by unfold BalancesAgree; infer_instance
  | none, some _ => isTrue trivial
  | some _, none => isTrue trivial
  | none, none => isTrue trivial

/-- README "Matching algorithm": two postings (on the same date) match softly. -/
def SoftMatch (p q : PostingInternal) : Prop :=
  (UnknownAccount p ∨ UnknownAccount q ∨ p.raw.account = q.raw.account) ∧
  OptRel SamePostingAmount p.raw.amount q.raw.amount ∧
  BalancesAgree p.raw.balance q.raw.balance
instance (p q) : Decidable (SoftMatch p q) := by unfold SoftMatch; infer_instance

/-- The status after merging: cleared wins over pending wins over nothing. -/
def strongest : Option Status → Option Status → Option Status
  | some .cleared, _ => some .cleared
  | _, some .cleared => some .cleared
  | some .pending, _ => some .pending
  | _, some .pending => some .pending
  | none, none => none

/-- The tags after merging: the union, except that `unknown-account` stays only if both sides have it. -/
def mergedTags (d s : TagSet) : TagSet :=
  if unknownTag ∈ d ∧ unknownTag ∈ s then d ∪ s
  else (d ∪ s).erase unknownTag

/-- What the destination posting `d` looks like after the source posting `s` was merged into it. -/
def absorb (d s : PostingInternal) : PostingInternal :=
  { raw :=
      { account := if UnknownAccount d ∧ ¬ UnknownAccount s then s.raw.account else d.raw.account
        reality := d.raw.reality
        amount := d.raw.amount
        balance := d.raw.balance.or s.raw.balance
        status := strongest d.raw.status s.raw.status
        comment := d.raw.comment }
    comment :=
      { lines := d.comment.lines ++ (s.comment.lines.filter (fun l => l ∉ d.comment.lines)).eraseDups
        tags := mergedTags d.comment.tags s.comment.tags
        valueTags := d.comment.valueTags ∪ s.comment.valueTags } }

end Verif.Spec
