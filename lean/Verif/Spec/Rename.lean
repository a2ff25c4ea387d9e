import Verif.Spec.Again

/-!
# Specification: writing everything in another way
-/

namespace Verif.Spec
open Verif Book

/-- A way to write accounts, commodities, quantities, dates, tags and comments of postings, values of tags, and headers of transactions in
another way. -/
structure Renaming where
  account : Str → Str
  commodity : Commodity → Commodity
  quantity : Decimal → Decimal
  date : Date → Date
  tag : Str → Str
  line : Str → Str
  value : Str → Str → Str
  head : TransactionInternal → TransactionInternal

/-- Different accounts, commodities, numbers, fingerprints and comment lines stay different and equal numbers stay equal, dates keep their order, and tags
with a meaning keep it while others get none. Nothing is asked of the values of tags, or of what headers say besides the date. -/
structure Renaming.Faithful (ρ : Renaming) : Prop where
  account : ∀ a b, ρ.account a = ρ.account b → a = b
  commodity : ∀ a b, ρ.commodity a = ρ.commodity b → a = b
  quantity : ∀ a b, Spec.value (ρ.quantity a) = Spec.value (ρ.quantity b) ↔ Spec.value a = Spec.value b
  date : ∀ a b, compare (ρ.date a) (ρ.date b) = compare a b
  tag : ∀ a b, IsFp a → IsFp b → ρ.tag a = ρ.tag b → a = b
  fingerprint : ∀ a, IsFp (ρ.tag a) ↔ IsFp a
  candidate : ∀ a, IsCand (ρ.tag a) ↔ IsCand a
  unknown : ∀ a, ρ.tag a = unknownTag ↔ a = unknownTag
  line : ∀ a b, ρ.line a = ρ.line b → a = b

namespace Renaming
variable (ρ : Renaming)

/-- The amount, written in the other way. -/
def amount (a : Amount) : Amount := ⟨ρ.quantity a.quantity, ρ.commodity a.commodity⟩

/-- The price, written in the other way. -/
def price : Price → Price
  | .unit a => .unit (ρ.amount a)
  | .total a => .total (ρ.amount a)

/-- The amount of a posting with its prices, written in the other way. -/
def postingAmount (a : PostingAmount) : PostingAmount := ⟨ρ.amount a.amount, a.lotPrice.map ρ.price, a.price.map ρ.price⟩

/-- The balance, written in the other way. -/
def balance : Balance → Balance
  | .zero => .zero
  | .amount a => .amount (ρ.amount a)

/-- The posting, written in the other way. -/
def post (p : PostingInternal) : PostingInternal where
  raw := { p.raw with account := ρ.account p.raw.account, amount := p.raw.amount.map ρ.postingAmount, balance := p.raw.balance.map ρ.balance }
  comment :=
    { lines := p.comment.lines.map ρ.line
      tags := Std.ExtTreeSet.ofList (p.comment.tags.toList.map ρ.tag) compare
      valueTags := p.comment.valueTags.map ρ.value }

/-- The header, written in the other way. -/
def header (x : TransactionInternal) : TransactionInternal :=
  { ρ.head x with raw := { (ρ.head x).raw with date := ρ.date x.raw.date } }

/-- The transaction, written in the other way. -/
def trn (t : TransactionPostings) : TransactionPostings := ⟨ρ.header t.trn, t.posts.map ρ.post⟩

/-- Everything is written as it was. -/
def same : Renaming := ⟨fun a => a, fun c => c, fun q => q, fun d => d, fun t => t, fun l => l, fun _ v => v, fun x => x⟩

/-- A run with everything written in the other way comes to the same: it is refused if the run as it was is refused; otherwise it makes the
same journal and hands back the same transactions, apart from candidate tags, written in the other way. -/
def Harmless : Prop :=
  ∀ calls calls' : History, inputs calls' = (inputs calls).map (·.map ρ.trn) →
    match oneRun calls, oneRun calls' with
    | some x, some y => y.1 = x.1.map ρ.trn ∧
        ∃ ts, List.Forall₂ AsGiven ts x.2.flatten ∧ List.Forall₂ AsGiven (ts.map ρ.trn) y.2.flatten
    | none, none => True
    | _, _ => False

end Renaming

end Verif.Spec
