import Verif.Base.Str

/-!
# `ledger_parser` data types and `rust_decimal`

The types below are those of the `ledger-parser` crate (5.1) and `rust_decimal`, as
used by /repo. They are library types: only the parts the repository can observe are modelled.
-/

namespace Verif

/-- `rust_decimal::Decimal`: sign flag, mantissa and scale (value `± mant / 10^scale`).
Used through /repo/src/importers/util.rs and `ledger_parser::Amount`. The 96-bit bound on the mantissa
and the bound 28 on the scale are not enforced by the type; where needed they are hypotheses. -/
structure Decimal where
  neg : Bool
  mant : Nat
  scale : Nat
  deriving DecidableEq, Repr, Inhabited

namespace Decimal
/-- Signed mantissa (what the derived comparisons of amounts at /repo/src/merge/posting.rs:279-284 come down to). -/
def sMant (d : Decimal) : Int := if d.neg then -(d.mant : Int) else d.mant
/-- `PartialEq for Decimal`: numeric equality, so `1.0 == 1.00` and `-0 == 0`
(reached from /repo/src/merge/posting.rs:279,282 via derived `PartialEq`). -/
def numEq (a b : Decimal) : Bool := a.sMant * 10 ^ b.scale == b.sMant * 10 ^ a.scale
/-- `Neg for Decimal`: flips the sign flag (call site /repo/src/importers/util.rs). -/
def negate (d : Decimal) : Decimal := { d with neg := !d.neg }
end Decimal

/-- `chrono::NaiveDate`. Validity of the calendar date is not enforced: the model only uses
equality, order and the three components (used at /repo/src/merge/transaction.rs:16, /repo/src/fingerprint.rs:260-267). -/
structure Date where
  year : Int
  month : Nat
  day : Nat
  deriving DecidableEq, Repr, Inhabited

/-- Order on dates: year, then month, then day (`Ord for NaiveDate`, used at
/repo/src/merge/transaction.rs:44). -/
instance : Ord Date where
  compare a b := (compare a.year b.year).then ((compare a.month b.month).then (compare a.day b.day))

theorem Date.compare_def (a b : Date) : compare a b =
    (compare a.year b.year).then ((compare a.month b.month).then (compare a.day b.day)) := rfl

instance : Std.LawfulEqOrd Date where
  compare_self := by simp [Date.compare_def]
  eq_of_compare := by
    intro a b h
    simp only [Date.compare_def, Ordering.then_eq_eq, Std.LawfulEqOrd.compare_eq_iff_eq] at h
    cases a; cases b; simp_all

instance : Std.TransOrd Date where
  eq_swap := by
    intro a b
    simp only [Date.compare_def, Ordering.swap_then]
    rw [Std.OrientedOrd.eq_swap (a := a.year), Std.OrientedOrd.eq_swap (a := a.month),
      Std.OrientedOrd.eq_swap (a := a.day)]
  isLE_trans := by
    intro a b c
    simp only [Date.compare_def, Ordering.isLE_then_iff_and,
      Int.compare_eq_lt, Nat.compare_eq_lt, Nat.isLE_compare, Int.isLE_compare]
    grind

/-- `ledger_parser::CommodityPosition` (of the crate `ledger_parser`, used at /repo/src/fingerprint.rs:231-236). -/
inductive CommodityPosition where | left | right
  deriving DecidableEq, Repr, Inhabited

/-- `ledger_parser::Commodity` (of the crate `ledger_parser`, used at /repo/src/importers/nationwide_pdf.rs:408-411). -/
structure Commodity where
  name : Str
  position : CommodityPosition
  deriving DecidableEq, Repr, Inhabited

/-- `ledger_parser::Amount` (of the crate `ledger_parser`, used at /repo/src/importers/util.rs:6-11). -/
structure Amount where
  quantity : Decimal
  commodity : Commodity
  deriving DecidableEq, Repr, Inhabited

/-- derived `PartialEq for Amount` (of the crate `ledger_parser`, used by the comparisons at /repo/src/merge/posting.rs:279-284). -/
def Amount.eqv (a b : Amount) : Bool := a.quantity.numEq b.quantity && decide (a.commodity = b.commodity)

/-- `ledger_parser::Price` (of the crate `ledger_parser`, used at /repo/src/ledgerutil.rs:3-25). -/
inductive Price where
  | unit (a : Amount)
  | total (a : Amount)
  deriving DecidableEq, Repr, Inhabited

/-- derived `PartialEq for Price` (of the crate `ledger_parser`, used by the comparisons at /repo/src/merge/posting.rs:279-284). -/
def Price.eqv : Price → Price → Bool
  | .unit a, .unit b => a.eqv b
  | .total a, .total b => a.eqv b
  | _, _ => false

/-- derived `PartialEq for Option<T>` (used by the comparisons at /repo/src/merge/posting.rs:279-284). -/
def optEqv {α : Type} (f : α → α → Bool) : Option α → Option α → Bool
  | none, none => true
  | some a, some b => f a b
  | _, _ => false

/-- `ledger_parser::PostingAmount` (of the crate `ledger_parser`, used at /repo/src/ledgerutil.rs:3-25). -/
structure PostingAmount where
  amount : Amount
  lotPrice : Option Price
  price : Option Price
  deriving DecidableEq, Repr, Inhabited

/-- derived `PartialEq for PostingAmount` (of the crate `ledger_parser`, used by the comparisons at /repo/src/merge/posting.rs:279-284). -/
def PostingAmount.eqv (a b : PostingAmount) : Bool :=
  a.amount.eqv b.amount && optEqv Price.eqv a.lotPrice b.lotPrice && optEqv Price.eqv a.price b.price

/-- `ledger_parser::Balance` (of the crate `ledger_parser`, used at /repo/src/importers/nationwide_pdf.rs:373). -/
inductive Balance where
  | zero
  | amount (a : Amount)
  deriving DecidableEq, Repr, Inhabited

/-- derived `PartialEq for Balance` (of the crate `ledger_parser`, used by the comparisons at /repo/src/merge/posting.rs:279-284). -/
def Balance.eqv : Balance → Balance → Bool
  | .zero, .zero => true
  | .amount a, .amount b => a.eqv b
  | _, _ => false

/-- `ledger_parser::TransactionStatus` (of the crate `ledger_parser`, used at /repo/src/merge/posting.rs:290). -/
inductive Status where | pending | cleared
  deriving DecidableEq, Repr, Inhabited

/-- `ledger_parser::Reality` (of the crate `ledger_parser`, used at /repo/src/importers/nationwide_csv.rs:236-251). -/
inductive Reality where | real | balancedVirtual | unbalancedVirtual
  deriving DecidableEq, Repr, Inhabited

/-- `ledger_parser::Posting` (of the crate `ledger_parser`, used at /repo/src/importers/nationwide_csv.rs:236-251). -/
structure Posting where
  account : Str
  reality : Reality
  amount : Option PostingAmount
  balance : Option Balance
  status : Option Status
  comment : Option Str
  deriving DecidableEq, Repr, Inhabited

/-- `ledger_parser::Transaction` (of the crate `ledger_parser`, used at /repo/src/importers/nationwide_csv.rs:156-164). -/
structure Transaction where
  comment : Option Str
  date : Date
  effectiveDate : Option Date
  status : Option Status
  code : Option Str
  description : Str
  postings : List Posting
  deriving DecidableEq, Repr, Inhabited

/-- `ledger_parser::LedgerItem`. The item kinds the repository does not handle
(/repo/src/internal.rs:49) are collapsed into `other` with their text. -/
inductive LedgerItem where
  | emptyLine
  | transaction (t : Transaction)
  | other (text : Str)
  deriving DecidableEq, Repr, Inhabited

/-- `ledger_parser::Ledger` (of the crate `ledger_parser`, used at /repo/src/ledgerutil.rs:3-15). -/
structure Ledger where
  items : List LedgerItem
  deriving DecidableEq, Repr, Inhabited

end Verif
