import Verif.Examples.Systems
import Mathlib.Tactic.DeriveCountable
import Mathlib.Data.Countable.Basic
import Mathlib.Logic.Equiv.List

/-!
# A system with an exact printer

In this system every ledger can be printed, and is read back as it was. There are only countably many ledgers, so they can be numbered: the
text of a ledger is as long as its number says.
-/

namespace Verif.Ex
open Spec

instance : Countable Char := Function.Injective.countable (f := Char.toNat) fun _ _ h => Char.ext (UInt32.toNat_inj.1 h)
deriving instance Countable for Decimal, Date, CommodityPosition, Commodity, Amount, Price, PostingAmount, Balance, Status, Reality, Posting,
  Transaction, LedgerItem, Ledger
noncomputable instance instEncodableLedger : Encodable Ledger := Encodable.ofCountable _

/-- The ledger that a text of letters stands for. -/
def letters (s : String) : Ledger := (parseLetters s.toList).getD ⟨[]⟩

/-- A system with an exact printer: files 97 and 98 (`a`, `b`) exist, with the given ledgers. -/
noncomputable def exactSystem (a b : Ledger) : Sys where
  file p := (p.head?.map (·.toNat)).getD 0
  start n :=
    if n = 97 then some (encodeUtf8 (List.replicate (Encodable.encode a) 'x'))
    else if n = 98 then some (encodeUtf8 (List.replicate (Encodable.encode b) 'x')) else none
  stdin := []
  fault := fun _ => none
  showPath p := p
  parse s := Encodable.decode s.length
  render L := List.replicate (Encodable.encode L) 'x'
  random n := List.replicate n 'r'

theorem exactSystem_comesBack (a b L : Ledger) : (exactSystem a b).parse ((exactSystem a b).render L) = some L := by
  show Encodable.decode (List.replicate (Encodable.encode L) 'x').length = some L
  rw [List.length_replicate, Encodable.encodek]

end Verif.Ex
