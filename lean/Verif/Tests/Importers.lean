import Verif.Examples.Import

/-!
# The golden tests of the importers, run on the model

These are tests of the model against the code (/repo/src/importers/nationwide_csv.rs:542-580,
/repo/src/importers/paypal_csv.rs:360-386), not proofs of properties. The output of the model is written out the way the ledger
parser does it; the expected lines are those of the files in /repo/testdata/importers.
-/

namespace Verif.Tests
open Verif NationwideCsv Ex

/-- Digits of a number with at least `n` digits. -/
private def digits (n v : Nat) : Str :=
  let s := Nat.toDigits 10 v
  List.replicate (n - s.length) '0' ++ s

private def decimal (d : Decimal) : Str :=
  let s := digits (d.scale + 1) d.mant
  (if d.neg then ['-'] else []) ++ s.take (s.length - d.scale) ++ (if d.scale = 0 then [] else '.' :: s.drop (s.length - d.scale))

private def amount (a : Amount) : Str := a.commodity.name ++ decimal a.quantity

private def posting (p : Posting) : List Str :=
  let first := "  ".toList ++ (match p.status with | none => [] | some .cleared => "* ".toList | some .pending => "! ".toList) ++ p.account ++
    (match p.amount with | some a => "  ".toList ++ amount a.amount | none => []) ++
    (match p.balance with | some (.amount a) => " = ".toList ++ amount a | _ => [])
  first :: (match p.comment with | some c => (Str.splitOn '\n' c).map ("  ; ".toList ++ ·) | none => [])

private def transaction (t : Transaction) : List Str :=
  (digits 4 t.date.year.toNat ++ '-' :: digits 2 t.date.month ++ '-' :: digits 2 t.date.day ++ ' ' :: t.description) ::
    t.postings.flatMap posting

private def journal : List Transaction → List Str
  | [] => []
  | [t] => transaction t
  | t :: ts => transaction t ++ [] :: journal ts

private def imported : Except ImportErr Import → List Str
  | .error _ => []
  | .ok i => journal i.transactions

set_option maxRecDepth 100000

example : imported (getTransactions lib .generated true file5) = List.map String.toList
  ["2021-09-01 FOO CO @ FOO.CO/THING#",
   "  assets:unknown  GBP-1.23",
   "  ; :import-self:",
   "  ; :fp-nwcsv5.1.1zY5uuo1-QNzoqO48q6tCbTaX5DIDZjPXP34:",
   "  ; :unknown-account:",
   "  ; account: My Account ****4321",
   "  ; bank: Nationwide",
   "  ; location: FOO.CO/THING#",
   "  ; seq: 1zY5uuo1-1",
   "  ; transactions: FOO CO",
   "  expenses:unknown  GBP1.23",
   "  ; :import-peer:",
   "  ; :fp-nwcsv5.1.1zY5uuo1-ACmC/fGB2mCZLsTIO7yCeBDSAoI:",
   "  ; :unknown-account:",
   "  ; account: My Account ****4321",
   "  ; bank: Nationwide",
   "  ; location: FOO.CO/THING#",
   "  ; transactions: FOO CO",
   "",
   "2021-09-02 DIRECT DEBIT PAYMENT",
   "  assets:unknown  GBP50.00",
   "  ; :import-self:",
   "  ; :fp-nwcsv5.1.1zY5uuo1-6mDphYyBIR49iCfvXdS8VnRumk0:",
   "  ; :unknown-account:",
   "  ; account: My Account ****4321",
   "  ; bank: Nationwide",
   "  ; seq: 1zY5uuo1-1",
   "  ; transactions: DIRECT DEBIT PAYMENT",
   "  income:unknown  GBP-50.00",
   "  ; :import-peer:",
   "  ; :fp-nwcsv5.1.1zY5uuo1-ePa4jzaWgzw1sjfLNaqyvLYHPN4:",
   "  ; :unknown-account:",
   "  ; account: My Account ****4321",
   "  ; bank: Nationwide",
   "  ; transactions: DIRECT DEBIT PAYMENT",
   "",
   "2021-09-03 BAR CO @ THING#",
   "  assets:unknown  GBP-4.32",
   "  ; :import-self:",
   "  ; :fp-nwcsv5.1.1zY5uuo1-REb6n6Q8NDwGYdrJh649a/PoJkM:",
   "  ; :unknown-account:",
   "  ; account: My Account ****4321",
   "  ; bank: Nationwide",
   "  ; location: THING#",
   "  ; seq: 1zY5uuo1-1",
   "  ; transactions: BAR CO",
   "  expenses:unknown  GBP4.32",
   "  ; :import-peer:",
   "  ; :fp-nwcsv5.1.1zY5uuo1-t+dbw1FRk9XcdhAufUWfEczd+a4:",
   "  ; :unknown-account:",
   "  ; account: My Account ****4321",
   "  ; bank: Nationwide",
   "  ; location: THING#",
   "  ; transactions: BAR CO"] := by decide +kernel

example : imported (getTransactions lib .generated true file6) = List.map String.toList
  ["2019-01-01 ATM Withdrawal",
   "  assets:unknown  GBP-30.00 = GBP200.00",
   "  ; :import-self:",
   "  ; :fp-LVcP3L+Y-WW8uMNeoOKj6PZ9NZUDLVPkyNfI:",
   "  ; :fp-nwcsv6.1.LVcP3L+Y-Ky2B1EX+g8t8t+n0PEJfFIJPuz8:",
   "  ; :unknown-account:",
   "  ; account: Current",
   "  ; bank: Nationwide",
   "  ; seq: LVcP3L+Y-1",
   "  ; trn_type: ATM",
   "  expenses:unknown  GBP30.00",
   "  ; :import-peer:",
   "  ; :fp-LVcP3L+Y-FJegoeyjgvrfvmUOwPWmB/v56ZU:",
   "  ; :fp-nwcsv6.1.LVcP3L+Y-f8NXdRliIxN4DhLHNw1pY9Icq4Q:",
   "  ; :unknown-account:",
   "  ; account: Current",
   "  ; bank: Nationwide",
   "  ; trn_type: ATM",
   "",
   "2019-01-02 Payroll",
   "  assets:unknown  GBP300.00 = GBP500.00",
   "  ; :import-self:",
   "  ; :fp-LVcP3L+Y-dJfxGn8yvRnpCrbtRFfOFhwuNqc:",
   "  ; :fp-nwcsv6.1.LVcP3L+Y-+2BhknQ/nJg6syHTP5bnqhf0lao:",
   "  ; :unknown-account:",
   "  ; account: Current",
   "  ; bank: Nationwide",
   "  ; seq: LVcP3L+Y-1",
   "  ; trn_type: Transfer",
   "  income:unknown  GBP-300.00",
   "  ; :import-peer:",
   "  ; :fp-LVcP3L+Y-YPrvk5cO9uFIWdXxfEVQ7Fidgl0:",
   "  ; :fp-nwcsv6.1.LVcP3L+Y-v9onoRlq26Ob+KhWGVa7oU4ykFU:",
   "  ; :unknown-account:",
   "  ; account: Current",
   "  ; bank: Nationwide",
   "  ; trn_type: Transfer",
   "",
   "2019-01-05 Transfer to Savings",
   "  assets:unknown  GBP-100.00 = GBP400.00",
   "  ; :import-self:",
   "  ; :fp-LVcP3L+Y-K6Ovwd43vF2NXlOH7jkG+0bPi1o:",
   "  ; :fp-nwcsv6.1.LVcP3L+Y-+yLSkQxFEEt1d40BM3VMG3CoLpQ:",
   "  ; :unknown-account:",
   "  ; account: Current",
   "  ; bank: Nationwide",
   "  ; seq: LVcP3L+Y-1",
   "  ; trn_type: Transfer",
   "  expenses:unknown  GBP100.00",
   "  ; :import-peer:",
   "  ; :fp-LVcP3L+Y-+TbEJQvPBEJT0NRA2ej8Dz5TXiE:",
   "  ; :fp-nwcsv6.1.LVcP3L+Y-ROpe6Ut8w/+wxxhGEJCzsJnJLI8:",
   "  ; :unknown-account:",
   "  ; account: Current",
   "  ; bank: Nationwide",
   "  ; trn_type: Transfer"] := by decide +kernel

example : imported (PaypalCsv.getTransactions lib "paypal".toList true (some paypalHeaders) paypalRows paypalTz) = List.map String.toList
  ["2019-01-01 Somecompany Inc.",
   "  * assets:unknown  USD-5 = USD-5",
   "  ; :import-self:",
   "  ; :fp-paypal-xdlfoieFapm6Ysy3A9Ot7gqwc1o:",
   "  ; :fp-ppcsv.1.paypal-xdlfoieFapm6Ysy3A9Ot7gqwc1o:",
   "  ; :unknown-account:",
   "  * expenses:unknown  USD5",
   "  ; :import-peer:",
   "  ; :fp-paypal-A28gcyqA+aQFSqETeaSbHrVimmI:",
   "  ; :unknown-account:",
   "  ; trn_name: Somecompany Inc.",
   "  ; trn_type: Pre-approved Payment Bill User Payment",
   "  ! assets:unknown  GBP4.32 = GBP4.32",
   "  ; :import-self:",
   "  ; :fp-paypal-Oo7zQfOd30Db+B/XJM2jXabHJBg:",
   "  ; :fp-ppcsv.1.paypal-Oo7zQfOd30Db+B/XJM2jXabHJBg:",
   "  ; :unknown-account:",
   "  ! income:unknown  GBP-4.32",
   "  ; :import-peer:",
   "  ; :fp-paypal-evnIOChAA8J38rkuzfI+eOCG0pI:",
   "  ; :unknown-account:",
   "  ; trn_type: Bank deposit to PayPal account",
   "  * assets:unknown  GBP-4.32 = GBP0",
   "  ; :import-self:",
   "  ; :fp-paypal-zDVqqHBrg2xM35kQSgdr2ctaQSE:",
   "  ; :fp-ppcsv.1.paypal-zDVqqHBrg2xM35kQSgdr2ctaQSE:",
   "  ; :unknown-account:",
   "  * expenses:unknown  GBP4.32",
   "  ; :import-peer:",
   "  ; :fp-paypal-+dlSJ4WG+bCJXvk8W86UOUkilfE:",
   "  ; :unknown-account:",
   "  ; trn_type: General Currency Conversion",
   "  * assets:unknown  USD5 = USD0",
   "  ; :import-self:",
   "  ; :fp-paypal-z1lcF0Wi2R+fwqXO9qKuD0mJMzs:",
   "  ; :fp-ppcsv.1.paypal-z1lcF0Wi2R+fwqXO9qKuD0mJMzs:",
   "  ; :unknown-account:",
   "  * income:unknown  USD-5",
   "  ; :import-peer:",
   "  ; :fp-paypal-efwhrrhy/FFgxuoY/IGyVux9aQU:",
   "  ; :unknown-account:",
   "  ; trn_type: General Currency Conversion",
   "",
   "2019-01-02 Othercompany Ltd.",
   "  ! assets:unknown  GBP12.34 = GBP12.34",
   "  ; :import-self:",
   "  ; :fp-paypal-5pEb+ghLkrbWNQGBs9ZaF7V3yTQ:",
   "  ; :fp-ppcsv.1.paypal-5pEb+ghLkrbWNQGBs9ZaF7V3yTQ:",
   "  ; :unknown-account:",
   "  ! income:unknown  GBP-12.34",
   "  ; :import-peer:",
   "  ; :fp-paypal-FVjQRTTiRf3imYx4qKa+jMNQw84:",
   "  ; :unknown-account:",
   "  ; trn_type: Bank deposit to PayPal account",
   "  * assets:unknown  GBP-12.34 = GBP0",
   "  ; :import-self:",
   "  ; :fp-paypal-oSCbF3JHn3zoeiv9ce/DLPYH2Zw:",
   "  ; :fp-ppcsv.1.paypal-oSCbF3JHn3zoeiv9ce/DLPYH2Zw:",
   "  ; :unknown-account:",
   "  * expenses:unknown  GBP12.34",
   "  ; :import-peer:",
   "  ; :fp-paypal-hWzj0X5c5oTkshFWCfJxiPw2Xl4:",
   "  ; :unknown-account:",
   "  ; trn_type: General Currency Conversion",
   "  * assets:unknown  USD13.37 = USD0",
   "  ; :import-self:",
   "  ; :fp-paypal-3p1fCm5WSFR42pRKpNlfquPLC7g:",
   "  ; :fp-ppcsv.1.paypal-3p1fCm5WSFR42pRKpNlfquPLC7g:",
   "  ; :unknown-account:",
   "  * income:unknown  USD-13.37",
   "  ; :import-peer:",
   "  ; :fp-paypal-t+2fE90iayDET/7cywru5NnZ3WE:",
   "  ; :unknown-account:",
   "  ; trn_type: General Currency Conversion",
   "  * assets:unknown  USD-13.37 = USD-13.37",
   "  ; :import-self:",
   "  ; :fp-paypal-YYpG0Elh0koWLxqd1GsjXtL5jrU:",
   "  ; :fp-ppcsv.1.paypal-YYpG0Elh0koWLxqd1GsjXtL5jrU:",
   "  ; :unknown-account:",
   "  * expenses:unknown  USD13.37",
   "  ; :import-peer:",
   "  ; :fp-paypal-LDNaz/r3yUxRX3GHKnsHMxwrkRg:",
   "  ; :unknown-account:",
   "  ; trn_name: Othercompany Ltd.",
   "  ; trn_type: Pre-approved Payment Bill User Payment"] := by decide +kernel

end Verif.Tests
