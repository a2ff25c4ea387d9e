import Verif.Examples.Base
import Verif.Model.Rules
import Verif.Model.TzAbbr

/-!
# The unit tests of the rules and of time zones, run on the model

These are tests of the model against the code (/repo/src/rules/table/mod.rs:266-751, /repo/src/rules/table/predicate.rs:76-125,
/repo/src/tzabbr.rs:81-181), not proofs of properties. Regular expressions of the tests are written as functions.
-/

namespace Verif.Tests
open Verif Rules Ex

/-- A transaction of January 2001 with the texts of comments; amounts are in dollars. -/
private def tr (d : Nat) (desc : String) (comment : String) (ps : List (String × Int × String)) : TransactionPostings :=
  ⟨⟨⟨none, ⟨2001, 1, d⟩, none, none, none, desc.toList, []⟩, text comment⟩,
   ps.map fun (a, q, c) => ⟨⟨a.toList, .real, some ⟨⟨⟨q < 0, q.natAbs * 100, 2⟩, ⟨"$".toList, .left⟩⟩, none, none⟩, none, none, none⟩, text c⟩⟩
where
  text (c : String) : Comment := Comment.fromOptComment (if c.isEmpty then none else some c.toList)

private def table (l : List (String × List Rule)) : Table := Std.ExtTreeMap.ofList (l.map fun (n, c) => (n.toList, c)) compare

private def run (T : Table) (ts want : List TransactionPostings) : Bool :=
  T.validate id = .ok () ∧ T.updateTransactions id 5 ts = .ok want

private def always (a : Action) (r : RuleResult) : Rule := ⟨.true_, a, r⟩
private def acct (s : String) : Predicate := .account (.eq s.toList)
private def desc (s : String) : Predicate := .transactionDescription (.eq s.toList)
private def set (s : String) : Action := .setAccount s.toList

set_option maxRecDepth 100000

/-! ### `apply` (/repo/src/rules/table/mod.rs:272-656) -/

private def anything := [tr 2 "description" "" [("anything", 100, "")]]

example : run (table [("start", [])]) anything anything := by decide +kernel
example : run (table [("start", [always (set "foo") .continue_])]) anything [tr 2 "description" "" [("foo", 100, "")]] := by decide +kernel
example : run (table [("start", [always (.jumpChain "some-chain".toList) .continue_]), ("some-chain", [always (set "foo") .continue_])])
    anything [tr 2 "description" "" [("foo", 100, "")]] := by decide +kernel
example : run (table [("start", [always .noop .return_, always (set "foo") .continue_])]) anything anything := by decide +kernel

private def byAccount := table [("start", [⟨acct "foo", set "assets:foo", .continue_⟩, ⟨acct "bar", set "assets:bar", .continue_⟩])]
example : run byAccount [tr 2 "description" "" [("foo", 100, "")]] [tr 2 "description" "" [("assets:foo", 100, "")]] := by decide +kernel
example : run byAccount [tr 2 "description" "" [("bar", 100, "")]] [tr 2 "description" "" [("assets:bar", 100, "")]] := by decide +kernel
example : run byAccount [tr 2 "description" "" [("quux", 100, "")]] [tr 2 "description" "" [("quux", 100, "")]] := by decide +kernel

private def byBoth := table [("start", [
  ⟨.all [acct "acct1", desc "bank1"], set "assets:acct1-bank1", .return_⟩,
  ⟨.all [acct "acct1", desc "bank2"], set "assets:acct1-bank2", .return_⟩,
  ⟨.all [acct "acct2", desc "bank1"], set "assets:acct2-bank1", .return_⟩,
  ⟨.all [acct "acct2", desc "bank2"], set "assets:acct2-bank2", .return_⟩,
  ⟨.any [acct "acct3", acct "acct4"], set "assets:acct3-or-4", .return_⟩,
  ⟨.all [.not (acct "acct1"), .not (acct "acct2"), desc "bank1"], set "assets:acct-other-bank1", .return_⟩])]
example : [("unmatched", "acct1", "acct1"), ("bank1", "acct1", "assets:acct1-bank1"), ("bank1", "acct2", "assets:acct2-bank1"),
    ("bank2", "acct2", "assets:acct2-bank2"), ("description", "acct3", "assets:acct3-or-4"),
    ("description", "assets:acct3-or-4", "assets:acct3-or-4"), ("bank1", "acct5", "assets:acct-other-bank1")].all
    fun (d, a, w) => run byBoth [tr 2 d "" [(a, 10, "")]] [tr 2 d "" [(w, 10, "")]] := by decide +kernel

private def byTag := table [
  ("start", [⟨.postingHasValueTag "bank".toList, .jumpChain "set-bank".toList, .return_⟩, always (set "assets:unknown") .return_]),
  ("set-bank", [⟨.postingValueTag "bank".toList (.eq "foo".toList), set "assets:bank:foo", .return_⟩,
    ⟨.postingValueTag "bank".toList (.eq "bar".toList), set "assets:bank:bar", .return_⟩, always (set "assets:bank:other") .return_])]
example : [("bank: foo", "assets:bank:foo"), ("bank: bar", "assets:bank:bar"), ("bank: quux", "assets:bank:other"), ("", "assets:unknown")].all
    fun (c, w) => run byTag [tr 2 "description" "" [("someaccount", 10, c)]] [tr 2 "description" "" [(w, 10, c)]] := by decide +kernel

example : run (table [("start", [always (.removePostingValueTag "name1".toList) .return_])])
    [tr 2 "description1" "name1: transaction tag not removed"
      [("someaccount", 10, "name1: posting tag removed\nname2: unrelated tag not removed")],
     tr 3 "description2" "" [("someaccount", 20, "")]]
    [tr 2 "description1" "name1: transaction tag not removed" [("someaccount", 10, "name2: unrelated tag not removed")],
     tr 3 "description2" "" [("someaccount", 20, "")]] := by decide +kernel

example : run (table [("start", [⟨.postingHasFlagTag "tag1".toList, set "matched", .return_⟩])])
    [tr 2 "description1" "" [("someaccount", 10, ":tag1: posting tag matches")],
     tr 3 "description2" ":tag1: transaction tag not matched" [("someaccount", 20, "")]]
    [tr 2 "description1" "" [("matched", 10, ":tag1: posting tag matches")],
     tr 3 "description2" ":tag1: transaction tag not matched" [("someaccount", 20, "")]] := by decide +kernel

example : run (table [("start", [always (.removePostingFlagTag "tag1".toList) .return_])])
    [tr 2 "description1" ":tag1: transaction tag not matched"
      [("someaccount", 10, ":tag1: posting tag removed\n:tag2: unrelated tag not removed")],
     tr 3 "description2" "" [("someaccount", 20, "")]]
    [tr 2 "description1" ":tag1: transaction tag not matched" [("someaccount", 10, ":tag2: posting tag removed\nunrelated tag not removed")],
     tr 3 "description2" "" [("someaccount", 20, "")]] := by decide +kernel

/-! ### `error_action` (/repo/src/rules/table/mod.rs:658-683) -/

example : (table [("start", [⟨acct "bad:account", .error "MY ERROR".toList, .return_⟩])]).updateTransactions id 5
    [tr 2 "transaction" "" [("good:account", 10, ""), ("bad:account", -10, "")]] = .error (.reported "MY ERROR".toList) := by decide +kernel

/-! ### `validate_valid_tables`, `validate_invalid_tables` (/repo/src/rules/table/mod.rs:685-750) -/

example : (table [("start", [])]).validate id = .ok () := by decide +kernel
example : (table [("start", [always (.jumpChain "foo".toList) .continue_]), ("foo", [])]).validate id = .ok () := by decide +kernel
example : ((table [("foo", [])]).validate id).isOk = false := by decide +kernel
example : ((table [("start", [always (.jumpChain "foo".toList) .continue_]),
    ("foo", [always (.jumpChain "not-exist".toList) .continue_])]).validate id).isOk = false := by decide +kernel

/-! ### `predicate` (/repo/src/rules/table/predicate.rs:83-124) -/

private def simplePosting : TransactionPostings :=
  tr 1 "Transaction description" "" [("account:name", 10,
    ":flag-tag:\nvalue-tag: value-tag-value\nnon-shouty-key: shouty-value\nshouty-key: SHOUTY-VALUE")]

private def predicate (p : Predicate) : Option Bool :=
  simplePosting.posts.head?.map fun post => p.isMatch (fun s => s.map Char.toLower) ⟨simplePosting.trn, post⟩

private def starts (s : String) : StringMatch := .matches_ fun t => s.toList.isPrefixOf t

example : predicate (.account (.contains "name".toList)) = some true := by decide +kernel
example : predicate (.account (.contains "other".toList)) = some false := by decide +kernel
example : predicate (.account (.eq "account:name".toList)) = some true := by decide +kernel
example : predicate (.account (.eq "account:other".toList)) = some false := by decide +kernel
example : predicate (.account (.matches_ (Str.containsStr "name".toList))) = some true := by decide +kernel
example : predicate (.account (starts "name")) = some false := by decide +kernel
example : predicate (.not .true_) = some false := by decide +kernel
example : predicate (.postingFlagTag (starts "flag-")) = some true := by decide +kernel
example : predicate (.postingFlagTag (starts "no-such-flag")) = some false := by decide +kernel
example : predicate (.postingHasFlagTag "flag-tag".toList) = some true := by decide +kernel
example : predicate (.postingHasFlagTag "other-flag-tag".toList) = some false := by decide +kernel
example : predicate (.postingHasValueTag "value-tag".toList) = some true := by decide +kernel
example : predicate (.postingHasValueTag "other-value-tag".toList) = some false := by decide +kernel
example : predicate (.postingValueTag "value-tag".toList (.eq "value-tag-value".toList)) = some true := by decide +kernel
example : predicate (.postingValueTag "value-tag".toList (.eq "other-value-tag-value".toList)) = some false := by decide +kernel
example : predicate (.postingValueTag "other-value-tag".toList (.eq "value-tag-value".toList)) = some false := by decide +kernel
example : predicate (.postingValueTag "non-shouty-key".toList (.asLower (.contains "shouty-value".toList))) = some true := by decide +kernel
example : predicate (.postingValueTag "shouty-key".toList (.asLower (.contains "shouty-value".toList))) = some true := by decide +kernel
example : predicate (.postingValueTag "shouty-key".toList (.asLower (.contains "SHOUTY-VALUE".toList))) = some false := by decide +kernel
example : predicate (.transactionDescription (.eq "Transaction description".toList)) = some true := by decide +kernel
example : predicate (.transactionDescription (.eq "non transaction description".toList)) = some false := by decide +kernel
example : predicate .true_ = some true := by decide +kernel

/-! ### Time zones (/repo/src/tzabbr.rs:88-181) -/

open TzAbbr

private def offset (s : String) : Except OffsetErr Int := parseUtcOffset s.toList

example : offset "UTC+00" = .ok 0 ∧ offset "UTC-00" = .ok 0 ∧ offset "UTC+05" = .ok (5 * 3600) ∧ offset "UTC-06" = .ok (-6 * 3600) ∧
    offset "UTC+23" = .ok (23 * 3600) ∧ offset "UTC-23" = .ok (-23 * 3600) ∧ offset "UTC+00:15" = .ok (15 * 60) ∧
    offset "UTC-00:15" = .ok (-15 * 60) ∧ offset "UTC+05:15" = .ok (5 * 3600 + 15 * 60) ∧ offset "UTC-06:15" = .ok (-6 * 3600 - 15 * 60) ∧
    offset "UTC+23:15" = .ok (23 * 3600 + 15 * 60) ∧ offset "UTC-23:15" = .ok (-23 * 3600 - 15 * 60) := by decide +kernel
example : offset "" = .error .format ∧ offset "ZZZ+25" = .error .format ∧ offset "UTC+25" = .error .range ∧ offset "UTC-25" = .error .range ∧
    offset "UTC+00:60" = .error .minutes ∧ offset "UTC-00:60" = .error .minutes := by decide +kernel

private def db (rs : List (String × String)) : Except TzAbbr.Err DB := load ∅ (rs.map fun (a, o) => some ⟨a.toList, o.toList⟩)

example : ["BST", "GMT", "ZZZ"].map (fun a => (db [("BST", "UTC+01"), ("GMT", "UTC+00")]).toOption.bind fun m => m[a.toList]?) =
    [some 3600, some 0, none] := by decide +kernel
example : (db [("BST", "bad-offset")]) = .error (.offset .format) := by decide +kernel
example : load ∅ [none] = .error .record := by decide +kernel
example : db [("AAA", "UTC+01"), ("BBB", "UTC+02"), ("AAA", "UTC-01")] = .error (.duplicate "AAA".toList) := by decide +kernel

end Verif.Tests
