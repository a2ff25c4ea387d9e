import Verif.Proofs.NationwideCsv
import Verif.Proofs.ReadTags
import Verif.Examples.Import

/-!
# Properties of the importer of Nationwide CSV files (C44, C45, C47, C48)
-/

namespace Verif
open Spec
namespace NationwideCsv
open Nationwide

/-! ## C48: paid in and paid out -/

theorem nwcsv5_chars : ∀ c ∈ "nwcsv5".toList, PartChar c := by decide +kernel
theorem nwcsv6_chars : ∀ c ∈ "nwcsv6".toList, PartChar c := by decide +kernel

/-- The two fingerprints of a record of five columns. -/
def fiveFp (L : ImportLib) (r : RecordFive) (ns : Str) (k : Int) : FingerprintHalves :=
  selfAndPeerFingerprints L.sha1 (r.fill k ⟨[], "nwcsv5".toList, 1, ns⟩)

/-- The two fingerprints of a record of six columns. -/
def sixFp (L : ImportLib) (r : RecordSix) (ns : Str) (k : Int) : FingerprintHalves :=
  selfAndPeerFingerprints L.sha1 (r.fill k ⟨[], "nwcsv6".toList, 1, ns⟩)

/-- The two legacy fingerprints of a record of six columns. -/
def sixLegacyFp (L : ImportLib) (r : RecordSix) (ns : Str) (k : Int) (halves : TransactionHalves) : FingerprintHalves :=
  ⟨(fillHalf halves.self (r.fillLegacy k ⟨[], [], 0, ns⟩)).build L.sha1, (fillHalf halves.peer (r.fillLegacy k ⟨[], [], 0, ns⟩)).build L.sha1⟩

theorem fiveV1_good (L : ImportLib) (r : RecordFive) {ns : Str} (h : GoodNamespace ns) (k : Int) :
    r.fingerprintV1 L ns k = .ok (fiveFp L r ns k) := by
  unfold RecordFive.fingerprintV1
  rw [newBuilder_good nwcsv5_chars 1 h]
  rfl

theorem fiveV1_bad (L : ImportLib) (r : RecordFive) {ns : Str} (h : ¬ GoodNamespace ns) (k : Int) :
    ∃ e, r.fingerprintV1 L ns k = .error e := by
  unfold RecordFive.fingerprintV1
  obtain ⟨e, he⟩ := newBuilder_bad "nwcsv5".toList 1 h
  rw [he]
  exact ⟨e, rfl⟩

theorem sixV1_good (L : ImportLib) (r : RecordSix) {ns : Str} (h : GoodNamespace ns) (k : Int) :
    r.fingerprintV1 L ns k = .ok (sixFp L r ns k) := by
  unfold RecordSix.fingerprintV1
  rw [newBuilder_good nwcsv6_chars 1 h]
  rfl

theorem sixV1_bad (L : ImportLib) (r : RecordSix) {ns : Str} (h : ¬ GoodNamespace ns) (k : Int) :
    ∃ e, r.fingerprintV1 L ns k = .error e := by
  unfold RecordSix.fingerprintV1
  obtain ⟨e, he⟩ := newBuilder_bad "nwcsv6".toList 1 h
  rw [he]
  exact ⟨e, rfl⟩

theorem sixLegacy_good (L : ImportLib) (r : RecordSix) {ns : Str} (h : GoodNamespace ns) (k : Int) (halves : TransactionHalves) :
    r.fingerprintLegacy L ns k halves = .ok (sixLegacyFp L r ns k halves) := by
  unfold RecordSix.fingerprintLegacy
  rw [newBuilder_good (name := []) (by intro c hc; cases hc) 0 h]
  rfl

theorem selfAmount_bad {i o : Option Amount} (h : ¬ OneOf i o) : selfAmount i o = .error .amounts := by
  cases hs : selfAmount i o with
  | ok a => exact absurd ((selfAmount_ok_iff i o).1 ⟨a, hs⟩) h
  | error e =>
    unfold selfAmount at hs
    split at hs <;> cases hs
    rfl

/-- C48: a row of five columns makes postings exactly if exactly one of the two amounts is there (and the namespace is good). -/
theorem C48_five (L : ImportLib) (r : RecordFive) (ns account : Str) (k : Int) (legacy : Bool) :
    (∃ pq, r.formPostings L ns account k legacy = .ok pq) ↔ OneOf r.paidIn r.paidOut ∧ GoodNamespace ns := by
  by_cases ho : OneOf r.paidIn r.paidOut
  · obtain ⟨amt, ha⟩ := (selfAmount_ok_iff _ _).2 ho
    unfold RecordFive.formPostings
    rw [ha]
    by_cases hn : GoodNamespace ns
    · exact iff_of_true ⟨_, by rw [fiveV1_good L r hn]; rfl⟩ ⟨ho, hn⟩
    · refine iff_of_false ?_ fun h => hn h.2
      obtain ⟨e, he⟩ := fiveV1_bad L r hn k
      rintro ⟨pq, h⟩
      rw [he] at h
      cases h
  · refine iff_of_false ?_ fun h => ho h.1
    unfold RecordFive.formPostings
    rw [selfAmount_bad ho]
    rintro ⟨pq, h⟩
    cases h

/-- C48: the same for six columns. -/
theorem C48_six (L : ImportLib) (r : RecordSix) (ns account : Str) (k : Int) (legacy : Bool) :
    (∃ pq, r.formPostings L ns account k legacy = .ok pq) ↔ OneOf r.paidIn r.paidOut ∧ GoodNamespace ns := by
  by_cases ho : OneOf r.paidIn r.paidOut
  · obtain ⟨amt, ha⟩ := (selfAmount_ok_iff _ _).2 ho
    unfold RecordSix.formPostings
    rw [ha]
    by_cases hn : GoodNamespace ns
    · refine iff_of_true ?_ ⟨ho, hn⟩
      rw [sixV1_good L r hn]
      cases legacy with
      | false => exact ⟨_, rfl⟩
      | true => exact ⟨_, by
          show (do let fpLegacy ← r.fingerprintLegacy L ns k _; pure _) = _
          rw [sixLegacy_good L r hn]; rfl⟩
    · refine iff_of_false ?_ fun h => hn h.2
      obtain ⟨e, he⟩ := sixV1_bad L r hn k
      rintro ⟨pq, h⟩
      rw [he] at h
      cases h
  · refine iff_of_false ?_ fun h => ho h.1
    unfold RecordSix.formPostings
    rw [selfAmount_bad ho]
    rintro ⟨pq, h⟩
    cases h

/-- C48: the error if there are both amounts or none does not depend on anything else. -/
theorem C48_error (L : ImportLib) (ns account : Str) (k : Int) (legacy : Bool) :
    (∀ r : RecordFive, ¬ OneOf r.paidIn r.paidOut → r.formPostings L ns account k legacy = .error .amounts) ∧
    ∀ r : RecordSix, ¬ OneOf r.paidIn r.paidOut → r.formPostings L ns account k legacy = .error .amounts := by
  constructor
  · intro r h
    unfold RecordFive.formPostings
    rw [selfAmount_bad h]
    rfl
  · intro r h
    unfold RecordSix.formPostings
    rw [selfAmount_bad h]
    rfl

set_option maxRecDepth 100000 in
/-- Money paid in, paid out, neither and both; a bad namespace. -/
example : let a : Amount := ⟨⟨false, 1050, 2⟩, gbp⟩
    let five (i o : Option Amount) : RecordFive := ⟨⟨2020, 2, 29⟩, "SHOP".toList, "London".toList, o, i⟩
    let run (r : RecordFive) (ns : Str) := r.formPostings Ex.lib ns "Current".toList 0 false
    ((run (five (some a) none) "x".toList).map fun pq => (pq.1.amount.map fun a => a.amount.quantity, pq.2.account)) =
      .ok (some ⟨false, 1050, 2⟩, "income:unknown".toList) ∧
    ((run (five none (some a)) "x".toList).map fun pq => (pq.1.amount.map fun a => a.amount.quantity, pq.2.account)) =
      .ok (some ⟨true, 1050, 2⟩, "expenses:unknown".toList) ∧
    ((run (five none none) "x".toList).map fun _ => ()) = .error .amounts ∧
    ((run (five (some a) (some a)) "x".toList).map fun _ => ()) = .error .amounts ∧
    ((run (five (some a) none) "my bank".toList).map fun _ => ()) = .error .fingerprint := by
  decide +kernel

/-! ## The two postings of a record -/

/-- The values that both postings of a record of five columns have. -/
def fiveValues (account : Str) (r : RecordFive) : List (Str × Str) :=
  (if r.location = [] then [] else [("location".toList, r.location)]) ++
    [("transactions".toList, r.transactions), ("bank".toList, "Nationwide".toList), ("account".toList, account)]

/-- The values that both postings of a record of six columns have. -/
def sixValues (account : Str) (r : RecordSix) : List (Str × Str) :=
  [("trn_type".toList, r.type_), ("bank".toList, "Nationwide".toList), ("account".toList, account)]

/-- The account of the other posting. -/
def peerAccount (a : Amount) : Str := if a.quantity.neg then expensesAccount else incomeAccount

theorem peerAccount_eq (a : Amount) : (selfAndPeerAccountAmount a Accounts.assetsUnknown).peer.account = peerAccount a := rfl

theorem five_postings {L : ImportLib} {r : RecordFive} {ns account : Str} {k : Nat} {legacy : Bool} {p q : Posting}
    (h : r.formPostings L ns account k legacy = .ok (p, q)) :
    GoodNamespace ns ∧ ∃ amt, OwnAmount r.paidIn r.paidOut amt ∧
      Says L.order p ownAccount amt none none ["import-self".toList, (fiveFp L r ns k).self.tag, "unknown-account".toList]
        (("seq".toList, numbered ns (k + 1)) :: fiveValues account r) ∧
      Says L.order q (peerAccount amt) (negateAmount amt) none none ["import-peer".toList, (fiveFp L r ns k).peer.tag, "unknown-account".toList]
        (fiveValues account r) := by
  have hg := ((C48_five L r ns account k legacy).1 ⟨_, h⟩).2
  refine ⟨hg, ?_⟩
  unfold RecordFive.formPostings at h
  cases ha : selfAmount r.paidIn r.paidOut with
  | error e => rw [ha] at h; cases h
  | ok amt =>
    rw [ha, fiveV1_good L r hg] at h
    have hb := ((((CommentSays.empty.tag Tags.unknownAccount).value Tags.account account).value Tags.bank bankName).value transactionsTag
      r.transactions).optionValue locationTag (if r.location.isEmpty then none else some r.location)
    have hv : ((if r.location.isEmpty then none else some r.location).map fun v => (locationTag, v)).toList ++
        [(transactionsTag, r.transactions), (Tags.bank, bankName), (Tags.account, account)] = fiveValues account r := by
      unfold fiveValues
      cases r.location <;> rfl
    rw [hv] at hb
    have hs := ((hb.tag (fiveFp L r ns k).self.tag).value Tags.seq (seqValue ns k)).tag Tags.importSelf
    rw [seqValue_eq] at hs
    have hp := (hb.tag (fiveFp L r ns k).peer.tag).tag Tags.importPeer
    cases h
    rw [seqValue_eq]
    exact ⟨amt, selfAmount_own ha, mkPosting_says L _ none none hs, mkPosting_says L _ none none hp⟩

theorem six_postings {L : ImportLib} {r : RecordSix} {ns account : Str} {k : Nat} {legacy : Bool} {p q : Posting}
    (h : r.formPostings L ns account k legacy = .ok (p, q)) :
    GoodNamespace ns ∧ ∃ amt, OwnAmount r.paidIn r.paidOut amt ∧
      Says L.order p ownAccount amt (some r.balance) none
        ((if legacy then [(sixLegacyFp L r ns k (selfAndPeerAccountAmount amt ownAccount)).self.legacyTag] else []) ++
          ["import-self".toList, (sixFp L r ns k).self.tag, "unknown-account".toList])
        (("seq".toList, numbered ns (k + 1)) :: sixValues account r) ∧
      Says L.order q (peerAccount amt) (negateAmount amt) none none
        ((if legacy then [(sixLegacyFp L r ns k (selfAndPeerAccountAmount amt ownAccount)).peer.legacyTag] else []) ++
          ["import-peer".toList, (sixFp L r ns k).peer.tag, "unknown-account".toList])
        (sixValues account r) := by
  have hg := ((C48_six L r ns account k legacy).1 ⟨_, h⟩).2
  refine ⟨hg, ?_⟩
  unfold RecordSix.formPostings at h
  cases ha : selfAmount r.paidIn r.paidOut with
  | error e => rw [ha] at h; cases h
  | ok amt =>
    rw [ha, sixV1_good L r hg] at h
    have hb := (((CommentSays.empty.tag Tags.unknownAccount).value Tags.account account).value Tags.bank bankName).value transactionTypeTag
      r.type_
    have hs := ((hb.tag (sixFp L r ns k).self.tag).value Tags.seq (seqValue ns k)).tag Tags.importSelf
    have hp := (hb.tag (sixFp L r ns k).peer.tag).tag Tags.importPeer
    refine ⟨amt, selfAmount_own ha, ?_⟩
    cases legacy with
    | false =>
      rw [seqValue_eq] at hs
      cases h
      rw [seqValue_eq]
      exact ⟨mkPosting_says L _ (some r.balance) none hs, mkPosting_says L _ none none hp⟩
    | true =>
      change (do
        let fpLegacy ← r.fingerprintLegacy L ns k (selfAndPeerAccountAmount amt Accounts.assetsUnknown)
        pure (mkPosting L _ _ _ ((((_ : Comment).withTag (sixFp L r ns k).self.tag).withValueTag Tags.seq (seqValue ns k)).withTag
          Tags.importSelf |>.withTag fpLegacy.self.legacyTag), _)) = _ at h
      rw [sixLegacy_good L r hg] at h
      have hs' := hs.tag (sixLegacyFp L r ns k (selfAndPeerAccountAmount amt Accounts.assetsUnknown)).self.legacyTag
      have hp' := hp.tag (sixLegacyFp L r ns k (selfAndPeerAccountAmount amt Accounts.assetsUnknown)).peer.legacyTag
      rw [seqValue_eq] at hs'
      cases h
      rw [seqValue_eq]
      exact ⟨mkPosting_says L _ (some r.balance) none hs', mkPosting_says L _ none none hp'⟩

/-! ## C45: rows and transactions -/

/-- The transaction for a record of five columns that is number `k` (from 0) of its date. -/
def FiveSays (L : ImportLib) (ns account : Str) (r : RecordFive) (k : Nat) (t : Transaction) : Prop :=
  ∃ amt p q, OwnAmount r.paidIn r.paidOut amt ∧
    TransactionSays t r.date none (if r.location = [] then r.transactions else r.transactions ++ " @ ".toList ++ r.location) [p, q] ∧
    Says L.order p ownAccount amt none none ["import-self".toList, (fiveFp L r ns k).self.tag, "unknown-account".toList]
      (("seq".toList, numbered ns (k + 1)) :: fiveValues account r) ∧
    Says L.order q (peerAccount amt) (negateAmount amt) none none ["import-peer".toList, (fiveFp L r ns k).peer.tag, "unknown-account".toList]
      (fiveValues account r)

/-- The transaction for a record of six columns that is number `k` (from 0) of its date. -/
def SixSays (L : ImportLib) (ns account : Str) (legacy : Bool) (r : RecordSix) (k : Nat) (t : Transaction) : Prop :=
  ∃ amt p q, OwnAmount r.paidIn r.paidOut amt ∧ TransactionSays t r.date none r.description [p, q] ∧
    Says L.order p ownAccount amt (some r.balance) none
      ((if legacy then [(sixLegacyFp L r ns k (selfAndPeerAccountAmount amt ownAccount)).self.legacyTag] else []) ++
        ["import-self".toList, (sixFp L r ns k).self.tag, "unknown-account".toList])
      (("seq".toList, numbered ns (k + 1)) :: sixValues account r) ∧
    Says L.order q (peerAccount amt) (negateAmount amt) none none
      ((if legacy then [(sixLegacyFp L r ns k (selfAndPeerAccountAmount amt ownAccount)).peer.legacyTag] else []) ++
        ["import-peer".toList, (sixFp L r ns k).peer.tag, "unknown-account".toList])
      (sixValues account r)

/-- A file: three records about the account, the names of the columns, and the rows. -/
def FileShape (L : ImportLib) (records : List (Option Row)) (account : Str) (columns : Row) (rows : List (Option Row)) : Prop :=
  ∃ r0 balance r1 available r2, records = some ("Account Name:".toList :: account :: r0) ::
    some ("Account Balance:".toList :: balance :: r1) :: some ("Available Balance:".toList :: available :: r2) :: some columns :: rows ∧
    gbpValue L balance ≠ none ∧ gbpValue L available ≠ none

/-- The names of the five columns. -/
def fiveColumns : Row := ["Date".toList, "Transactions".toList, "Location".toList, "Paid out".toList, "Paid in".toList]

/-- The names of the six columns. -/
def sixColumns : Row :=
  ["Date".toList, "Transaction type".toList, "Description".toList, "Paid out".toList, "Paid in".toList, "Balance".toList]

theorem accountRecord_iff (o : Option (Option Row)) (account : Str) :
    accountRecord o = .ok account ↔ ∃ rest, o = some (some ("Account Name:".toList :: account :: rest)) := by
  unfold accountRecord
  split
  · exact iff_of_false (by intro h; cases h) (by rintro ⟨r, h⟩; cases h)
  · rename_i header acc rest
    split
    · rename_i h
      subst h
      constructor
      · intro h; cases h; exact ⟨rest, rfl⟩
      · rintro ⟨r, h⟩; cases h; rfl
    · rename_i h
      refine iff_of_false (by intro h; cases h) ?_
      rintro ⟨r, e⟩
      injection e with e; injection e with e; injection e with e _
      exact h e
  · rename_i h1 h2
    refine iff_of_false (by intro h; cases h) ?_
    rintro ⟨r, e⟩
    exact h2 _ _ _ e

theorem quantityRecord_iff (L : ImportLib) (want : Str) (o : Option (Option Row)) :
    quantityRecord L want o = .ok () ↔ ∃ b rest, o = some (some (want :: b :: rest)) ∧ gbpValue L b ≠ none := by
  unfold quantityRecord
  split
  · exact iff_of_false (by intro h; cases h) (by rintro ⟨b, r, h, _⟩; cases h)
  · rename_i header amount rest
    split
    · rename_i hv
      refine iff_of_false (by intro h; cases h) ?_
      rintro ⟨b, r, h, h2⟩
      cases h
      exact h2 hv
    · rename_i a hv
      split
      · rename_i h
        subst h
        exact iff_of_true rfl ⟨amount, rest, rfl, by rw [hv]; simp⟩
      · rename_i h
        refine iff_of_false (by intro h; cases h) ?_
        rintro ⟨b, r, e, _⟩
        injection e with e; injection e with e; injection e with e _
        exact h e
  · rename_i h1 h2
    refine iff_of_false (by intro h; cases h) ?_
    rintro ⟨b, r, e, _⟩
    exact h2 _ _ _ e

/-- When reading a file succeeds, and with what. -/
theorem getTransactions_iff (L : ImportLib) (fpNs : FpNamespace) (legacy : Bool) (records : List (Option Row)) (imp : Import) :
    getTransactions L fpNs legacy records = .ok imp ↔ ∃ account columns rows, FileShape L records account columns rows ∧
      fpNs.make L account = .ok imp.userFpNamespace ∧
      ((columns = fiveColumns ∧ processRows (five L) imp.userFpNamespace account legacy rows = .ok imp.transactions) ∨
        (columns = sixColumns ∧ processRows (six L) imp.userFpNamespace account legacy rows = .ok imp.transactions)) := by
  have hpf : ∀ ns account rs ts, processFile L ns account legacy rs = .ok ts ↔ ∃ columns rows, rs = some columns :: rows ∧
      ((columns = fiveColumns ∧ processRows (five L) ns account legacy rows = .ok ts) ∨
        (columns = sixColumns ∧ processRows (six L) ns account legacy rows = .ok ts)) := by
    intro ns account rs ts
    unfold processFile
    split
    · exact iff_of_false (by intro h; cases h) (by rintro ⟨c, r, h, _⟩; cases h)
    · exact iff_of_false (by intro h; cases h) (by rintro ⟨c, r, h, _⟩; cases h)
    · rename_i headers rows
      have hne : headersFive ≠ headersSix := by decide +kernel
      split
      · rename_i h
        subst h
        constructor
        · intro h; exact ⟨_, _, rfl, Or.inl ⟨rfl, h⟩⟩
        · rintro ⟨c, r, h, h2⟩
          cases h
          rcases h2 with ⟨_, h⟩ | ⟨h, _⟩
          · exact h
          · exact absurd h hne
      · rename_i hn
        split
        · rename_i h
          subst h
          constructor
          · intro h; exact ⟨_, _, rfl, Or.inr ⟨rfl, h⟩⟩
          · rintro ⟨c, r, h, h2⟩
            cases h
            rcases h2 with ⟨h, _⟩ | ⟨_, h⟩
            · exact absurd h hn
            · exact h
        · rename_i hn2
          refine iff_of_false (by intro h; cases h) ?_
          rintro ⟨c, r, h, h2⟩
          cases h
          rcases h2 with ⟨h, _⟩ | ⟨h, _⟩
          · exact hn h
          · exact hn2 h
  constructor
  · intro h
    unfold getTransactions at h
    cases h0 : accountRecord records[0]? with
    | error e => rw [h0] at h; cases h
    | ok account =>
      rw [h0] at h
      cases h1 : quantityRecord L "Account Balance:".toList records[1]? with
      | error e => rw [h1] at h; cases h
      | ok u =>
        rw [h1] at h
        cases h2 : quantityRecord L "Available Balance:".toList records[2]? with
        | error e => rw [h2] at h; cases h
        | ok u' =>
          rw [h2] at h
          cases h3 : fpNs.make L account with
          | error e =>
            change (do let ns ← fpNs.make L account; let ts ← processFile L ns account legacy (records.drop 3); pure (Import.mk ns ts)) = _ at h
            rw [h3] at h; cases h
          | ok ns =>
            change (do let ns ← fpNs.make L account; let ts ← processFile L ns account legacy (records.drop 3); pure (Import.mk ns ts)) = _ at h
            rw [h3] at h
            cases h4 : processFile L ns account legacy (records.drop 3) with
            | error e =>
              change (do let ts ← processFile L ns account legacy (records.drop 3); pure (Import.mk ns ts)) = _ at h
              rw [h4] at h; cases h
            | ok ts =>
              change (do let ts ← processFile L ns account legacy (records.drop 3); pure (Import.mk ns ts)) = _ at h
              rw [h4] at h
              cases h
              obtain ⟨r0, e0⟩ := (accountRecord_iff _ _).1 h0
              obtain ⟨b, r1, e1, hb⟩ := (quantityRecord_iff _ _ _).1 h1
              obtain ⟨a, r2, e2, ha⟩ := (quantityRecord_iff _ _ _).1 h2
              obtain ⟨columns, rows, e3, hr⟩ := (hpf _ _ _ _).1 h4
              refine ⟨account, columns, rows, ⟨r0, b, r1, a, r2, ?_, hb, ha⟩, h3, hr⟩
              match records, e0, e1, e2, e3 with
              | x :: y :: z :: rest, e0, e1, e2, e3 =>
                simp only [List.getElem?_cons_zero, List.getElem?_cons_succ, Option.some.injEq, List.drop_succ_cons, List.drop_zero] at e0 e1 e2 e3
                rw [e0, e1, e2, e3]
  · rintro ⟨account, columns, rows, ⟨r0, b, r1, a, r2, rfl, hb, ha⟩, hn, hr⟩
    have h0 := (accountRecord_iff (some (some ("Account Name:".toList :: account :: r0))) account).2 ⟨r0, rfl⟩
    have h1 := (quantityRecord_iff L "Account Balance:".toList (some (some ("Account Balance:".toList :: b :: r1)))).2 ⟨b, r1, rfl, hb⟩
    have h2 := (quantityRecord_iff L "Available Balance:".toList (some (some ("Available Balance:".toList :: a :: r2)))).2 ⟨a, r2, rfl, ha⟩
    have h4 := (hpf imp.userFpNamespace account (some columns :: rows) imp.transactions).2 ⟨columns, rows, rfl, hr⟩
    unfold getTransactions
    simp only [List.getElem?_cons_zero, List.getElem?_cons_succ, List.drop_succ_cons, List.drop_zero, h0, h1, h2, hn, h4, bind, Except.bind]
    rfl

/-- A readable row of five columns with exactly one of the two amounts. -/
def FiveGood (L : ImportLib) (o : Option Row) : Prop := ∃ row r, o = some row ∧ FiveRow L row r ∧ OneOf r.paidIn r.paidOut

/-- A readable row of six columns with exactly one of the two amounts. -/
def SixGood (L : ImportLib) (o : Option Row) : Prop := ∃ row r, o = some row ∧ SixRow L row r ∧ OneOf r.paidIn r.paidOut

theorem map_bind_some {T : Type} {f : Row → Option T} : ∀ {rows : List (Option Row)} {rs : List T},
    rows.map (fun o => o.bind f) = rs.map some ↔ rows.length = rs.length ∧ ∀ i (h : i < rs.length), ∃ row, rows[i]? = some (some row) ∧
      f row = some rs[i]
  | [], [] => by simp
  | [], _ :: _ => by simp
  | _ :: _, [] => by simp
  | o :: rows, r :: rs => by
    rw [List.map_cons, List.map_cons, List.cons_eq_cons, map_bind_some (rows := rows) (rs := rs), Option.bind_eq_some_iff]
    constructor
    · rintro ⟨⟨row, rfl, h1⟩, h2, h3⟩
      refine ⟨congrArg (· + 1) h2, fun i hi => ?_⟩
      cases i with
      | zero => exact ⟨row, rfl, h1⟩
      | succ i => exact h3 i (by simpa using hi)
    · rintro ⟨h2, h3⟩
      obtain ⟨row, e, h1⟩ := h3 0 (by simp)
      refine ⟨⟨row, by simpa using e, h1⟩, by simpa using h2, fun i hi => ?_⟩
      exact h3 (i + 1) (by simpa using hi)

/-- Rows are accepted exactly if every one can be read and makes postings. -/
theorem processRows_accepts {T : Type} (F : Format T) (ns account : Str) (legacy : Bool) (rows : List (Option Row)) (P : T → Prop)
    (hP : ∀ r n, (∃ pq, F.formPostings r ns account n legacy = .ok pq) ↔ P r ∧ GoodNamespace ns) :
    (∃ ts, processRows F ns account legacy rows = .ok ts) ↔
      (rows = [] ∨ GoodNamespace ns) ∧ ∀ o ∈ rows, ∃ row r, o = some row ∧ F.ofRow row = some r ∧ P r := by
  constructor
  · rintro ⟨ts, h⟩
    obtain ⟨rs, h1, h2, h3⟩ := (processRows_iff ..).1 h
    obtain ⟨hl, hr⟩ := map_bind_some.1 h1
    have hall : ∀ i, i < rows.length → GoodNamespace ns ∧ ∃ row r, rows[i]? = some (some row) ∧ F.ofRow row = some r ∧ P r := by
      intro i hi
      rw [hl] at hi
      obtain ⟨p, q, g, _⟩ := h3 i hi
      obtain ⟨row, e1, e2⟩ := hr i hi
      have := (hP _ _).1 ⟨_, g⟩
      exact ⟨this.2, row, _, e1, e2, this.1⟩
    constructor
    · cases rows with
      | nil => exact Or.inl rfl
      | cons o rows => exact Or.inr (hall 0 (by simp)).1
    · intro o ho
      obtain ⟨i, hi, e⟩ := List.getElem_of_mem ho
      obtain ⟨_, row, r, e1, e2, e3⟩ := hall i hi
      rw [List.getElem?_eq_getElem hi, e] at e1
      exact ⟨row, r, Option.some.inj e1, e2, e3⟩
  · rintro ⟨hns, hall⟩
    have key : ∀ (rows : List (Option Row)) prev k, (rows = [] ∨ GoodNamespace ns) → (∀ o ∈ rows, ∃ row r, o = some row ∧ F.ofRow row = some r ∧ P r) →
        ∃ ts, rowsLoop F ns account legacy prev k rows = .ok ts := by
      intro rows
      induction rows with
      | nil => intro _ _ _ _; exact ⟨[], rfl⟩
      | cons o rows ih =>
        intro prev k hns hall
        have hg : GoodNamespace ns := hns.resolve_left (by simp)
        obtain ⟨row, r, rfl, e1, e2⟩ := hall o List.mem_cons_self
        unfold rowsLoop
        rw [e1]
        simp only
        obtain ⟨⟨p, q⟩, hpq⟩ := (hP r (if some (F.date r) ≠ prev then 0 else k + 1)).2 ⟨e2, hg⟩
        rw [hpq]
        simp only
        obtain ⟨ts, hts⟩ := ih (some (F.date r)) (if some (F.date r) ≠ prev then 0 else k + 1) (Or.inr hg)
          fun o ho => hall o (List.mem_cons_of_mem _ ho)
        rw [hts]
        exact ⟨_, rfl⟩
    exact key rows none 0 hns hall

/-- C45: a file is imported exactly if it starts with the three records about the account and the names of five or six columns, there
is a namespace, which is good unless there are no rows, and every row is good. One bad row and nothing is imported. -/
theorem C45_accepted (L : ImportLib) (fpNs : FpNamespace) (legacy : Bool) (records : List (Option Row)) :
    (∃ imp, getTransactions L fpNs legacy records = .ok imp) ↔
      ∃ account columns rows ns, FileShape L records account columns rows ∧ fpNs.make L account = .ok ns ∧
        (rows = [] ∨ GoodNamespace ns) ∧
        ((columns = fiveColumns ∧ ∀ o ∈ rows, FiveGood L o) ∨ (columns = sixColumns ∧ ∀ o ∈ rows, SixGood L o)) := by
  have h5 : ∀ ns account rows, (∃ ts, processRows (five L) ns account legacy rows = .ok ts) ↔
      (rows = [] ∨ GoodNamespace ns) ∧ ∀ o ∈ rows, FiveGood L o := by
    intro ns account rows
    rw [processRows_accepts (five L) ns account legacy rows (fun r => OneOf r.paidIn r.paidOut)
      (fun r n => C48_five L r ns account n legacy)]
    unfold FiveGood
    simp only [← fiveRow_iff]
    rfl
  have h6 : ∀ ns account rows, (∃ ts, processRows (six L) ns account legacy rows = .ok ts) ↔
      (rows = [] ∨ GoodNamespace ns) ∧ ∀ o ∈ rows, SixGood L o := by
    intro ns account rows
    rw [processRows_accepts (six L) ns account legacy rows (fun r => OneOf r.paidIn r.paidOut)
      (fun r n => C48_six L r ns account n legacy)]
    unfold SixGood
    simp only [← sixRow_iff]
    rfl
  constructor
  · rintro ⟨imp, h⟩
    obtain ⟨account, columns, rows, hs, hn, hr⟩ := (getTransactions_iff ..).1 h
    rcases hr with ⟨hc, hr⟩ | ⟨hc, hr⟩
    · obtain ⟨g1, g2⟩ := (h5 _ _ _).1 ⟨_, hr⟩
      exact ⟨account, columns, rows, _, hs, hn, g1, Or.inl ⟨hc, g2⟩⟩
    · obtain ⟨g1, g2⟩ := (h6 _ _ _).1 ⟨_, hr⟩
      exact ⟨account, columns, rows, _, hs, hn, g1, Or.inr ⟨hc, g2⟩⟩
  · rintro ⟨account, columns, rows, ns, hs, hn, hg, ⟨hc, hr⟩ | ⟨hc, hr⟩⟩
    · obtain ⟨ts, h⟩ := (h5 ns account rows).2 ⟨hg, hr⟩
      exact ⟨⟨ns, ts⟩, (getTransactions_iff ..).2 ⟨account, columns, rows, hs, hn, Or.inl ⟨hc, h⟩⟩⟩
    · obtain ⟨ts, h⟩ := (h6 ns account rows).2 ⟨hg, hr⟩
      exact ⟨⟨ns, ts⟩, (getTransactions_iff ..).2 ⟨account, columns, rows, hs, hn, Or.inr ⟨hc, h⟩⟩⟩

theorem FileShape.unique {L : ImportLib} {records : List (Option Row)} {a a' : Str} {c c' : Row} {rows rows' : List (Option Row)}
    (h : FileShape L records a c rows) (h' : FileShape L records a' c' rows') : a = a' ∧ c = c' ∧ rows = rows' := by
  obtain ⟨_, _, _, _, _, rfl, _⟩ := h
  obtain ⟨_, _, _, _, _, h, _⟩ := h'
  injection h with h1 h; injection h1 with h1; injection h1 with _ h1; injection h1 with h1 _
  injection h with _ h; injection h with _ h; injection h with h2 h3; injection h2 with h2
  exact ⟨h1, h2, h3⟩

theorem columns_ne : fiveColumns ≠ sixColumns := by decide +kernel

/-- C45, five columns: transactions are in the order of the rows, one for each row, with contents that depend only on the row and on how
many rows right before it have the same date. -/
theorem C45_five {L : ImportLib} {fpNs : FpNamespace} {legacy : Bool} {records : List (Option Row)} {imp : Import} {account : Str}
    {rows : List (Option Row)} (h : getTransactions L fpNs legacy records = .ok imp) (hs : FileShape L records account fiveColumns rows) :
    fpNs.make L account = .ok imp.userFpNamespace ∧ imp.transactions.length = rows.length ∧
    ∃ rs : List RecordFive, rs.length = rows.length ∧ ∀ i (hi : i < rs.length),
      (∃ row, rows[i]? = some (some row) ∧ FiveRow L row rs[i]) ∧
      ∃ t, imp.transactions[i]? = some t ∧
        FiveSays L imp.userFpNamespace account rs[i] (sinceChange (rs.map RecordFive.date) i) t := by
  obtain ⟨account', columns, rows', hs', hn, hr⟩ := (getTransactions_iff ..).1 h
  obtain ⟨rfl, rfl, rfl⟩ := hs.unique hs'
  have hr := hr.resolve_right fun h => columns_ne h.1
  obtain ⟨rs, h1, h2, h3⟩ := (processRows_iff ..).1 hr.2
  obtain ⟨hl, h1⟩ := map_bind_some.1 h1
  refine ⟨hn, by rw [h2, hl], rs, hl.symm, fun i hi => ⟨?_, ?_⟩⟩
  · obtain ⟨row, e1, e2⟩ := h1 i hi
    exact ⟨row, e1, (fiveRow_iff ..).1 e2⟩
  · obtain ⟨p, q, g1, g2⟩ := h3 i hi
    obtain ⟨_, amt, ho, hp, hq⟩ := five_postings (legacy := legacy) g1
    refine ⟨_, g2, amt, p, q, ho, ?_, hp, hq⟩
    have : (five L).description rs[i] = if rs[i].location = [] then rs[i].transactions else
        rs[i].transactions ++ " @ ".toList ++ rs[i].location := by
      show (if rs[i].location.isEmpty then _ else _) = _
      simp only [List.isEmpty_iff]
    rw [← this]
    exact mkTransaction_says ..

/-- C45, six columns: the same. -/
theorem C45_six {L : ImportLib} {fpNs : FpNamespace} {legacy : Bool} {records : List (Option Row)} {imp : Import} {account : Str}
    {rows : List (Option Row)} (h : getTransactions L fpNs legacy records = .ok imp) (hs : FileShape L records account sixColumns rows) :
    fpNs.make L account = .ok imp.userFpNamespace ∧ imp.transactions.length = rows.length ∧
    ∃ rs : List RecordSix, rs.length = rows.length ∧ ∀ i (hi : i < rs.length),
      (∃ row, rows[i]? = some (some row) ∧ SixRow L row rs[i]) ∧
      ∃ t, imp.transactions[i]? = some t ∧
        SixSays L imp.userFpNamespace account legacy rs[i] (sinceChange (rs.map RecordSix.date) i) t := by
  obtain ⟨account', columns, rows', hs', hn, hr⟩ := (getTransactions_iff ..).1 h
  obtain ⟨rfl, rfl, rfl⟩ := hs.unique hs'
  have hr := hr.resolve_left fun h => columns_ne h.1.symm
  obtain ⟨rs, h1, h2, h3⟩ := (processRows_iff ..).1 hr.2
  obtain ⟨hl, h1⟩ := map_bind_some.1 h1
  refine ⟨hn, by rw [h2, hl], rs, hl.symm, fun i hi => ⟨?_, ?_⟩⟩
  · obtain ⟨row, e1, e2⟩ := h1 i hi
    exact ⟨row, e1, (sixRow_iff ..).1 e2⟩
  · obtain ⟨p, q, g1, g2⟩ := h3 i hi
    obtain ⟨_, amt, ho, hp, hq⟩ := six_postings g1
    exact ⟨_, g2, amt, p, q, ho, mkTransaction_says .., hp, hq⟩

set_option maxRecDepth 100000 in
/-- The files of the tests are imported, with these contents. -/
example : (∃ imp, getTransactions Ex.lib .generated false Ex.file5 = .ok imp ∧ FileShape Ex.lib Ex.file5 "My Account ****4321".toList fiveColumns
      (Ex.file5.drop 4) ∧ imp.transactions.map Transaction.description =
        ["FOO CO @ FOO.CO/THING#".toList, "DIRECT DEBIT PAYMENT".toList, "BAR CO @ THING#".toList]) ∧
    (∃ imp, getTransactions Ex.lib .generated true Ex.file6 = .ok imp ∧ FileShape Ex.lib Ex.file6 "Current".toList sixColumns
      (Ex.file6.drop 4) ∧ imp.transactions.map Transaction.date = [⟨2019, 1, 1⟩, ⟨2019, 1, 2⟩, ⟨2019, 1, 5⟩]) := by
  have h5 : (getTransactions Ex.lib .generated false Ex.file5).map (fun i => i.transactions.map Transaction.description) =
      .ok ["FOO CO @ FOO.CO/THING#".toList, "DIRECT DEBIT PAYMENT".toList, "BAR CO @ THING#".toList] := by decide +kernel
  have h6 : (getTransactions Ex.lib .generated true Ex.file6).map (fun i => i.transactions.map Transaction.date) =
      .ok [⟨2019, 1, 1⟩, ⟨2019, 1, 2⟩, ⟨2019, 1, 5⟩] := by decide +kernel
  constructor
  · cases h : getTransactions Ex.lib .generated false Ex.file5 with
    | error e => rw [h] at h5; cases h5
    | ok imp =>
      rw [h] at h5
      exact ⟨imp, rfl, ⟨[], "£-123.45".toList, [], "£500.00".toList, [], rfl, by decide +kernel, by decide +kernel⟩, Except.ok.inj h5⟩
  · cases h : getTransactions Ex.lib .generated true Ex.file6 with
    | error e => rw [h] at h6; cases h6
    | ok imp =>
      rw [h] at h6
      exact ⟨imp, rfl, ⟨[], "£150.00".toList, [], "£150.00".toList, [], rfl, by decide +kernel, by decide +kernel⟩, Except.ok.inj h6⟩

/-- How many rows right before each row have the same date. -/
example : (List.range 6).map (sinceChange [1, 1, 1, 2, 1, 1]) = [0, 1, 2, 0, 0, 1] := by decide

/-! ## C44 and C47: balance and fingerprints -/

/-- Every transaction comes from a row of one of the two formats. -/
theorem from_row {L : ImportLib} {fpNs : FpNamespace} {legacy : Bool} {records : List (Option Row)} {imp : Import}
    (h : getTransactions L fpNs legacy records = .ok imp) {t : Transaction} (ht : t ∈ imp.transactions) :
    ∃ account ns k, fpNs.make L account = .ok ns ∧ GoodNamespace ns ∧
      ((∃ r : RecordFive, FiveSays L ns account r k t) ∨ ∃ r : RecordSix, SixSays L ns account legacy r k t) := by
  obtain ⟨account, columns, rows, ns, hs, hn, hg, hc⟩ := (C45_accepted L fpNs legacy records).1 ⟨imp, h⟩
  obtain ⟨i, hi, e⟩ := List.getElem_of_mem ht
  rcases hc with ⟨rfl, _⟩ | ⟨rfl, _⟩
  · obtain ⟨h1, h2, rs, h3, h4⟩ := C45_five h hs
    rw [hn] at h1
    cases h1
    have hi' : i < rs.length := by omega
    obtain ⟨_, t', e', hf⟩ := h4 i hi'
    rw [List.getElem?_eq_getElem hi, e] at e'
    cases e'
    refine ⟨account, _, _, hn, hg.resolve_left ?_, Or.inl ⟨_, hf⟩⟩
    rintro rfl
    rw [h3] at hi'
    cases hi'
  · obtain ⟨h1, h2, rs, h3, h4⟩ := C45_six h hs
    rw [hn] at h1
    cases h1
    have hi' : i < rs.length := by omega
    obtain ⟨_, t', e', hf⟩ := h4 i hi'
    rw [List.getElem?_eq_getElem hi, e] at e'
    cases e'
    refine ⟨account, _, _, hn, hg.resolve_left ?_, Or.inr ⟨_, hf⟩⟩
    rintro rfl
    rw [h3] at hi'
    cases hi'

/-- C44, Nationwide CSV: every transaction has two postings, with the same amount of the same commodity in opposite directions. -/
theorem C44_nationwide_csv {L : ImportLib} {fpNs : FpNamespace} {legacy : Bool} {records : List (Option Row)} {imp : Import}
    (h : getTransactions L fpNs legacy records = .ok imp) {t : Transaction} (ht : t ∈ imp.transactions) :
    ∃ p q, t.postings = [p, q] ∧ Opposite p q ∧ Balanced t.postings := by
  obtain ⟨account, ns, k, _, _, hr⟩ := from_row h ht
  rcases hr with ⟨r, amt, p, q, _, hts, hp, hq⟩ | ⟨r, amt, p, q, _, hts, hp, hq⟩
  · have ho : Opposite p q := opposite_halves amt hp hq
    refine ⟨p, q, hts.postings, ho, ?_⟩
    rw [hts.postings]
    exact balanced_pairs [(p, q)] fun x hx => by obtain rfl := List.mem_singleton.1 hx; exact ho
  · have ho : Opposite p q := opposite_halves amt hp hq
    refine ⟨p, q, hts.postings, ho, ?_⟩
    rw [hts.postings]
    exact balanced_pairs [(p, q)] fun x hx => by obtain rfl := List.mem_singleton.1 hx; exact ho

theorem good_new {name : Str} (hn : ∀ c ∈ name, PartChar c) (version : Int) {ns : Str} (h : GoodNamespace ns) :
    FingerprintBuilder.new name version ns = .ok ⟨[], name, version, ns⟩ :=
  newBuilder_ok (newBuilder_good hn version h)

theorem fiveFp_built (L : ImportLib) (r : RecordFive) {ns : Str} (h : GoodNamespace ns) (k : Int) :
    Built (fiveFp L r ns k).self ∧ Built (fiveFp L r ns k).peer :=
  ⟨⟨_, _, _, _, L.sha1, [_, _, _, _, _, _, _], good_new nwcsv5_chars 1 h, rfl⟩,
   ⟨_, _, _, _, L.sha1, [_, _, _, _, _, _, _], good_new nwcsv5_chars 1 h, rfl⟩⟩

theorem sixFp_built (L : ImportLib) (r : RecordSix) {ns : Str} (h : GoodNamespace ns) (k : Int) :
    Built (sixFp L r ns k).self ∧ Built (sixFp L r ns k).peer :=
  ⟨⟨_, _, _, _, L.sha1, [_, _, _, _, _, _, _, _], good_new nwcsv6_chars 1 h, rfl⟩,
   ⟨_, _, _, _, L.sha1, [_, _, _, _, _, _, _, _], good_new nwcsv6_chars 1 h, rfl⟩⟩

theorem sixLegacyFp_built (L : ImportLib) (r : RecordSix) {ns : Str} (h : GoodNamespace ns) (k : Int) (halves : TransactionHalves) :
    Built (sixLegacyFp L r ns k halves).self ∧ Built (sixLegacyFp L r ns k halves).peer :=
  ⟨⟨_, _, _, _, L.sha1, [_, _, _, _, _, _, _], good_new (name := []) (by intro c hc; cases hc) 0 h, rfl⟩,
   ⟨_, _, _, _, L.sha1, [_, _, _, _, _, _, _], good_new (name := []) (by intro c hc; cases hc) 0 h, rfl⟩⟩

theorem fixed_words : (∀ t ∈ ["import-self".toList, "import-peer".toList, "unknown-account".toList], Word t ∧ '\n' ∉ t ∧ ¬ IsFp t) := by
  decide +kernel

/-- The tags of the two postings of a record are words. -/
theorem five_words (L : ImportLib) (r : RecordFive) {ns : Str} (h : GoodNamespace ns) (k : Int) :
    (∀ t ∈ ["import-self".toList, (fiveFp L r ns k).self.tag, "unknown-account".toList], Word t ∧ '\n' ∉ t) ∧
    ∀ t ∈ ["import-peer".toList, (fiveFp L r ns k).peer.tag, "unknown-account".toList], Word t ∧ '\n' ∉ t := by
  have hf := C42_tag (fiveFp_built L r h k).1
  have hg := C42_tag (fiveFp_built L r h k).2
  have hw := fixed_words
  simp only [List.forall_mem_cons, List.not_mem_nil, false_implies, implies_true, and_true] at hw ⊢
  exact ⟨⟨⟨hw.1.1, hw.1.2.1⟩, hf.2.2, ⟨hw.2.2.1, hw.2.2.2.1⟩⟩, ⟨hw.2.1.1, hw.2.1.2.1⟩, hg.2.2, ⟨hw.2.2.1, hw.2.2.2.1⟩⟩

/-- The tags of the two postings of a record are words. -/
theorem six_words (L : ImportLib) (r : RecordSix) {ns : Str} (h : GoodNamespace ns) (k : Int) (legacy : Bool) (halves : TransactionHalves) :
    (∀ t ∈ (if legacy then [(sixLegacyFp L r ns k halves).self.legacyTag] else []) ++
        ["import-self".toList, (sixFp L r ns k).self.tag, "unknown-account".toList], Word t ∧ '\n' ∉ t) ∧
    ∀ t ∈ (if legacy then [(sixLegacyFp L r ns k halves).peer.legacyTag] else []) ++
        ["import-peer".toList, (sixFp L r ns k).peer.tag, "unknown-account".toList], Word t ∧ '\n' ∉ t := by
  have hf := C42_tag (sixFp_built L r h k).1
  have hg := C42_tag (sixFp_built L r h k).2
  have hlf := C42_legacy_tag (sixLegacyFp_built L r h k halves).1
  have hlg := C42_legacy_tag (sixLegacyFp_built L r h k halves).2
  have hw := fixed_words
  cases legacy <;>
  simp only [if_true, Bool.false_eq_true, if_false, List.nil_append, List.cons_append, List.forall_mem_cons, List.not_mem_nil, false_implies,
    implies_true, and_true] at hw ⊢
  · exact ⟨⟨⟨hw.1.1, hw.1.2.1⟩, hf.2.2, ⟨hw.2.2.1, hw.2.2.2.1⟩⟩, ⟨hw.2.1.1, hw.2.1.2.1⟩, hg.2.2, ⟨hw.2.2.1, hw.2.2.2.1⟩⟩
  · exact ⟨⟨hlf.2.2, ⟨hw.1.1, hw.1.2.1⟩, hf.2.2, ⟨hw.2.2.1, hw.2.2.2.1⟩⟩, hlg.2.2, ⟨hw.2.1.1, hw.2.1.2.1⟩, hg.2.2, ⟨hw.2.2.1, hw.2.2.2.1⟩⟩

/-- C47, Nationwide CSV: when the comment of any posting is read again there is a fingerprint in it. -/
theorem C47_nationwide_csv {L : ImportLib} {fpNs : FpNamespace} {legacy : Bool} {records : List (Option Row)} {imp : Import}
    (h : getTransactions L fpNs legacy records = .ok imp) {t : Transaction} (ht : t ∈ imp.transactions) {p : Posting} (hp : p ∈ t.postings) :
    ∃ f ∈ (Comment.fromOptComment p.comment).tags, IsFp f := by
  obtain ⟨account, ns, k, _, hg, hr⟩ := from_row h ht
  rcases hr with ⟨r, amt, p', q', _, hts, hp', hq'⟩ | ⟨r, amt, p', q', _, hts, hp', hq'⟩
  · rw [hts.postings] at hp
    have hb := fiveFp_built L r hg k
    have hw := five_words L r hg k
    rcases List.mem_cons.1 hp with rfl | hp
    · exact ⟨_, hp'.read_mem hw.1 (by simp), (C42_tag hb.1).1⟩
    · obtain rfl := List.mem_singleton.1 hp
      exact ⟨_, hq'.read_mem hw.2 (List.mem_cons_of_mem _ List.mem_cons_self), (C42_tag hb.2).1⟩
  · rw [hts.postings] at hp
    have hb := sixFp_built L r hg k
    have hw := six_words L r hg k legacy (selfAndPeerAccountAmount amt ownAccount)
    rcases List.mem_cons.1 hp with rfl | hp
    · exact ⟨_, hp'.read_mem hw.1 (t := (sixFp L r ns k).self.tag) (by simp), (C42_tag hb.1).1⟩
    · obtain rfl := List.mem_singleton.1 hp
      exact ⟨_, hq'.read_mem hw.2 (t := (sixFp L r ns k).peer.tag) (by simp), (C42_tag hb.2).1⟩

end NationwideCsv
end Verif
