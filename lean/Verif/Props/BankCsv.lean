import Verif.Props.Bank
import Verif.Props.DaysCsv
import Verif.Props.OverlapExact

/-!
# C94 for the files of a bank: Nationwide CSV files with balances
-/

namespace Verif
open Spec Spec.Book

namespace NationwideCsv
open Nationwide

/-- What a column for an amount says; nothing is zero. -/
def moved (m : Option Amount) : Rat := (m.map fun a => value a.quantity).getD 0

/-- The column of balances of rows of six columns is right: before the first row there was `b` in the account. -/
inductive AddUp (L : ImportLib) : Rat → List (Option Row) → Prop
  | nil (b) : AddUp L b []
  | cons {b row r rows} : SixRow L row r → value r.balance.quantity = b + moved r.paidIn - moved r.paidOut →
      AddUp L (value r.balance.quantity) rows → AddUp L b (some row :: rows)

/-- The rows are in the order of their dates. -/
def RowsInOrder (L : ImportLib) (rows : List (Option Row)) : Prop :=
  rows.Pairwise fun o o' => ∀ row row' d d', o = some row → o' = some row' → RowDate L row d → RowDate L row' d' → (compare d d').isLE

theorem gbpValue_gbp {L : ImportLib} {s : Str} {a : Amount} (h : gbpValue L s = some a) : a.commodity = gbp := by
  unfold gbpValue at h
  split at h
  · cases h
  · simp only at h
    split at h
    · split at h
      · cases h; rfl
      · cases h
    · cases h

theorem six_forall₂ {L : ImportLib} {fpNs : FpNamespace} {legacy : Bool} {records : List (Option Row)} {imp : Import} {account : Str}
    {rows : List (Option Row)} (h : getTransactions L fpNs legacy records = .ok imp) (hs : FileShape L records account sixColumns rows) :
    List.Forall₂ (fun o t => ∃ row r k, o = some row ∧ SixRow L row r ∧ SixSays L imp.userFpNamespace account legacy r k t) rows
      imp.transactions := by
  obtain ⟨_, h2, rs, h3, h4⟩ := C45_six h hs
  rw [List.forall₂_iff_get]
  refine ⟨h2.symm, fun i hi hi' => ?_⟩
  obtain ⟨⟨row, e1, e2⟩, t, e3, e4⟩ := h4 i (by omega)
  rw [List.getElem?_eq_getElem hi] at e1
  rw [List.getElem?_eq_getElem hi'] at e3
  injection e1 with e1
  injection e3 with e3
  exact ⟨row, _, _, e1, e2, by rw [List.get_eq_getElem, e3]; exact e4⟩

theorem six_posts {L : ImportLib} {ns account : Str} {legacy : Bool} {r : RecordSix} {k : Nat} {t : Transaction} {row : Row} (hr : SixRow L row r)
    (h : SixSays L ns account legacy r k t) : ∃ p, postsOf ownAccount [TransactionPostings.ofTransaction t] = [p] ∧
      p.balance = some (.amount r.balance) ∧ ∃ a, p.amount = some ⟨a, none, none⟩ ∧ a.commodity = gbp ∧
        value a.quantity = moved r.paidIn - moved r.paidOut := by
  obtain ⟨amt, p, q, ho, ht, hp, hq⟩ := h
  obtain ⟨_, _, _, _, _, _, _, mo, mi, _⟩ := hr
  refine ⟨(PostingInternal.ofPosting p).raw, ?_, ?_, amt, ?_, own_gbp mi mo ho, ?_⟩
  · have : ∀ x : Posting, (PostingInternal.ofPosting x).raw.account = x.account := fun x => rfl
    unfold postsOf allPosts TransactionPostings.ofTransaction
    rw [List.flatMap_singleton, ht.postings]
    simp only [List.map_cons, List.map_nil]
    rw [List.filter_cons_of_pos (by rw [this, hp.account]; exact decide_eq_true rfl), List.filter_cons_of_neg, List.filter_nil]
    rw [this, hq.account]
    unfold peerAccount
    split_ifs <;> decide +kernel
  · exact hp.balance
  · exact hp.amount
  · unfold moved
    rcases ho with ⟨h1, h2⟩ | ⟨h1, a, h2, h3, _⟩
    · rw [h1, h2]
      simp
    · rw [h1, h2, h3]
      simp

/-- C94: if the column of balances of the file is right, then what the imported transactions say about the balance of the account holds. -/
theorem C94_six {L : ImportLib} {fpNs : FpNamespace} {legacy : Bool} {records : List (Option Row)} {imp : Import} {account : Str}
    {rows : List (Option Row)} (h : getTransactions L fpNs legacy records = .ok imp) (hs : FileShape L records account sixColumns rows)
    (start : Str → Rat) (ha : AddUp L (start gbp.name) rows) : BalancesHold start (postsOf ownAccount imp.postings) := by
  have key : ∀ {rows : List (Option Row)} {ts : List Transaction}, List.Forall₂ (fun o t => ∃ row r k, o = some row ∧ SixRow L row r ∧
      SixSays L imp.userFpNamespace account legacy r k t) rows ts → ∀ start : Str → Rat, AddUp L (start gbp.name) rows →
      BalancesHold start (postsOf ownAccount (ts.map TransactionPostings.ofTransaction)) := by
    intro rows ts hf
    induction hf with
    | nil => exact fun start _ => balancesHold_nil start
    | @cons o t rows ts ho _ ih =>
      intro start ha
      obtain ⟨row, r, k, rfl, hr, hsays⟩ := ho
      obtain ⟨p, h1, h2, a, h3, h4, h5⟩ := six_posts hr hsays
      rw [List.map_cons, ← List.singleton_append, postsOf_append, h1, List.singleton_append, balancesHold_cons]
      cases ha with
      | @cons _ _ r' _ hr' hb hrest =>
        have : r' = r := by
          have e1 := (sixRow_iff ..).2 hr
          rw [(sixRow_iff ..).2 hr'] at e1
          exact Option.some.inj e1
        subst this
        have hbal : gbp = r'.balance.commodity := by
          obtain ⟨_, _, _, s, _, _, _, _, _, hs⟩ := hr
          exact (gbpValue_gbp hs).symm
        have ht : total gbp.name [p] = moved r'.paidIn - moved r'.paidOut := by
          unfold total
          simp only [List.map_cons, List.map_nil, h3, List.sum_cons, List.sum_nil, h4, if_true, h5, add_zero]
        refine ⟨?_, ih _ ?_⟩
        · rw [h2]
          show start r'.balance.commodity.name + total r'.balance.commodity.name [p] = _
          rw [← hbal, ht, hb, add_sub_assoc]
        · show AddUp L (start gbp.name + total gbp.name [p]) rows
          rw [ht, ← add_sub_assoc, ← hb]
          exact hrest
  exact key (six_forall₂ h hs) start ha

theorem six_chronological {L : ImportLib} {fpNs : FpNamespace} {legacy : Bool} {records : List (Option Row)} {imp : Import} {account : Str}
    {rows : List (Option Row)} (h : getTransactions L fpNs legacy records = .ok imp) (hs : FileShape L records account sixColumns rows)
    (ho : RowsInOrder L rows) : Chronological imp.postings := by
  have key : ∀ {rows : List (Option Row)} {ts : List Transaction}, List.Forall₂ (fun o t => ∃ row r k, o = some row ∧ SixRow L row r ∧
      SixSays L imp.userFpNamespace account legacy r k t) rows ts → RowsInOrder L rows → Chronological (ts.map TransactionPostings.ofTransaction) := by
    intro rows ts hf
    induction hf with
    | nil => exact fun _ => List.Pairwise.nil
    | @cons o t rows ts hot hrest ih =>
      intro ho
      obtain ⟨h1, h2⟩ := List.pairwise_cons.1 ho
      refine List.pairwise_cons.2 ⟨?_, ih h2⟩
      intro x hx
      obtain ⟨u, hu, rfl⟩ := List.mem_map.1 hx
      obtain ⟨o', ho', row', r', k', rfl, hr', hs'⟩ := forall₂_right hrest hu
      obtain ⟨row, r, k, rfl, hr, hs⟩ := hot
      have hd : ∀ {row r k t}, SixRow L row r → SixSays L imp.userFpNamespace account legacy r k t → RowDate L row (dateOf (.ofTransaction t)) := by
        intro row r k t hr hs
        obtain ⟨_, _, _, _, hts, _⟩ := hs
        obtain ⟨d, _, _, _, _, rfl, hd, _⟩ := hr
        exact ⟨d, _, rfl, by rw [hd]; exact congrArg some hts.date.symm⟩
      exact h1 _ ho' row row' _ _ rfl rfl (hd hr hs) (hd hr' hs')
  exact key (six_forall₂ h hs) ho

/-- C94 for Nationwide CSV files of six columns: the days of an account are downloaded in any files of whole days and merged by any runs. If the column
of balances of the whole file is right, what the journal says about the balance holds, after each of its transactions. -/
theorem C94_csv {L : ImportLib} {fpNs : FpNamespace} {legacy : Bool} {f : List (Option Row)} {imp : Import} {account : Str}
    {days : List (List (Option Row))} (h : getTransactions L fpNs legacy f = .ok imp) (hs : FileShape L f account sixColumns days.flatten)
    (hd : ByDay L days) (hp : PlainFields f) (hfp : DistinctFingerprints imp.transactions) (ho : RowsInOrder L days.flatten)
    (start : Str → Rat) (ha : AddUp L (start gbp.name) days.flatten) (orders : Nat → HashOrder)
    (runs : List (List (List (Option Row) × List (List (Option Row))))) (hne : runs ≠ [])
    (hr : ∀ r ∈ runs, ∀ x ∈ r, x.2.Subperm days ∧ FileShape L x.1 account sixColumns x.2.flatten)
    (hall : ∀ B ∈ days, ∃ r ∈ runs, ∃ x ∈ r, B ∈ x.2) :
    journalAfter [] (runs.mapIdx fun i r => (orders i, r.map fun x => (orders i, imported L fpNs legacy x.1))) = some imp.postings ∧
      BalancesHold start (postsOf ownAccount imp.postings) := by
  obtain ⟨j, h1, h2, _⟩ := C92_new_journal h hs hd hp hfp orders runs hne hr hall
  have hj : j = imp.postings := by
    obtain ⟨_, hj⟩ := (journalOf_unlike (calls := [(.sorted, imp.postings)]) (List.pairwise_singleton _ _) _).1 h2
    rw [show (inputs [(HashOrder.sorted, imp.postings)]).flatten = imp.postings from List.append_nil _] at hj
    rw [hj]
    exact List.mergeSort_of_pairwise (six_chronological h hs ho)
  subst hj
  exact ⟨h1, C94_six h hs start ha⟩

/-! ### An example -/

/-- The first day, with a withdrawal. -/
def sixFirst : List (List String) := [["01 Jan 2019", "ATM", "ATM Withdrawal", "£30.00", "", "£200.00"]]
/-- The second day. -/
def sixSecond : List (List String) :=
  [["02 Jan 2019", "Transfer", "Payroll", "", "£300.00", "£500.00"], ["02 Jan 2019", "Transfer", "Savings", "£100.00", "", "£400.00"]]

theorem addUp_of {L : ImportLib} : ∀ {rows : List (Option Row)} {rs : List RecordSix} {b : Rat}, Records (SixRow L) rows rs →
    (rs.foldr (fun r (k : Rat → Bool) (b : Rat) => decide (value r.balance.quantity = b + moved r.paidIn - moved r.paidOut) &&
      k (value r.balance.quantity)) (fun _ => true)) b = true → AddUp L b rows := by
  intro rows rs b h
  induction h generalizing b with
  | nil => exact fun _ => .nil b
  | cons h _ ih =>
    intro hb
    rw [List.foldr_cons, Bool.and_eq_true] at hb
    obtain ⟨row, rfl, hr⟩ := h
    exact .cons hr (of_decide_eq_true hb.1) (ih hb.2)

set_option maxRecDepth 100000 in
/-- The hypotheses of `C94_csv` are met: first the second day is downloaded, then both. -/
example : ∃ imp, getTransactions Ex.plainLib .generated true (fileOf6 (sixFirst ++ sixSecond)) = .ok imp ∧ imp.postings.length = 3 ∧
    journalAfter [] [(.rev, [(.rev, imported Ex.plainLib .generated true (fileOf6 sixSecond))]),
      (.rev, [(.rev, imported Ex.plainLib .generated true (fileOf6 (sixFirst ++ sixSecond)))])] = some imp.postings ∧
    BalancesHold (fun c => if c = gbp.name then 230 else 0) (postsOf ownAccount imp.postings) := by
  have key : (match getTransactions Ex.plainLib .generated true (fileOf6 (sixFirst ++ sixSecond)) with
    | .ok imp => decide (imp.postings.length = 3 ∧ (Merger.new.merge HashOrder.rev imp.postings).1 = .ok [])
    | .error _ => false) = true := by decide +kernel
  split at key
  swap
  · cases key
  rename_i imp e
  obtain ⟨k1, k2⟩ := of_decide_eq_true key
  have hplain : PlainFields (fileOf6 (sixFirst ++ sixSecond)) := by unfold PlainFields; decide +kernel
  have hdates : ∀ (B : List (Option Row)) (d : Date), (∀ o ∈ B, ∀ row ∈ o, (row.head?.bind Ex.dayMonYear?) = some d) →
      ∀ row, some row ∈ B → RowDate Ex.plainLib row d := by
    intro B d hB row hr
    have := hB _ hr row rfl
    cases row with
    | nil => cases this
    | cons s rest => exact ⟨s, rest, rfl, this⟩
  have h1 := hdates (Ex.rows sixFirst) ⟨2019, 1, 1⟩ (by decide +kernel)
  have h2 := hdates (Ex.rows sixSecond) ⟨2019, 1, 2⟩ (by decide +kernel)
  have hflat : [Ex.rows sixFirst, Ex.rows sixSecond].flatten = Ex.rows (sixFirst ++ sixSecond) := by rfl
  have hd : ByDay Ex.plainLib [Ex.rows sixFirst, Ex.rows sixSecond] := by
    constructor
    · intro B hB
      simp only [List.mem_cons, List.not_mem_nil, or_false] at hB
      rcases hB with rfl | rfl
      · exact ⟨_, h1⟩
      · exact ⟨_, h2⟩
    · refine List.pairwise_cons.2 ⟨?_, List.pairwise_singleton _ _⟩
      intro C hC row row' x hr hr' hx hx'
      rw [List.mem_singleton.1 hC] at hr'
      have : (⟨2019, 1, 1⟩ : Date) = ⟨2019, 1, 2⟩ := (rowDate_unique (h1 row hr) hx).trans (rowDate_unique (h2 row' hr') hx').symm
      exact absurd this (by decide)
  have hin : RowsInOrder Ex.plainLib [Ex.rows sixFirst, Ex.rows sixSecond].flatten := by
    have hle : ∀ {B C : List (Option Row)} {d d' : Date}, (∀ row, some row ∈ B → RowDate Ex.plainLib row d) →
        (∀ row, some row ∈ C → RowDate Ex.plainLib row d') → (compare d d').isLE → ∀ o ∈ B, ∀ o' ∈ C, ∀ row row' x x', o = some row →
        o' = some row' → RowDate Ex.plainLib row x → RowDate Ex.plainLib row' x' → (compare x x').isLE := by
      rintro B C d d' hB hC hdd o ho o' ho' row row' x x' rfl rfl hx hx'
      rw [← rowDate_unique (hB row ho) hx, ← rowDate_unique (hC row' ho') hx']
      exact hdd
    refine List.pairwise_cons.2 ⟨fun o' ho' => hle h1 h2 (by decide) _ List.mem_cons_self o' ho', List.pairwise_cons.2 ⟨fun o' ho' =>
      hle h2 h2 (by decide) _ List.mem_cons_self o' (List.mem_cons_of_mem _ ho'), List.pairwise_singleton _ _⟩⟩
  have hadd : AddUp Ex.plainLib 230 [Ex.rows sixFirst, Ex.rows sixSecond].flatten := by
    refine addUp_of (rs := [⟨⟨2019, 1, 1⟩, "ATM".toList, "ATM Withdrawal".toList, some ⟨⟨false, 3000, 2⟩, gbp⟩, none, ⟨⟨false, 20000, 2⟩, gbp⟩⟩,
      ⟨⟨2019, 1, 2⟩, "Transfer".toList, "Payroll".toList, none, some ⟨⟨false, 30000, 2⟩, gbp⟩, ⟨⟨false, 50000, 2⟩, gbp⟩⟩,
      ⟨⟨2019, 1, 2⟩, "Transfer".toList, "Savings".toList, some ⟨⟨false, 10000, 2⟩, gbp⟩, none, ⟨⟨false, 40000, 2⟩, gbp⟩⟩])
      (records_of (fun row r => sixRow_iff Ex.plainLib row r) (by decide +kernel)) (by decide +kernel)
  obtain ⟨a1, a2⟩ := C94_csv (account := "Current".toList) (days := [Ex.rows sixFirst, Ex.rows sixSecond]) e
    (by rw [hflat]; exact fileOf6_shape _) hd hplain ((C47_nationwide_csv_merge e hplain .rev).1 k2) hin
    (fun c => if c = gbp.name then 230 else 0) (by rw [if_pos rfl]; exact hadd) (fun _ => .rev)
    [[(fileOf6 sixSecond, [Ex.rows sixSecond])], [(fileOf6 (sixFirst ++ sixSecond), [Ex.rows sixFirst, Ex.rows sixSecond])]] (by simp)
    (by
      intro r hr x hx
      simp only [List.mem_cons, List.not_mem_nil, or_false] at hr
      rcases hr with rfl | rfl
      · rw [List.mem_singleton] at hx
        subst hx
        refine ⟨⟨[Ex.rows sixSecond], List.Perm.refl _, List.sublist_cons_self _ _⟩, ?_⟩
        exact fileOf6_shape sixSecond
      · rw [List.mem_singleton] at hx
        subst hx
        exact ⟨List.Subperm.refl _, by rw [hflat]; exact fileOf6_shape _⟩)
    (by
      intro B hB
      exact ⟨_, List.mem_cons_of_mem _ List.mem_cons_self, _, List.mem_cons_self, hB⟩)
  exact ⟨imp, e, k1, a1, a2⟩

end NationwideCsv
end Verif
