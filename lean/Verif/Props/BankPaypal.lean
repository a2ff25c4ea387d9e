import Verif.Props.BankCsv
import Verif.Props.DaysPaypal

/-!
# C94 for the files of PayPal
-/

namespace Verif
open Spec Spec.Book

namespace PaypalCsv
open NationwideCsv (Row DistinctFingerprints)

/-- The balances that the records say are right, for each currency by itself: before the first record there was `start`. -/
def AddUp (start : Str → Rat) : List RawRecord → Prop
  | [] => True
  | v :: vs => value v.balance = start v.currency + value v.amount ∧
      AddUp (fun c => if c = v.currency then value v.balance else start c) vs

/-- A posting with the amount and the balance of a record. -/
def Tells (v : RawRecord) (p : Posting) : Prop :=
  p.amount = some ⟨v.money v.amount, none, none⟩ ∧ p.balance = some (.amount (v.money v.balance))

theorem pairs_posts {L : ImportLib} {ns : Str} {legacy : Bool} {g : List RawRecord} {pairs : List (Posting × Posting)}
    (h : List.Forall₂ (fun v x => ∃ i, PairSays L ns legacy v i x.1 x.2) g pairs) : List.Forall₂ Tells g
      ((((pairs.flatMap fun x => [x.1, x.2]).map PostingInternal.ofPosting).map (·.raw)).filter (·.account = ownAccount)) := by
  induction h with
  | nil => exact .nil
  | @cons v x g pairs hv _ ih =>
    obtain ⟨i, hs, hp⟩ := hv
    rw [List.flatMap_cons, List.map_append, List.map_append, List.filter_append]
    have h1 : ∀ q : Posting, (PostingInternal.ofPosting q).raw.account = q.account := fun q => rfl
    simp only [List.map_cons, List.map_nil]
    rw [List.filter_cons_of_pos (by rw [h1, hs.account]; exact decide_eq_true rfl), List.filter_cons_of_neg, List.filter_nil]
    · exact .cons ⟨hs.amount, hs.balance⟩ ih
    · rw [h1, hp.account]
      unfold NationwideCsv.peerAccount
      split_ifs <;> decide +kernel

/-- The own postings of the transaction of a group are those of its records, in order. -/
theorem group_posts {L : ImportLib} {tz : TzAbbr.DB} {ns : Str} {legacy : Bool} {g : List RawRecord} {t : Transaction}
    (h : GroupSays L tz ns legacy g t) : List.Forall₂ Tells g (postsOf ownAccount [TransactionPostings.ofTransaction t]) := by
  obtain ⟨_, _, _, _, _, pairs, _, _, _, _, ht, hl, hp⟩ := h
  have : List.Forall₂ (fun v x => ∃ i, PairSays L ns legacy v i x.1 x.2) g pairs := by
    rw [List.forall₂_iff_get]
    exact ⟨hl.symm, fun i h1 h2 => ⟨i, hp i h1 h2⟩⟩
  have := pairs_posts this
  unfold postsOf allPosts TransactionPostings.ofTransaction
  rw [List.flatMap_singleton, ht.postings]
  exact this

theorem groups_posts {L : ImportLib} {tz : TzAbbr.DB} {ns : Str} {legacy : Bool} {gs : List (List RawRecord)} {ts : List Transaction}
    (h : List.Forall₂ (GroupSays L tz ns legacy) gs ts) :
    List.Forall₂ Tells gs.flatten (postsOf ownAccount (ts.map TransactionPostings.ofTransaction)) := by
  induction h with
  | nil => exact .nil
  | @cons g t gs ts hg _ ih =>
    rw [List.flatten_cons, List.map_cons, ← List.singleton_append, postsOf_append]
    exact List.rel_append (group_posts hg) ih

theorem balancesHold_records {vs : List RawRecord} {ps : List Posting} (h : List.Forall₂ Tells vs ps) :
    ∀ start, AddUp start vs → BalancesHold start ps := by
  induction h with
  | nil => exact fun start _ => balancesHold_nil start
  | @cons v p vs ps hv _ ih =>
    rintro start ⟨h1, h2⟩
    have ht : ∀ c, total c [p] = if c = v.currency then value v.amount else 0 := by
      intro c
      unfold total
      simp only [List.map_cons, List.map_nil, hv.1, List.sum_cons, List.sum_nil, add_zero]
      exact if_congr eq_comm rfl rfl
    have hf : (fun c => start c + total c [p]) = fun c => if c = v.currency then value v.balance else start c := by
      funext c
      rw [ht]
      split_ifs with hc
      · rw [hc, h1]
      · rw [add_zero]
    rw [balancesHold_cons, hf]
    refine ⟨?_, ih _ h2⟩
    rw [hv.2]
    exact if_pos rfl

/-- C94: if the balances in the file of PayPal are right, then what the imported transactions say about the balances of the account holds. -/
theorem C94_records {L : ImportLib} {ns : Str} {legacy : Bool} {headers : Row} {rows : List (Option Row)} {tzRecords : List (Option TzAbbr.Record)}
    {imp : Import} {vs : List RawRecord} (h : getTransactions L ns legacy (some headers) rows tzRecords = .ok imp) (hvs : Rows L headers rows vs)
    (start : Str → Rat) (ha : AddUp start vs) : BalancesHold start (postsOf ownAccount imp.postings) := by
  obtain ⟨_, tz, _, _, hh, htz, _⟩ := (C50_accepted L ns legacy (some headers) rows tzRecords).1 ⟨imp, h⟩
  obtain ⟨_, vs', gs, h1, h2, h3⟩ := C50_groups h htz
  have e : vs' = vs := rows_unique h1 hvs
  subst e
  have := groups_posts h3
  rw [h2.flatten] at this
  exact balancesHold_records this start ha

/-- C94 for PayPal: the days are downloaded in any files of whole days and merged by any runs into a new journal. If the whole file is in the order of
its dates and its balances are right, what the journal says about the balances holds, after each of its postings. -/
theorem C94_paypal {L : ImportLib} {ns : Str} {headers : Row} {tzRecords : List (Option TzAbbr.Record)} {tz : TzAbbr.DB} {imp : Import}
    {days : List (List (Option Row))} {vs : List RawRecord} (h : getTransactions L ns true (some headers) days.flatten tzRecords = .ok imp)
    (htz : TzAbbr.fromRecords tzRecords = .ok tz) (hd : ByDay L headers tz days) (hp : NoNewlines days.flatten)
    (hfp : DistinctFingerprints imp.transactions) (hvs : Rows L headers days.flatten vs)
    (ho : vs.Pairwise fun v w => ∀ x y, when tz v = some x → when tz w = some y → (compare (L.localDate x) (L.localDate y)).isLE)
    (start : Str → Rat) (ha : AddUp start vs) (orders : Nat → HashOrder) (runs : List (List (List (List (Option Row))))) (hne : runs ≠ [])
    (hr : ∀ r ∈ runs, ∀ part ∈ r, part.Subperm days) (hall : ∀ B ∈ days, ∃ r ∈ runs, ∃ part ∈ r, B ∈ part) :
    journalAfter [] (runs.mapIdx fun i r => (orders i, r.map fun part =>
        (orders i, imported L ns true headers part.flatten tzRecords))) = some imp.postings ∧
      BalancesHold start (postsOf ownAccount imp.postings) := by
  refine ⟨?_, C94_records h hvs start ha⟩
  obtain ⟨j, k1, k2, _⟩ := C92_paypal_new h htz hd hp hfp orders runs hne hr hall
  have hc : Chronological imp.postings := by
    obtain ⟨_, vs', gs, h1, h2, h3⟩ := C50_groups h htz
    have e : vs' = vs := rows_unique h1 hvs
    subst e
    rw [← h2.flatten] at ho
    have hne := h2.nonempty
    clear h2 h1 ha hvs
    show Chronological (imp.transactions.map TransactionPostings.ofTransaction)
    generalize imp.transactions = ts at h3
    induction h3 with
    | nil => exact List.Pairwise.nil
    | @cons g t gs ts hg hgs ih =>
      rw [List.flatten_cons, List.pairwise_append] at ho
      refine List.pairwise_cons.2 ⟨?_, ih ho.2.1 fun g' hg' => hne g' (List.mem_cons_of_mem _ hg')⟩
      intro x hx
      obtain ⟨u, hu, rfl⟩ := List.mem_map.1 hx
      obtain ⟨g', hg', hs'⟩ := NationwideCsv.forall₂_right hgs hu
      obtain ⟨v, hv⟩ := List.exists_mem_of_ne_nil g (hne g List.mem_cons_self)
      obtain ⟨w, hw⟩ := List.exists_mem_of_ne_nil g' (hne g' (List.mem_cons_of_mem _ hg'))
      obtain ⟨dt, _, _, _, _, _, hdt, _, _, _, ht, _⟩ := hg
      obtain ⟨dt', _, _, _, _, _, hdt', _, _, _, ht', _⟩ := hs'
      have := ho.2.2 v hv w (List.mem_flatten.2 ⟨g', hg', hw⟩) dt dt' (hdt v hv) (hdt' w hw)
      rw [← ht.date, ← ht'.date] at this
      exact this
  obtain ⟨_, hj⟩ := (journalOf_unlike (calls := [(.sorted, imp.postings)]) (List.pairwise_singleton _ _) _).1 k2
  rw [show (inputs [(HashOrder.sorted, imp.postings)]).flatten = imp.postings from List.append_nil _] at hj
  rw [k1, hj]
  exact congrArg some (List.mergeSort_of_pairwise hc)

/-! ### An example -/

/-- The second day: a payment, and a deposit for it. -/
def Ex.balanceDay2 : List (Option Row) := Ex.rows
  [["02/01/2019", "12:34:56", "GMT", "Othercompany Ltd.", "Payment", "Completed", "USD", "-13.37", "", "-13.37"],
   ["02/01/2019", "12:34:56", "GMT", "", "Bank deposit to PayPal account", "Completed", "USD", "20.00", "", "6.63"]]
/-- The third day. -/
def Ex.balanceDay3 : List (Option Row) :=
  Ex.rows [["04/01/2019", "00:30:00", "BST", "Shop", "Payment", "Completed", "USD", "-6.00", "", "0.63"]]

set_option maxRecDepth 100000 in
/-- The hypotheses of `C94_paypal` are met, with two currencies: first the last two days are downloaded, then all three. -/
example : ∃ imp, getTransactions Ex.threeDays "test".toList true (some Ex.paypalHeaders) [Ex.paypalDay1, Ex.balanceDay2, Ex.balanceDay3].flatten
      Ex.paypalTz = .ok imp ∧ (postsOf ownAccount imp.postings).length = 7 ∧
    journalAfter [] ([[[Ex.balanceDay2, Ex.balanceDay3]], [[Ex.paypalDay1, Ex.balanceDay2, Ex.balanceDay3]]].mapIdx fun _ r =>
      (.rev, r.map fun part => (.rev, imported Ex.threeDays "test".toList true Ex.paypalHeaders part.flatten Ex.paypalTz))) = some imp.postings ∧
    BalancesHold (fun _ => 0) (postsOf ownAccount imp.postings) := by
  have key : (match getTransactions Ex.threeDays "test".toList true (some Ex.paypalHeaders) [Ex.paypalDay1, Ex.balanceDay2, Ex.balanceDay3].flatten
      Ex.paypalTz with
    | .ok imp => decide ((postsOf ownAccount imp.postings).length = 7 ∧ (Merger.new.merge HashOrder.rev imp.postings).1 = .ok [])
    | .error _ => false) = true := by decide +kernel
  split at key
  swap
  · cases key
  rename_i imp e
  obtain ⟨k1, k2⟩ := of_decide_eq_true key
  have hn : NoNewlines [Ex.paypalDay1, Ex.balanceDay2, Ex.balanceDay3].flatten := by
    have : ∀ o ∈ [Ex.paypalDay1, Ex.balanceDay2, Ex.balanceDay3].flatten, ∀ row ∈ o, ∀ f ∈ row, '\n' ∉ f := by decide +kernel
    exact fun row hr => this _ hr row rfl
  have hfp : DistinctFingerprints imp.transactions := by
    rcases (C47_paypal_merge e hn .rev).1 k2 with h | ⟨_, h⟩
    · exact absurd h (by decide +kernel)
    · exact h
  have hdates : ∀ (B : List (Option Row)) (d : Date),
      (∀ o ∈ B, ∀ row ∈ o, (((RawRecord.ofRow Ex.threeDays Ex.paypalHeaders row).bind (when Ex.zones)).map Ex.threeDays.localDate) = some d) →
      ∀ row, some row ∈ B → RowDay Ex.threeDays Ex.paypalHeaders Ex.zones row d := by
    intro B d hB row hr
    have := hB _ hr row rfl
    cases hv : RawRecord.ofRow Ex.threeDays Ex.paypalHeaders row with
    | none => rw [hv] at this; cases this
    | some v =>
      rw [hv] at this
      obtain ⟨dt, h1, h2⟩ := Option.map_eq_some_iff.1 this
      exact ⟨v, (reads_iff ..).1 hv, dt, h1, h2⟩
  have h1 := hdates Ex.paypalDay1 ⟨2019, 1, 1⟩ (by decide +kernel)
  have h2 := hdates Ex.balanceDay2 ⟨2019, 1, 2⟩ (by decide +kernel)
  have h3 := hdates Ex.balanceDay3 ⟨2019, 1, 3⟩ (by decide +kernel)
  have hother : ∀ {B C : List (Option Row)} {d d' : Date}, (∀ row, some row ∈ B → RowDay Ex.threeDays Ex.paypalHeaders Ex.zones row d) →
      (∀ row, some row ∈ C → RowDay Ex.threeDays Ex.paypalHeaders Ex.zones row d') → d ≠ d' →
      OtherDays Ex.threeDays Ex.paypalHeaders Ex.zones B C := by
    intro B C d d' hB hC hne row row' x hr hr' hx hx'
    exact hne ((rowDay_unique (hB row hr) hx).trans (rowDay_unique (hC row' hr') hx').symm)
  have hd : ByDay Ex.threeDays Ex.paypalHeaders Ex.zones [Ex.paypalDay1, Ex.balanceDay2, Ex.balanceDay3] := by
    constructor
    · intro B hB
      simp only [List.mem_cons, List.not_mem_nil, or_false] at hB
      rcases hB with rfl | rfl | rfl
      · exact ⟨_, h1⟩
      · exact ⟨_, h2⟩
      · exact ⟨_, h3⟩
    · refine List.pairwise_cons.2 ⟨?_, List.pairwise_cons.2 ⟨?_, List.pairwise_singleton _ _⟩⟩
      · intro C hC
        simp only [List.mem_cons, List.not_mem_nil, or_false] at hC
        rcases hC with rfl | rfl
        · exact hother h1 h2 (by decide)
        · exact hother h1 h3 (by decide)
      · intro C hC
        rw [List.mem_singleton.1 hC]
        exact hother h2 h3 (by decide)
  have hvs : Rows Ex.threeDays Ex.paypalHeaders [Ex.paypalDay1, Ex.balanceDay2, Ex.balanceDay3].flatten
      (Ex.recordsOf [Ex.paypalDay1, Ex.balanceDay2, Ex.balanceDay3].flatten) := rows_of (by decide +kernel)
  have ho : ∀ x y, when Ex.zones x ≠ none ∧ when Ex.zones y ≠ none ∧
      (compare (((when Ex.zones x).map Ex.threeDays.localDate).getD ⟨0, 1, 1⟩) (((when Ex.zones y).map Ex.threeDays.localDate).getD ⟨0, 1, 1⟩)).isLE →
      ∀ a b, when Ex.zones x = some a → when Ex.zones y = some b → (compare (Ex.threeDays.localDate a) (Ex.threeDays.localDate b)).isLE := by
    rintro x y ⟨_, _, h⟩ a b ha hb
    rw [ha, hb] at h
    exact h
  obtain ⟨a1, a2⟩ := C94_paypal e Ex.zones_eq hd hn hfp hvs (List.Pairwise.imp (fun {a b} => ho a b) (by decide +kernel)) (fun _ => 0)
    (by
      have : ∀ {start vs}, (List.foldr (fun (v : RawRecord) (k : (Str → Rat) → Bool) (start : Str → Rat) =>
          decide (value v.balance = start v.currency + value v.amount) && k (fun c => if c = v.currency then value v.balance else start c))
          (fun _ => true) vs) start = true → AddUp start vs := by
        intro start vs
        induction vs generalizing start with
        | nil => exact fun _ => trivial
        | cons v vs ih =>
          intro h
          rw [List.foldr_cons, Bool.and_eq_true] at h
          exact ⟨of_decide_eq_true h.1, ih h.2⟩
      exact this (by decide +kernel))
    (fun _ => .rev) [[[Ex.balanceDay2, Ex.balanceDay3]], [[Ex.paypalDay1, Ex.balanceDay2, Ex.balanceDay3]]] (by simp)
    (by
      intro r hr x hx
      simp only [List.mem_cons, List.not_mem_nil, or_false] at hr
      rcases hr with rfl | rfl <;> rw [List.mem_singleton] at hx <;> subst hx
      · exact ⟨[Ex.balanceDay2, Ex.balanceDay3], List.Perm.refl _, List.sublist_cons_self _ _⟩
      · exact List.Subperm.refl _)
    (fun B hB => ⟨_, List.mem_cons_of_mem _ List.mem_cons_self, _, List.mem_cons_self, hB⟩)
  exact ⟨imp, e, k1, a1, a2⟩

end PaypalCsv
end Verif
