import Verif.Proofs.Overlap
import Verif.Props.ImportMerge

/-!
# C65: downloads that overlap
-/

namespace Verif
open Spec Spec.Book

/-- C65, for any transactions: if `a`, `b` and `c` can be merged in one call, nothing in the journal is like any of their postings, and no
date of `c` is a date of `a` or `b`, then merging first `a` and `b` and then `b` and `c` is the same: nothing is handed back and the merger
ends in the same state. -/
theorem C65_overlap (calls : History) (h₀ h h' : HashOrder) (a b c : List TransactionPostings) (m' : Merger)
    (hm : (run calls).merge h₀ (a ++ b ++ c) = (.ok [], m'))
    (hnew : ∀ t ∈ a ++ b ++ c, ∀ p ∈ t.posts, ∀ r ∈ (ofHistory (inputs calls)).recs,
      ¬ SharesFp r.post p ∧ ¬ (r.date = dateOf t ∧ SoftMatch r.post p))
    (hdate : ∀ t ∈ a ++ b, ∀ u ∈ c, dateOf t ≠ dateOf u) :
    ((run calls).merge h (a ++ b)).1 = .ok [] ∧ ((run calls).merge h (a ++ b)).2.merge h' (b ++ c) = (.ok [], m') :=
  overlap (run_refines calls) h₀ h h' hm hnew hdate

namespace NationwideCsv
open Nationwide

/-- The date of a row is in its first field. -/
def RowDate (L : ImportLib) (row : Row) (d : Date) : Prop := ∃ s rest, row = s :: rest ∧ L.dateDayMonYear s = some d

/-- No row of the first part has the date of a row of the second. -/
def OtherDays (L : ImportLib) (x y : List (Option Row)) : Prop :=
  ∀ row row' d, some row ∈ x → some row' ∈ y → RowDate L row d → ¬ RowDate L row' d

/-! ## Parts of a file -/

/-- The date and the counter after some rows. -/
def stateAfter {T : Type} (F : Format T) : Option Date → Int → List (Option Row) → Option Date × Int
  | pd, k, some row :: rest =>
    match F.ofRow row with
    | some r => stateAfter F (some (F.date r)) (if some (F.date r) ≠ pd then 0 else k + 1) rest
    | none => (pd, k)
  | pd, k, _ => (pd, k)

theorem stateAfter_date {T : Type} (F : Format T) (A : List (Option Row)) (pd : Option Date) (k : Int) :
    (stateAfter F pd k A).1 = pd ∨ ∃ row r, some row ∈ A ∧ F.ofRow row = some r ∧ (stateAfter F pd k A).1 = some (F.date r) := by
  induction A generalizing pd k with
  | nil => exact Or.inl rfl
  | cons o A ih =>
    cases o with
    | none => exact Or.inl rfl
    | some row =>
      rw [stateAfter]
      cases hr : F.ofRow row with
      | none => exact Or.inl rfl
      | some r =>
        simp only
        rcases ih (some (F.date r)) (if some (F.date r) ≠ pd then 0 else k + 1) with h | ⟨row', r', h1, h2, h3⟩
        · exact Or.inr ⟨row, r, List.mem_cons_self, hr, h⟩
        · exact Or.inr ⟨row', r', List.mem_cons_of_mem _ h1, h2, h3⟩

theorem rowsLoop_cons {T : Type} (F : Format T) (ns account : Str) (legacy : Bool) (pd : Option Date) (k : Int) (row : Row)
    (rest : List (Option Row)) : rowsLoop F ns account legacy pd k (some row :: rest) = match F.ofRow row with
    | none => .error .format
    | some r => match F.formPostings r ns account (if some (F.date r) ≠ pd then 0 else k + 1) legacy with
      | .error e => .error e
      | .ok (p, q) => match rowsLoop F ns account legacy (some (F.date r)) (if some (F.date r) ≠ pd then 0 else k + 1) rest with
        | .error e => .error e
        | .ok ts => .ok (mkTransaction (F.date r) none (F.description r) [p, q] :: ts) := rfl

theorem rowsLoop_append {T : Type} (F : Format T) (ns account : Str) (legacy : Bool) (A B : List (Option Row)) (pd : Option Date) (k : Int)
    (ts : List Transaction) : rowsLoop F ns account legacy pd k (A ++ B) = .ok ts ↔
      ∃ ta tb, rowsLoop F ns account legacy pd k A = .ok ta ∧
        rowsLoop F ns account legacy (stateAfter F pd k A).1 (stateAfter F pd k A).2 B = .ok tb ∧ ts = ta ++ tb := by
  induction A generalizing pd k ts with
  | nil =>
    constructor
    · intro h; exact ⟨[], ts, rfl, h, rfl⟩
    · rintro ⟨ta, tb, h1, h2, rfl⟩
      cases h1
      exact h2
  | cons o A ih =>
    cases o with
    | none =>
      constructor
      · intro h; cases h
      · rintro ⟨_, _, h, _⟩; cases h
    | some row =>
      rw [List.cons_append]
      rw [rowsLoop_cons, rowsLoop_cons, stateAfter]
      cases hr : F.ofRow row with
      | none =>
        constructor
        · intro h; cases h
        · rintro ⟨_, _, h, _⟩; cases h
      | some r =>
        simp only
        cases hf : F.formPostings r ns account (if some (F.date r) ≠ pd then 0 else k + 1) legacy with
        | error e =>
          constructor
          · intro h; cases h
          · rintro ⟨_, _, h, _⟩; cases h
        | ok pq =>
          obtain ⟨p, q⟩ := pq
          simp only
          have ih := ih (some (F.date r)) (if some (F.date r) ≠ pd then 0 else k + 1)
          constructor
          · intro h
            cases hx : rowsLoop F ns account legacy (some (F.date r)) (if some (F.date r) ≠ pd then 0 else k + 1) (A ++ B) with
            | error e => rw [hx] at h; cases h
            | ok ts' =>
              rw [hx] at h
              obtain ⟨ta, tb, h1, h2, rfl⟩ := (ih ts').1 hx
              cases h
              exact ⟨_, tb, by rw [h1], h2, rfl⟩
          · rintro ⟨ta, tb, h1, h2, rfl⟩
            cases hx : rowsLoop F ns account legacy (some (F.date r)) (if some (F.date r) ≠ pd then 0 else k + 1) A with
            | error e => rw [hx] at h1; cases h1
            | ok ta' =>
              rw [hx] at h1
              cases h1
              rw [(ih (ta' ++ tb)).2 ⟨ta', tb, hx, h2, rfl⟩]
              rfl

theorem rowsLoop_start {T : Type} (F : Format T) (ns account : Str) (legacy : Bool) (B : List (Option Row)) (pd : Option Date) (k : Int)
    (h : ∀ row r, some row ∈ B → F.ofRow row = some r → some (F.date r) ≠ pd) :
    rowsLoop F ns account legacy pd k B = rowsLoop F ns account legacy none 0 B := by
  cases B with
  | nil => rfl
  | cons o B =>
    cases o with
    | none => rfl
    | some row =>
      unfold rowsLoop
      cases hr : F.ofRow row with
      | none => rfl
      | some r =>
        simp only
        rw [if_pos (h row r List.mem_cons_self hr), if_pos (by intro h; cases h)]

/-- The rows of complete days make the same transactions in all files that have them. -/
theorem process_parts {T : Type} {L : ImportLib} {F : Format T} (hF : ∀ row r, F.ofRow row = some r → RowDate L row (F.date r))
    {ns account : Str} {legacy : Bool} {A B C : List (Option Row)} {ts : List Transaction}
    (h : processRows F ns account legacy (A ++ B ++ C) = .ok ts) (hAB : OtherDays L A (B ++ C)) :
    ∃ ta tb tc, ts = ta ++ tb ++ tc ∧ processRows F ns account legacy (A ++ B) = .ok (ta ++ tb) ∧
      processRows F ns account legacy (B ++ C) = .ok (tb ++ tc) ∧ (∃ pd k, rowsLoop F ns account legacy none 0 (A ++ B) = .ok (ta ++ tb) ∧
        rowsLoop F ns account legacy pd k C = .ok tc) := by
  unfold processRows at *
  rw [List.append_assoc] at h
  obtain ⟨ta, tbc, h1, h2, rfl⟩ := (rowsLoop_append ..).1 h
  have hst := stateAfter_date F A none 0
  have hne : ∀ row r, some row ∈ B ++ C → F.ofRow row = some r → some (F.date r) ≠ (stateAfter F none 0 A).1 := by
    intro row r hm hr he
    rcases hst with e | ⟨row', r', hm', hr', e⟩
    · rw [e] at he; cases he
    · rw [e] at he
      injection he with he
      exact hAB row' row (F.date r') hm' hm (hF _ _ hr') (he ▸ hF _ _ hr)
  obtain ⟨tb, tc, h3, h4, rfl⟩ := (rowsLoop_append ..).1 h2
  have hAB' : rowsLoop F ns account legacy none 0 (A ++ B) = .ok (ta ++ tb) := (rowsLoop_append ..).2 ⟨ta, tb, h1, h3, rfl⟩
  refine ⟨ta, tb, tc, (List.append_assoc ..).symm, hAB', ?_, _, _, hAB', h4⟩
  rw [← rowsLoop_start F ns account legacy (B ++ C) _ _ hne, h2]

theorem rowsLoop_dates {T : Type} {L : ImportLib} {F : Format T} (hF : ∀ row r, F.ofRow row = some r → RowDate L row (F.date r))
    {ns account : Str} {legacy : Bool} {A : List (Option Row)} {pd : Option Date} {k : Int} {ts : List Transaction}
    (h : rowsLoop F ns account legacy pd k A = .ok ts) : ∀ t ∈ ts, ∃ row, some row ∈ A ∧ RowDate L row t.date := by
  induction A generalizing pd k ts with
  | nil => cases h; intro t ht; cases ht
  | cons o A ih =>
    cases o with
    | none => cases h
    | some row =>
      unfold rowsLoop at h
      cases hr : F.ofRow row with
      | none => rw [hr] at h; cases h
      | some r =>
        rw [hr] at h
        simp only at h
        split at h
        · cases h
        · split at h
          · cases h
          · rename_i hx
            cases h
            intro t ht
            rcases List.mem_cons.1 ht with rfl | ht
            · exact ⟨row, List.mem_cons_self, hF _ _ hr⟩
            · obtain ⟨row', h1, h2⟩ := ih hx t ht
              exact ⟨row', List.mem_cons_of_mem _ h1, h2⟩

theorem five_date (L : ImportLib) (row : Row) (r : RecordFive) (h : (five L).ofRow row = some r) : RowDate L row ((five L).date r) := by
  obtain ⟨d, o, i, rest, rfl, h1, _⟩ := (fiveRow_iff L row r).1 h
  exact ⟨d, _, rfl, h1⟩

theorem six_date (L : ImportLib) (row : Row) (r : RecordSix) (h : (six L).ofRow row = some r) : RowDate L row ((six L).date r) := by
  obtain ⟨d, o, i, b, rest, rfl, h1, _⟩ := (sixRow_iff L row r).1 h
  exact ⟨d, _, rfl, h1⟩

/-- C65, parts of a file: if the file with the rows `A`, `B` and `C` can be imported, then so can the file with `A` and `B` and that with `B`
and `C`, for the same account; and the transactions for `B` are the same in all of them if no date of `A` is a date of `B` or `C`. -/
theorem C65_parts {L : ImportLib} {fpNs : FpNamespace} {legacy : Bool} {f f₁ f₂ : List (Option Row)} {imp : Import} {account : Str}
    {columns : Row} {A B C : List (Option Row)} (h : getTransactions L fpNs legacy f = .ok imp)
    (hs : FileShape L f account columns (A ++ B ++ C)) (hs₁ : FileShape L f₁ account columns (A ++ B))
    (hs₂ : FileShape L f₂ account columns (B ++ C)) (hA : OtherDays L A (B ++ C)) :
    ∃ a b c, imp.transactions = a ++ b ++ c ∧ getTransactions L fpNs legacy f₁ = .ok ⟨imp.userFpNamespace, a ++ b⟩ ∧
      getTransactions L fpNs legacy f₂ = .ok ⟨imp.userFpNamespace, b ++ c⟩ ∧
      (∀ t ∈ a ++ b, ∃ row, some row ∈ A ++ B ∧ RowDate L row t.date) ∧ (∀ t ∈ c, ∃ row, some row ∈ C ∧ RowDate L row t.date) := by
  obtain ⟨account', columns', rows', hs', hn, hc⟩ := (getTransactions_iff ..).1 h
  obtain ⟨rfl, rfl, rfl⟩ := hs.unique hs'
  rcases hc with ⟨rfl, hp⟩ | ⟨rfl, hp⟩
  · obtain ⟨a, b, c, e, h1, h2, pd, k, h3, h4⟩ := process_parts (five_date L) hp hA
    exact ⟨a, b, c, e, (getTransactions_iff ..).2 ⟨_, _, _, hs₁, hn, .inl ⟨rfl, h1⟩⟩, (getTransactions_iff ..).2 ⟨_, _, _, hs₂, hn, .inl ⟨rfl, h2⟩⟩,
      rowsLoop_dates (five_date L) h3, rowsLoop_dates (five_date L) h4⟩
  · obtain ⟨a, b, c, e, h1, h2, pd, k, h3, h4⟩ := process_parts (six_date L) hp hA
    exact ⟨a, b, c, e, (getTransactions_iff ..).2 ⟨_, _, _, hs₁, hn, .inr ⟨rfl, h1⟩⟩, (getTransactions_iff ..).2 ⟨_, _, _, hs₂, hn, .inr ⟨rfl, h2⟩⟩,
      rowsLoop_dates (six_date L) h3, rowsLoop_dates (six_date L) h4⟩

theorem rowDate_unique {L : ImportLib} {row : Row} {d d' : Date} (h : RowDate L row d) (h' : RowDate L row d') : d = d' := by
  obtain ⟨s, r, rfl, h⟩ := h
  obtain ⟨s', r', e, h'⟩ := h'
  cases e
  exact Option.some.inj (h.symm.trans h')

/-- C65, files: merging two downloads of the same account that overlap, each of complete days, has the effect of merging one download of
the whole time, whatever else is in the journal already, as long as nothing in it is like what is downloaded. Nothing is handed back.
What is missing: for downloads of incomplete days it is false, see `C65_false`. -/
theorem C65_downloads_partial {L : ImportLib} {fpNs : FpNamespace} {legacy : Bool} {f f₁ f₂ : List (Option Row)} {imp : Import} {account : Str}
    {columns : Row} {A B C : List (Option Row)} (h : getTransactions L fpNs legacy f = .ok imp)
    (hs : FileShape L f account columns (A ++ B ++ C)) (hs₁ : FileShape L f₁ account columns (A ++ B))
    (hs₂ : FileShape L f₂ account columns (B ++ C)) (hA : OtherDays L A (B ++ C)) (hC : OtherDays L (A ++ B) C)
    (calls : History) (h₀ h₁ h₂ : HashOrder) (m' : Merger) (hm : (run calls).merge h₀ imp.postings = (.ok [], m'))
    (hnew : ∀ t ∈ imp.postings, ∀ p ∈ t.posts, ∀ r ∈ (ofHistory (inputs calls)).recs,
      ¬ SharesFp r.post p ∧ ¬ (r.date = dateOf t ∧ SoftMatch r.post p)) :
    ∃ imp₁ imp₂, getTransactions L fpNs legacy f₁ = .ok imp₁ ∧ getTransactions L fpNs legacy f₂ = .ok imp₂ ∧
      ((run calls).merge h₁ imp₁.postings).1 = .ok [] ∧ ((run calls).merge h₁ imp₁.postings).2.merge h₂ imp₂.postings = (.ok [], m') := by
  obtain ⟨a, b, c, e, h1, h2, h3, h4⟩ := C65_parts h hs hs₁ hs₂ hA
  refine ⟨_, _, h1, h2, ?_⟩
  have key := C65_overlap calls h₀ h₁ h₂ (a.map .ofTransaction) (b.map .ofTransaction) (c.map .ofTransaction) m'
  unfold Import.postings at hm hnew ⊢
  rw [e] at hm hnew
  simp only [List.map_append] at hm hnew ⊢
  refine key hm hnew ?_
  intro t ht u hu he
  rw [← List.map_append] at ht
  obtain ⟨t', ht', rfl⟩ := List.mem_map.1 ht
  obtain ⟨u', hu', rfl⟩ := List.mem_map.1 hu
  obtain ⟨row, hr, hd⟩ := h3 t' ht'
  obtain ⟨row', hr', hd'⟩ := h4 u' hu'
  have he : t'.date = u'.date := he
  exact hC row row' t'.date hr hr' hd (he ▸ hd')

/-- A file with the given rows of five columns. -/
def fileOf (balance : String) (rows : List (List String)) : List (Option Row) :=
  Ex.rows ([["Account Name:", "My Account ****4321"], ["Account Balance:", balance], ["Available Balance:", "£500.00"],
    ["Date", "Transactions", "Location", "Paid out", "Paid in"]] ++ rows)

/-- A coffee on the first of the month. -/
def coffeeRow : List String := ["01 Sep 2021", "COFFEE", "SHOP", "£1.23", ""]

set_option maxRecDepth 100000 in
/-- C65 does not hold if a day is in both downloads in part, although the downloads together have exactly the rows of the whole file and
there are no collisions. If the second download begins within a day, an equal payment on this day is lost without a message: the two
downloads, merged one after the other, give one transaction instead of two. If the second download repeats the first one and goes on
within the day, merging it fails. -/
theorem C65_false : ∃ L : ImportLib, Function.Injective L.sha1 ∧ ∃ A B : List (Option Row), ∃ account : Str, ∃ f f₁ f₂ : List (Option Row),
    ∃ imp imp₁ imp₂ : Import,
    FileShape L f account fiveColumns (A ++ B) ∧ FileShape L f₁ account fiveColumns A ∧ FileShape L f₂ account fiveColumns B ∧
    getTransactions L .generated false f = .ok imp ∧ getTransactions L .generated false f₁ = .ok imp₁ ∧
    getTransactions L .generated false f₂ = .ok imp₂ ∧
    (run [(HashOrder.rev, imp.postings)]).build HashOrder.rev = .ok imp.postings ∧ imp.postings.length = 2 ∧
    AllMerged Merger.new [(HashOrder.rev, imp₁.postings), (HashOrder.rev, imp₂.postings)] ∧
    (run [(HashOrder.rev, imp₁.postings), (HashOrder.rev, imp₂.postings)]).build HashOrder.rev = .ok imp₁.postings ∧
    imp₁.postings.length = 1 ∧
    ((run [(HashOrder.rev, imp₁.postings)]).merge HashOrder.rev imp.postings).1 = .error .sameDestination := by
  refine ⟨Ex.plainLib, fun _ _ h => h, Ex.rows [coffeeRow], Ex.rows [coffeeRow], "My Account ****4321".toList,
    fileOf "£-123.45" [coffeeRow, coffeeRow], fileOf "£-120.00" [coffeeRow], fileOf "£-123.45" [coffeeRow], ?_⟩
  have key : (match getTransactions Ex.plainLib .generated false (fileOf "£-123.45" [coffeeRow, coffeeRow]),
      getTransactions Ex.plainLib .generated false (fileOf "£-120.00" [coffeeRow]),
      getTransactions Ex.plainLib .generated false (fileOf "£-123.45" [coffeeRow]) with
    | .ok imp, .ok imp₁, .ok imp₂ =>
      decide ((run [(HashOrder.rev, imp.postings)]).build HashOrder.rev = .ok imp.postings ∧ imp.postings.length = 2 ∧
        ((Merger.new.merge HashOrder.rev imp₁.postings).1 = .ok [] ∧
          ((Merger.new.merge HashOrder.rev imp₁.postings).2.merge HashOrder.rev imp₂.postings).1 = .ok []) ∧
        (run [(HashOrder.rev, imp₁.postings), (HashOrder.rev, imp₂.postings)]).build HashOrder.rev = .ok imp₁.postings ∧
        imp₁.postings.length = 1 ∧
        ((run [(HashOrder.rev, imp₁.postings)]).merge HashOrder.rev imp.postings).1 = .error .sameDestination)
    | _, _, _ => false) = true := by decide +kernel
  split at key
  · rename_i imp imp₁ imp₂ e e₁ e₂
    obtain ⟨k1, k2, k3, k4, k5, k6⟩ := of_decide_eq_true key
    refine ⟨imp, imp₁, imp₂, ?_, ?_, ?_, e, e₁, e₂, k1, k2, ⟨k3.1, k3.2, trivial⟩, k4, k5, k6⟩
    · exact ⟨[], "£-123.45".toList, [], "£500.00".toList, [], rfl, by decide +kernel, by decide +kernel⟩
    · exact ⟨[], "£-120.00".toList, [], "£500.00".toList, [], rfl, by decide +kernel, by decide +kernel⟩
    · exact ⟨[], "£-123.45".toList, [], "£500.00".toList, [], rfl, by decide +kernel, by decide +kernel⟩
  · cases key

set_option maxRecDepth 100000 in
/-- The file of the test, downloaded in two parts that have the second day in common, merged into a journal that has other things. -/
example : let f := Ex.file5
    let f₁ := fileOf "£-119.13" [["01 Sep 2021", "FOO CO", "FOO.CO/THING#", "£1.23", ""], ["02 Sep 2021", "DIRECT DEBIT PAYMENT", "", "", "£50.00"]]
    let f₂ := fileOf "£-123.45" [["02 Sep 2021", "DIRECT DEBIT PAYMENT", "", "", "£50.00"], ["03 Sep 2021", "BAR CO", "THING#", "£4.32", ""]]
    let A := (f.drop 4).take 1
    let B := (f.drop 5).take 1
    let C := f.drop 6
    ∃ imp, getTransactions Ex.plainLib .generated false f = .ok imp ∧
      FileShape Ex.plainLib f "My Account ****4321".toList fiveColumns (A ++ B ++ C) ∧
      FileShape Ex.plainLib f₁ "My Account ****4321".toList fiveColumns (A ++ B) ∧
      FileShape Ex.plainLib f₂ "My Account ****4321".toList fiveColumns (B ++ C) ∧
      OtherDays Ex.plainLib A (B ++ C) ∧ OtherDays Ex.plainLib (A ++ B) C ∧
      (∃ m', (run Ex.hist).merge HashOrder.rev imp.postings = (.ok [], m')) ∧
      ∀ t ∈ imp.postings, ∀ p ∈ t.posts, ∀ r ∈ (ofHistory (inputs Ex.hist)).recs,
        ¬ SharesFp r.post p ∧ ¬ (r.date = dateOf t ∧ SoftMatch r.post p) := by
  intro f f₁ f₂ A B C
  have hdays : ∀ x y : List (Option Row), (∀ o ∈ x, ∀ o' ∈ y, ∀ row ∈ o, ∀ row' ∈ o',
      (row.head?.bind Ex.dayMonYear?) = none ∨ (row.head?.bind Ex.dayMonYear?) ≠ (row'.head?.bind Ex.dayMonYear?)) →
      OtherDays Ex.plainLib x y := by
    intro x y h row row' d hr hr' hd hd'
    obtain ⟨s, rest, rfl, e⟩ := hd
    obtain ⟨s', rest', rfl, e'⟩ := hd'
    change Ex.dayMonYear? s = _ at e
    change Ex.dayMonYear? s' = _ at e'
    have := h _ hr _ hr' _ rfl _ rfl
    simp only [List.head?_cons, Option.bind_some, e, e'] at this
    simp at this
  rw [Ex.ofHistory_eval]
  have key : (match getTransactions Ex.plainLib .generated false Ex.file5 with
    | .ok imp => decide (((run Ex.hist).merge HashOrder.rev imp.postings).1 = .ok [] ∧
        ∀ t ∈ imp.postings, ∀ p ∈ t.posts, ∀ r ∈ (Ex.bookEval (inputs Ex.hist)).recs,
          ¬ SharesFp r.post p ∧ ¬ (r.date = dateOf t ∧ SoftMatch r.post p))
    | .error _ => false) = true := by decide +kernel
  split at key
  · rename_i imp e
    obtain ⟨k1, k2⟩ := of_decide_eq_true key
    refine ⟨imp, e, ?_, ?_, ?_, ?_, ?_, ⟨_, Prod.ext k1 rfl⟩, k2⟩
    · exact ⟨[], "£-123.45".toList, [], "£500.00".toList, [], rfl, by decide +kernel, by decide +kernel⟩
    · exact ⟨[], "£-119.13".toList, [], "£500.00".toList, [], rfl, by decide +kernel, by decide +kernel⟩
    · exact ⟨[], "£-123.45".toList, [], "£500.00".toList, [], rfl, by decide +kernel, by decide +kernel⟩
    · exact hdays _ _ (by decide +kernel)
    · exact hdays _ _ (by decide +kernel)
  · cases key

end NationwideCsv
end Verif
