import Verif.Props.Days
import Verif.Props.Overlap

/-!
# C92 from the files of a bank: Nationwide CSV files of whole days
-/

namespace Verif
open Spec Spec.Book

namespace NationwideCsv
open Nationwide

/-- The rows of an account, by day: the rows of each part have one date, and no other part has it. -/
structure ByDay (L : ImportLib) (days : List (List (Option Row))) : Prop where
  one : ∀ B ∈ days, ∃ d, ∀ row, some row ∈ B → RowDate L row d
  apart : days.Pairwise (OtherDays L)

theorem OtherDays.symm {L : ImportLib} {x y : List (Option Row)} (h : OtherDays L x y) : OtherDays L y x :=
  fun row row' d hr hr' hd hd' => h row' row d hr' hr hd' hd

theorem ByDay.subperm {L : ImportLib} {days part : List (List (Option Row))} (h : ByDay L days) (hp : part.Subperm days) : ByDay L part := by
  obtain ⟨l, hl, hs⟩ := hp
  refine ⟨fun B hB => h.one B (hs.subset (hl.mem_iff.2 hB)), ?_⟩
  exact (hl.pairwise_iff fun {_ _} => OtherDays.symm).1 (h.apart.sublist hs)

theorem otherDays_flatten {L : ImportLib} {B : List (Option Row)} {days : List (List (Option Row))} (h : ∀ C ∈ days, OtherDays L B C) :
    OtherDays L B days.flatten := by
  intro row row' d hr hr' hd hd'
  obtain ⟨C, hC, hm⟩ := List.mem_flatten.1 hr'
  exact h C hC row row' d hr hm hd hd'

/-- The rows of the days can be read one after the other exactly if those of each can be read alone. -/
theorem rowsLoop_days {T : Type} {L : ImportLib} {F : Format T} (hF : ∀ row r, F.ofRow row = some r → RowDate L row (F.date r)) {ns account : Str}
    {legacy : Bool} {days : List (List (Option Row))} (hd : days.Pairwise (OtherDays L)) (ts : List Transaction) :
    rowsLoop F ns account legacy none 0 days.flatten = .ok ts ↔
      ∃ tss, List.Forall₂ (fun B tb => rowsLoop F ns account legacy none 0 B = .ok tb) days tss ∧ ts = tss.flatten := by
  induction days generalizing ts with
  | nil =>
    constructor
    · intro h
      cases h
      exact ⟨[], .nil, rfl⟩
    · rintro ⟨_, h, rfl⟩
      cases h
      rfl
  | cons B days ih =>
    rw [List.pairwise_cons] at hd
    have hne : ∀ row r, some row ∈ days.flatten → F.ofRow row = some r → some (F.date r) ≠ (stateAfter F none 0 B).1 := by
      intro row r hm hr he
      rcases stateAfter_date F B none 0 with e | ⟨row', r', hm', hr', e⟩
      · rw [e] at he; cases he
      · rw [e] at he
        injection he with he
        exact otherDays_flatten hd.1 row' row (F.date r') hm' hm (hF _ _ hr') (he ▸ hF _ _ hr)
    rw [List.flatten_cons, rowsLoop_append]
    simp only [rowsLoop_start F ns account legacy days.flatten _ _ hne]
    constructor
    · rintro ⟨ta, tb, h1, h2, rfl⟩
      obtain ⟨tss, h3, rfl⟩ := (ih hd.2 tb).1 h2
      exact ⟨ta :: tss, .cons h1 h3, rfl⟩
    · rintro ⟨tss, h, rfl⟩
      cases h with
      | cons h1 h3 => exact ⟨_, _, h1, (ih hd.2 _).2 ⟨_, h3, rfl⟩, rfl⟩

/-- Transactions by day: those of each part have one date, and no other part has it. -/
theorem wholeDays_parts {zs ps : List (List TransactionPostings)} (h1 : ∀ z ∈ zs, ∃ d, ∀ t ∈ z, dateOf t = d)
    (h2 : zs.Pairwise fun a b => ∀ t ∈ a, ∀ u ∈ b, dateOf t ≠ dateOf u) (hp : ps.Subperm zs) : WholeDays zs.flatten ps.flatten := by
  -- the transactions of a date are one part, or there are none
  have key : ∀ (l : List (List TransactionPostings)), l.Pairwise (fun a b => ∀ t ∈ a, ∀ u ∈ b, dateOf t ≠ dateOf u) →
      (∀ z ∈ l, ∃ d, ∀ t ∈ z, dateOf t = d) → ∀ z ∈ l, ∀ t ∈ z, ofDay (dateOf t) l.flatten = z := by
    intro l
    induction l with
    | nil => intro _ _ z hz; cases hz
    | cons a l ih =>
      intro hpw hone z hz t ht
      rw [List.pairwise_cons] at hpw
      obtain ⟨d, hd⟩ := hone a (by simp)
      have ha : ∀ d', ofDay d' (a :: l).flatten = ofDay d' a ++ ofDay d' l.flatten := by
        intro d'
        unfold ofDay
        rw [List.flatten_cons, List.filter_append]
      rw [ha]
      rcases List.mem_cons.1 hz with rfl | hz
      · have e1 : ofDay (dateOf t) z = z := by
          unfold ofDay
          rw [List.filter_eq_self]
          intro u hu
          exact decide_eq_true ((hd u hu).trans (hd t ht).symm)
        have e2 : ofDay (dateOf t) l.flatten = [] := by
          unfold ofDay
          rw [List.filter_eq_nil_iff]
          intro u hu he
          obtain ⟨b, hb, hub⟩ := List.mem_flatten.1 hu
          exact hpw.1 b hb t ht u hub (of_decide_eq_true he).symm
        rw [e1, e2, List.append_nil]
      · have e1 : ofDay (dateOf t) a = [] := by
          unfold ofDay
          rw [List.filter_eq_nil_iff]
          intro u hu he
          exact hpw.1 z hz u hu t ht (of_decide_eq_true he)
        rw [e1, List.nil_append]
        exact ih hpw.2 (fun z hz => hone z (List.mem_cons_of_mem _ hz)) z hz t ht
  obtain ⟨l, hl, hs⟩ := hp
  have hpw : ps.Pairwise fun a b => ∀ t ∈ a, ∀ u ∈ b, dateOf t ≠ dateOf u :=
    (hl.pairwise_iff fun {_ _} h u hu t ht e => h t ht u hu e.symm).1 (h2.sublist hs)
  have hmem : ∀ z ∈ ps, z ∈ zs := fun z hz => hs.subset (hl.mem_iff.2 hz)
  rw [wholeDays_iff]
  intro t ht
  obtain ⟨z, hz, htz⟩ := List.mem_flatten.1 ht
  rw [key ps hpw (fun z hz => h1 z (hmem z hz)) z hz t htz, key zs h2 h1 z (hmem z hz) t htz]

/-- What is read from some of the days. -/
theorem process_days {T : Type} {L : ImportLib} {F : Format T} (hF : ∀ row r, F.ofRow row = some r → RowDate L row (F.date r)) {ns account : Str}
    {legacy : Bool} {days part : List (List (Option Row))} (hd : ByDay L days) (hp : part.Subperm days) {ts : List Transaction}
    (h : processRows F ns account legacy days.flatten = .ok ts) :
    ∃ ts', processRows F ns account legacy part.flatten = .ok ts' ∧
      WholeDays (ts.map TransactionPostings.ofTransaction) (ts'.map TransactionPostings.ofTransaction) ∧
      ∀ t ∈ ts, (∃ B ∈ part, ∃ row, some row ∈ B ∧ RowDate L row t.date) → t ∈ ts' := by
  unfold processRows at *
  obtain ⟨tss, h1, rfl⟩ := (rowsLoop_days hF hd.apart ts).1 h
  -- the transactions of a day, as a function of its rows
  let f : List (Option Row) → List Transaction := fun B => match rowsLoop F ns account legacy none 0 B with
    | .ok tb => tb
    | .error _ => []
  have hf : ∀ B ∈ days, rowsLoop F ns account legacy none 0 B = .ok (f B) := by
    intro B hB
    obtain ⟨tb, _, e⟩ := forall₂_mem_left h1 hB
    simp only [f, e]
  have htss : tss = days.map f := by
    clear h hp hd
    induction h1 with
    | nil => rfl
    | cons e _ ih =>
      rw [List.map_cons, ← ih fun B hB => hf B (List.mem_cons_of_mem _ hB)]
      congr 1
      have := hf _ List.mem_cons_self
      rw [e] at this
      exact Except.ok.inj this
  subst htss
  have hmem : ∀ B ∈ part, B ∈ days := fun B hB => hp.subset hB
  have hread : rowsLoop F ns account legacy none 0 part.flatten = .ok (part.map f).flatten := by
    rw [rowsLoop_days hF (hd.subperm hp).apart]
    refine ⟨part.map f, ?_, rfl⟩
    rw [List.forall₂_map_right_iff, List.forall₂_same]
    exact fun B hB => hf B (hmem B hB)
  have hdates : ∀ B ∈ days, ∀ t ∈ f B, ∃ row, some row ∈ B ∧ RowDate L row t.date := fun B hB => rowsLoop_dates hF (hf B hB)
  refine ⟨_, hread, ?_, ?_⟩
  swap
  · rintro t ht ⟨C, hC, row', hr', hd'⟩
    obtain ⟨tb, htb, htm⟩ := List.mem_flatten.1 ht
    obtain ⟨B, hB, rfl⟩ := List.mem_map.1 htb
    obtain ⟨row, hr, hdr⟩ := hdates B hB t htm
    have : B = C := by
      by_contra hne
      have : Std.Symm (OtherDays L) := ⟨fun _ _ h => OtherDays.symm h⟩
      exact hd.apart.forall hB (hmem C hC) hne row row' t.date hr hr' hdr hd'
    subst this
    exact List.mem_flatten.2 ⟨_, List.mem_map_of_mem hC, htm⟩
  rw [List.map_flatten, List.map_flatten]
  apply wholeDays_parts
  · intro z hz
    rw [List.map_map] at hz
    obtain ⟨B, hB, rfl⟩ := List.mem_map.1 hz
    obtain ⟨d, hd⟩ := hd.one B hB
    refine ⟨d, ?_⟩
    intro x hx
    obtain ⟨t, ht, rfl⟩ := List.mem_map.1 (show x ∈ (f B).map TransactionPostings.ofTransaction from hx)
    obtain ⟨row, h1, h2⟩ := hdates B hB t ht
    exact rowDate_unique h2 (hd row h1)
  · rw [List.map_map, List.pairwise_map]
    refine hd.apart.imp_of_mem ?_
    intro B C hB hC hBC x hx y hy e
    obtain ⟨t, ht, rfl⟩ := List.mem_map.1 (show x ∈ (f B).map TransactionPostings.ofTransaction from hx)
    obtain ⟨u, hu, rfl⟩ := List.mem_map.1 (show y ∈ (f C).map TransactionPostings.ofTransaction from hy)
    obtain ⟨row, h1, h2⟩ := hdates B hB t ht
    obtain ⟨row', h1', h2'⟩ := hdates C hC u hu
    exact hBC row row' t.date h1 h1' h2 ((show t.date = u.date from e) ▸ h2')
  · rw [List.map_map, List.map_map]
    obtain ⟨l, hl, hs⟩ := hp
    exact ⟨_, hl.map _, hs.map _⟩

/-- C92, files of a bank: `f` is a Nationwide CSV file of some days that can be imported. Then every file of some of these days, in
whichever order, can be imported, and the transactions are those of whole days. -/
theorem C92_csv {L : ImportLib} {fpNs : FpNamespace} {legacy : Bool} {f f' : List (Option Row)} {imp : Import} {account : Str} {columns : Row}
    {days part : List (List (Option Row))} (h : getTransactions L fpNs legacy f = .ok imp) (hs : FileShape L f account columns days.flatten)
    (hd : ByDay L days) (hp : part.Subperm days) (hs' : FileShape L f' account columns part.flatten) :
    ∃ imp', getTransactions L fpNs legacy f' = .ok imp' ∧ imp'.userFpNamespace = imp.userFpNamespace ∧ WholeDays imp.postings imp'.postings ∧
      ∀ t ∈ imp.postings, (∃ B ∈ part, ∃ row, some row ∈ B ∧ RowDate L row (dateOf t)) → t ∈ imp'.postings := by
  obtain ⟨account', columns', rows', hs'', hn, hc⟩ := (getTransactions_iff ..).1 h
  obtain ⟨rfl, rfl, rfl⟩ := hs.unique hs''
  have key : ∀ {ts ts' : List Transaction}, (∀ t ∈ ts, (∃ B ∈ part, ∃ row, some row ∈ B ∧ RowDate L row t.date) → t ∈ ts') →
      ∀ t ∈ ts.map TransactionPostings.ofTransaction, (∃ B ∈ part, ∃ row, some row ∈ B ∧ RowDate L row (dateOf t)) →
        t ∈ ts'.map TransactionPostings.ofTransaction := by
    intro ts ts' hk x hxm hx
    obtain ⟨t, ht, rfl⟩ := List.mem_map.1 hxm
    exact List.mem_map_of_mem (hk t ht hx)
  rcases hc with ⟨rfl, hp'⟩ | ⟨rfl, hp'⟩
  · obtain ⟨ts', h1, h2, h3⟩ := process_days (five_date L) hd hp hp'
    exact ⟨⟨imp.userFpNamespace, ts'⟩, (getTransactions_iff ..).2 ⟨_, _, _, hs', hn, .inl ⟨rfl, h1⟩⟩, rfl, h2, key h3⟩
  · obtain ⟨ts', h1, h2, h3⟩ := process_days (six_date L) hd hp hp'
    exact ⟨⟨imp.userFpNamespace, ts'⟩, (getTransactions_iff ..).2 ⟨_, _, _, hs', hn, .inr ⟨rfl, h1⟩⟩, rfl, h2, key h3⟩

/-- What is imported from a file, or nothing if it cannot be imported. -/
def imported (L : ImportLib) (fpNs : FpNamespace) (legacy : Bool) (f : List (Option Row)) : List TransactionPostings :=
  match getTransactions L fpNs legacy f with
  | .ok imp => imp.postings
  | .error _ => []

/-- **C92 from the files of a bank.** `f` is a Nationwide CSV file of all days that can ever be downloaded, and it could be merged into the journal
`js` at once with nothing left over; what the journal already knows of it, it has under the dates of the file. Any number of files, each
of some of these days, are imported and merged into the journal in any number of runs. Then all files can be imported, no run
fails, nothing is left over, and if every day was in some file, the journal is that of merging `f`. -/
theorem C92_downloads {L : ImportLib} {fpNs : FpNamespace} {legacy : Bool} {f : List (Option Row)} {imp : Import} {account : Str} {columns : Row}
    {days : List (List (Option Row))} (h : getTransactions L fpNs legacy f = .ok imp) (hs : FileShape L f account columns days.flatten)
    (hd : ByDay L days) (h₀ h₁ : HashOrder) (js js' : List TransactionPostings) (hW : journalOf [(h₀, js), (h₁, imp.postings)] = some js')
    (ha : DatesAgree js imp.postings) (orders : Nat → HashOrder) (runs : List (List (List (Option Row) × List (List (Option Row)))))
    (hne : runs ≠ []) (hr : ∀ r ∈ runs, ∀ x ∈ r, x.2.Subperm days ∧ FileShape L x.1 account columns x.2.flatten) :
    (∀ r ∈ runs, ∀ x ∈ r, ∃ imp', getTransactions L fpNs legacy x.1 = .ok imp') ∧
    ∃ j, journalAfter js (runs.mapIdx fun i r => (orders i, r.map fun x => (orders i, imported L fpNs legacy x.1))) = some j ∧
      ((∀ B ∈ days, ∃ r ∈ runs, ∃ x ∈ r, B ∈ x.2) → j = js') := by
  have hparts : ∀ r ∈ runs, ∀ x ∈ r, ∃ imp', getTransactions L fpNs legacy x.1 = .ok imp' ∧ imported L fpNs legacy x.1 = imp'.postings ∧
      WholeDays imp.postings imp'.postings ∧
      ∀ t ∈ imp.postings, (∃ B ∈ x.2, ∃ row, some row ∈ B ∧ RowDate L row (dateOf t)) → t ∈ imp'.postings := by
    intro r hrm x hx
    obtain ⟨h1, h2⟩ := hr r hrm x hx
    obtain ⟨imp', a1, _, a3, a4⟩ := C92_csv h hs hd h1 h2
    exact ⟨imp', a1, by unfold imported; rw [a1], a3, a4⟩
  refine ⟨fun r hrm x hx => by obtain ⟨i, e, _⟩ := hparts r hrm x hx; exact ⟨i, e⟩, ?_⟩
  have hfiles : ∀ D, D ∈ filesOf (runs.mapIdx fun i r => (orders i, r.map fun x => (orders i, imported L fpNs legacy x.1))) ↔
      ∃ r ∈ runs, ∃ x ∈ r, D = imported L fpNs legacy x.1 := by
    intro D
    unfold filesOf inputs
    rw [List.mem_flatMap]
    constructor
    · rintro ⟨y, hy, hD⟩
      rw [List.mem_mapIdx] at hy
      obtain ⟨i, hi, rfl⟩ := hy
      rw [List.map_map] at hD
      obtain ⟨x, hx, rfl⟩ := List.mem_map.1 hD
      exact ⟨_, List.getElem_mem hi, x, hx, rfl⟩
    · rintro ⟨r, hrm, x, hx, rfl⟩
      obtain ⟨i, hi, rfl⟩ := List.getElem_of_mem hrm
      refine ⟨_, List.mem_mapIdx.2 ⟨i, hi, rfl⟩, ?_⟩
      rw [List.map_map]
      exact List.mem_map.2 ⟨x, hx, rfl⟩
  obtain ⟨j, k1, _, k3⟩ := C92_days h₀ h₁ h₀ h₁ js imp.postings js' hW ha
    (runs.mapIdx fun i r => (orders i, r.map fun x => (orders i, imported L fpNs legacy x.1))) (by simpa using hne) (by
      intro D hD
      obtain ⟨r, hrm, x, hx, rfl⟩ := (hfiles D).1 hD
      obtain ⟨imp', _, e, hw, _⟩ := hparts r hrm x hx
      rw [e]
      exact hw)
  refine ⟨j, k1, fun hall => k3 ?_⟩
  intro t ht
  -- the row of the transaction
  have hrow : ∃ B ∈ days, ∃ row, some row ∈ B ∧ RowDate L row (dateOf t) := by
    obtain ⟨account', columns', rows', hs'', hn, hc⟩ := (getTransactions_iff ..).1 h
    obtain ⟨rfl, rfl, rfl⟩ := hs.unique hs''
    obtain ⟨t, htm, rfl⟩ := List.mem_map.1 ht
    have : ∃ row, some row ∈ days.flatten ∧ RowDate L row t.date := by
      rcases hc with ⟨_, hp⟩ | ⟨_, hp⟩
      · exact rowsLoop_dates (five_date L) hp t htm
      · exact rowsLoop_dates (six_date L) hp t htm
    obtain ⟨row, h1, h2⟩ := this
    obtain ⟨B, hB, h1⟩ := List.mem_flatten.1 h1
    exact ⟨B, hB, row, h1, h2⟩
  obtain ⟨B, hB, row, hrow, hdate⟩ := hrow
  obtain ⟨r, hrm, x, hx, hBx⟩ := hall B hB
  obtain ⟨imp', _, e, _, hk⟩ := hparts r hrm x hx
  exact ⟨_, (hfiles _).2 ⟨r, hrm, x, hx, rfl⟩, t, by rw [e]; exact hk t ht ⟨B, hBx, row, hrow, hdate⟩, rfl⟩

/-- C92, a new journal: if the fields of the file are plain and its fingerprints are distinct (see C46), nothing more is needed. -/
theorem C92_new_journal {L : ImportLib} {fpNs : FpNamespace} {legacy : Bool} {f : List (Option Row)} {imp : Import} {account : Str} {columns : Row}
    {days : List (List (Option Row))} (h : getTransactions L fpNs legacy f = .ok imp) (hs : FileShape L f account columns days.flatten)
    (hd : ByDay L days) (hp : PlainFields f) (hfp : DistinctFingerprints imp.transactions) (orders : Nat → HashOrder)
    (runs : List (List (List (Option Row) × List (List (Option Row))))) (hne : runs ≠ [])
    (hr : ∀ r ∈ runs, ∀ x ∈ r, x.2.Subperm days ∧ FileShape L x.1 account columns x.2.flatten)
    (hall : ∀ B ∈ days, ∃ r ∈ runs, ∃ x ∈ r, B ∈ x.2) :
    ∃ j, journalAfter [] (runs.mapIdx fun i r => (orders i, r.map fun x => (orders i, imported L fpNs legacy x.1))) = some j ∧
      journalOf [(.sorted, imp.postings)] = some j ∧ j.Perm imp.postings := by
  have h1 := (C47_nationwide_csv_merge h hp .sorted).2 hfp
  rcases hm : Merger.new.merge .sorted imp.postings with ⟨x, m⟩
  rw [hm] at h1
  simp only at h1
  subst h1
  obtain ⟨hb, hu, hR⟩ := merge_ok R_new hm
  have hne' := handedBack_nil_iff.1 hu.symm
  have hj : journalOf [(.sorted, imp.postings)] = some (bookAfter [imp.postings]).journal :=
    journalOf_books.2 ⟨fun hx => hx.elim hb id, leftOver_cons_nil.2 ⟨hne', rfl⟩, rfl⟩
  have hj' : journalOf [(.sorted, []), (.sorted, imp.postings)] = some (bookAfter [imp.postings]).journal := by
    refine journalOf_books.2 ⟨?_, leftOver_cons_nil.2 ⟨(fun t ht => by cases ht), leftOver_cons_nil.2 ⟨hne', rfl⟩⟩, rfl⟩
    rintro (hx | hx | hx)
    · simp [Bad, HasCandidate, LacksFingerprint, DuplicateFp, SameDest, Conflicting, Split, allPosts, allDests] at hx
    · exact hb hx
    · exact hx
  obtain ⟨_, j, k1, k2⟩ := C92_downloads h hs hd .sorted .sorted [] _ hj' (fun T hT => by cases hT) orders runs hne hr
  have := k2 hall
  subst this
  refine ⟨_, k1, hj, ?_⟩
  have he : (bookAfter [imp.postings]).entries = imp.postings :=
    entries_empty_after fun t ht he => hne' t ht (empty_undecided.2 he)
  have hjp := journal_perm (bookAfter [imp.postings])
  rwa [he] at hjp

/-! ### An example -/

/-- The first of the month, with two equal payments. -/
def firstDay : List (List String) := [coffeeRow, coffeeRow]
/-- The second of the month. -/
def secondDay : List (List String) := [["02 Sep 2021", "DIRECT DEBIT PAYMENT", "", "", "£50.00"]]
/-- The third of the month. -/
def thirdDay : List (List String) := [["03 Sep 2021", "BAR CO", "THING#", "£4.32", ""], ["03 Sep 2021", "COFFEE", "SHOP", "£1.23", ""]]

/-- A file of some days, and the days. -/
def daysFile (balance : String) (days : List (List (List String))) : List (Option Row) × List (List (Option Row)) :=
  (fileOf balance days.flatten, days.map Ex.rows)

/-- Two runs: the last two days, the newest first; then the first two days and the first day again. -/
def csvRuns : List (List (List (Option Row) × List (List (Option Row)))) :=
  [[daysFile "£-123.45" [thirdDay, secondDay]], [daysFile "£-117.90" [firstDay, secondDay], daysFile "£-167.90" [firstDay]]]

set_option maxRecDepth 100000 in
/-- The hypotheses of `C92_new_journal` are met: the journal has the transactions of all three days. -/
example : ∃ imp j, getTransactions Ex.plainLib .generated false (fileOf "£-123.45" (firstDay ++ secondDay ++ thirdDay)) = .ok imp ∧
    imp.postings.length = 5 ∧ j.Perm imp.postings ∧
    journalAfter [] (csvRuns.mapIdx fun _ r => (.rev, r.map fun x => (.rev, imported Ex.plainLib .generated false x.1))) = some j := by
  have key : (match getTransactions Ex.plainLib .generated false (fileOf "£-123.45" (firstDay ++ secondDay ++ thirdDay)) with
    | .ok imp => decide (imp.postings.length = 5 ∧ (Merger.new.merge HashOrder.rev imp.postings).1 = .ok [])
    | .error _ => false) = true := by decide +kernel
  split at key
  swap
  · cases key
  rename_i imp e
  obtain ⟨k1, k2⟩ := of_decide_eq_true key
  have hplain : PlainFields (fileOf "£-123.45" (firstDay ++ secondDay ++ thirdDay)) := by
    have : ∀ o ∈ fileOf "£-123.45" (firstDay ++ secondDay ++ thirdDay), ∀ row ∈ o, ∀ f ∈ row, FitsStr f ∧ '\n' ∉ f := by decide +kernel
    exact fun row hr => this _ hr row rfl
  have hbal : ∀ b ∈ ["£-123.45", "£-117.90", "£-167.90", "£500.00"], gbpValue Ex.plainLib b.toList ≠ none := by decide +kernel
  have hdates : ∀ (B : List (Option Row)) (d : Date), (∀ o ∈ B, ∀ row ∈ o, (row.head?.bind Ex.dayMonYear?) = some d) →
      ∀ row, some row ∈ B → RowDate Ex.plainLib row d := by
    intro B d hB row hr
    have := hB _ hr row rfl
    cases row with
    | nil => cases this
    | cons s rest => exact ⟨s, rest, rfl, this⟩
  have h1 := hdates (Ex.rows firstDay) ⟨2021, 9, 1⟩ (by decide +kernel)
  have h2 := hdates (Ex.rows secondDay) ⟨2021, 9, 2⟩ (by decide +kernel)
  have h3 := hdates (Ex.rows thirdDay) ⟨2021, 9, 3⟩ (by decide +kernel)
  have hother : ∀ {B C : List (Option Row)} {d d' : Date}, (∀ row, some row ∈ B → RowDate Ex.plainLib row d) →
      (∀ row, some row ∈ C → RowDate Ex.plainLib row d') → d ≠ d' → OtherDays Ex.plainLib B C := by
    intro B C d d' hB hC hne row row' x hr hr' hx hx'
    exact hne ((rowDate_unique (hB row hr) hx).trans (rowDate_unique (hC row' hr') hx').symm)
  have hd : ByDay Ex.plainLib [Ex.rows firstDay, Ex.rows secondDay, Ex.rows thirdDay] := by
    constructor
    · intro B hB
      simp only [List.mem_cons, List.not_mem_nil, or_false] at hB
      rcases hB with rfl | rfl | rfl
      · exact ⟨_, h1⟩
      · exact ⟨_, h2⟩
      · exact ⟨_, h3⟩
    · refine List.pairwise_cons.2 ⟨?_, List.pairwise_cons.2 ⟨?_, List.pairwise_singleton _ _⟩⟩
      · intro C hC
        simp only [List.mem_cons, List.not_mem_nil, or_false] at hC
        rcases hC with rfl | rfl
        · exact hother h1 h2 (by decide)
        · exact hother h1 h3 (by decide)
      · intro C hC
        rw [List.mem_singleton.1 hC]
        exact hother h2 h3 (by decide)
  obtain ⟨j, a1, _, a3⟩ := C92_new_journal (account := "My Account ****4321".toList) (columns := fiveColumns)
    (days := [Ex.rows firstDay, Ex.rows secondDay, Ex.rows thirdDay]) e
    ⟨[], "£-123.45".toList, [], "£500.00".toList, [], rfl, hbal _ (by simp), hbal _ (by simp)⟩ hd hplain
    ((C47_nationwide_csv_merge e hplain .rev).1 k2) (fun _ => .rev) csvRuns (by simp [csvRuns])
    (by
      intro r hr x hx
      simp only [csvRuns, List.mem_cons, List.not_mem_nil, or_false] at hr
      rcases hr with rfl | rfl <;> simp only [List.mem_cons, List.not_mem_nil, or_false] at hx
      · subst hx
        exact ⟨⟨[Ex.rows secondDay, Ex.rows thirdDay], List.Perm.swap _ _ _, List.sublist_cons_self _ _⟩,
          [], "£-123.45".toList, [], "£500.00".toList, [], rfl, hbal _ (by simp), hbal _ (by simp)⟩
      · rcases hx with rfl | rfl
        · exact ⟨⟨[Ex.rows firstDay, Ex.rows secondDay], List.Perm.refl _, List.Sublist.cons_cons _ (List.Sublist.cons_cons _ (List.nil_sublist _))⟩,
            [], "£-117.90".toList, [], "£500.00".toList, [], rfl, hbal _ (by simp), hbal _ (by simp)⟩
        · exact ⟨⟨[Ex.rows firstDay], List.Perm.refl _, List.Sublist.cons_cons _ (List.nil_sublist _)⟩,
            [], "£-167.90".toList, [], "£500.00".toList, [], rfl, hbal _ (by simp), hbal _ (by simp)⟩)
    (by
      intro B hB
      simp only [List.mem_cons, List.not_mem_nil, or_false] at hB
      rcases hB with rfl | rfl | rfl
      · exact ⟨_, List.mem_cons_of_mem _ List.mem_cons_self, _, List.mem_cons_self, List.mem_cons_self⟩
      · exact ⟨_, List.mem_cons_self, _, List.mem_cons_self, List.mem_cons_of_mem _ List.mem_cons_self⟩
      · exact ⟨_, List.mem_cons_self, _, List.mem_cons_self, List.mem_cons_self⟩)
  exact ⟨imp, j, e, k1, a3, a1⟩

end NationwideCsv
end Verif
