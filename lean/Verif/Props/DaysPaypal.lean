import Verif.Props.DaysCmd
import Verif.Props.DaysCsv
import Verif.Props.OverlapPaypal

/-!
# C92 from the files of a bank: PayPal CSV files of whole days
-/

namespace Verif
open Spec Spec.Book

/-- C92 for files that are read first: `read x` are the transactions of file `x`, all of whole days; `W` are all transactions. -/
theorem downloads_read {α : Type} (read : α → List TransactionPostings) (h₀ h₁ : HashOrder) (js W js' : List TransactionPostings)
    (hW : journalOf [(h₀, js), (h₁, W)] = some js') (ha : DatesAgree js W) (orders : Nat → HashOrder) (runs : List (List α)) (hne : runs ≠ [])
    (hr : ∀ r ∈ runs, ∀ x ∈ r, WholeDays W (read x)) :
    ∃ j, journalAfter js (runs.mapIdx fun i r => (orders i, r.map fun x => (orders i, read x))) = some j ∧
      ((∀ t ∈ W, ∃ r ∈ runs, ∃ x ∈ r, t ∈ read x) → j = js') := by
  have hfiles : ∀ D, D ∈ filesOf (runs.mapIdx fun i r => (orders i, r.map fun x => (orders i, read x))) ↔ ∃ r ∈ runs, ∃ x ∈ r, D = read x := by
    intro D
    unfold filesOf inputs
    rw [List.mem_flatMap]
    constructor
    · rintro ⟨y, hy, hD⟩
      rw [List.mem_mapIdx] at hy
      obtain ⟨i, hi, rfl⟩ := hy
      rw [List.map_map] at hD
      obtain ⟨x, hx, rfl⟩ := List.mem_map.1 hD
      exact ⟨_, List.getElem_mem hi, x, hx, rfl⟩
    · rintro ⟨r, hrm, x, hx, rfl⟩
      obtain ⟨i, hi, rfl⟩ := List.getElem_of_mem hrm
      refine ⟨_, List.mem_mapIdx.2 ⟨i, hi, rfl⟩, ?_⟩
      rw [List.map_map]
      exact List.mem_map.2 ⟨x, hx, rfl⟩
  obtain ⟨j, k1, _, k3⟩ := C92_days h₀ h₁ h₀ h₁ js W js' hW ha
    (runs.mapIdx fun i r => (orders i, r.map fun x => (orders i, read x))) (by simpa using hne) (by
      intro D hD
      obtain ⟨r, hrm, x, hx, rfl⟩ := (hfiles D).1 hD
      exact hr r hrm x hx)
  refine ⟨j, k1, fun hall => k3 ?_⟩
  intro t ht
  obtain ⟨r, hrm, x, hx, htx⟩ := hall t ht
  exact ⟨_, (hfiles _).2 ⟨r, hrm, x, hx, rfl⟩, t, htx, rfl⟩

namespace PaypalCsv
open NationwideCsv (wholeDays_parts Row forall₂_right DistinctFingerprints)

/-- The row is of that day, in local time. -/
def RowDay (L : ImportLib) (headers : Row) (tz : TzAbbr.DB) (row : Row) (d : Date) : Prop :=
  ∃ v, Reads L headers row v ∧ OnDay L tz v d

/-- No row of the one is of the same day as a row of the other. -/
def OtherDays (L : ImportLib) (headers : Row) (tz : TzAbbr.DB) (X Y : List (Option Row)) : Prop :=
  ∀ row row' d, some row ∈ X → some row' ∈ Y → RowDay L headers tz row d → ¬ RowDay L headers tz row' d

/-- The rows of an account, by day: the rows of each part are of one day, and no other part has it. -/
structure ByDay (L : ImportLib) (headers : Row) (tz : TzAbbr.DB) (days : List (List (Option Row))) : Prop where
  one : ∀ B ∈ days, ∃ d, ∀ row, some row ∈ B → RowDay L headers tz row d
  apart : days.Pairwise (OtherDays L headers tz)

theorem OtherDays.symm {L : ImportLib} {headers : Row} {tz : TzAbbr.DB} {X Y : List (Option Row)} (h : OtherDays L headers tz X Y) :
    OtherDays L headers tz Y X := fun row row' d hr hr' hd hd' => h row' row d hr' hr hd' hd

theorem rowDay_unique {L : ImportLib} {headers : Row} {tz : TzAbbr.DB} {row : Row} {d d' : Date} (h : RowDay L headers tz row d)
    (h' : RowDay L headers tz row d') : d = d' := by
  obtain ⟨v, hv, hd⟩ := h
  obtain ⟨w, hw, hd'⟩ := h'
  have : v = w := by
    have := rows_unique (L := L) (headers := headers) (rows := [some row]) (.cons ⟨row, rfl, hv⟩ .nil) (.cons ⟨row, rfl, hw⟩ .nil)
    simpa using this
  subst this
  exact onDay_unique hd hd'

theorem ByDay.subperm {L : ImportLib} {headers : Row} {tz : TzAbbr.DB} {days part : List (List (Option Row))} (h : ByDay L headers tz days)
    (hp : part.Subperm days) : ByDay L headers tz part := by
  obtain ⟨l, hl, hs⟩ := hp
  refine ⟨fun B hB => h.one B (hs.subset (hl.mem_iff.2 hB)), ?_⟩
  exact (hl.pairwise_iff fun {_ _} => OtherDays.symm).1 (h.apart.sublist hs)

theorem rows_mem {L : ImportLib} {headers : Row} {rows : List (Option Row)} {vs : List RawRecord} (h : Rows L headers rows vs) {v : RawRecord}
    (hv : v ∈ vs) : ∃ row, some row ∈ rows ∧ Reads L headers row v := by
  obtain ⟨o, ho, row, rfl, hr⟩ := forall₂_right h hv
  exact ⟨row, ho, hr⟩

/-- Parts of other days are cut cleanly. -/
theorem clean_of_days {L : ImportLib} {headers : Row} {tz : TzAbbr.DB} {X Y : List (Option Row)} {xs ys : List RawRecord} (hx : Rows L headers X xs)
    (hy : Rows L headers Y ys) (hw : ∀ v ∈ xs, when tz v ≠ none) (h : OtherDays L headers tz X Y) : CleanCut tz xs ys := by
  intro v w hv hw' e
  have hvm := List.mem_of_getLast? hv
  obtain ⟨row, hr, h1⟩ := rows_mem hx hvm
  obtain ⟨row', hr', h2⟩ := rows_mem hy (List.mem_of_mem_head? hw')
  obtain ⟨dt, hdt⟩ := Option.ne_none_iff_exists'.1 (hw v hvm)
  exact h row row' _ hr hr' ⟨v, h1, dt, hdt, rfl⟩ ⟨w, h2, dt, e ▸ hdt, rfl⟩

/-- The rows of the days can be read one after the other exactly if those of each can be read alone. -/
theorem read_days {L : ImportLib} {headers : Row} {tz : TzAbbr.DB} {ns : Str} {legacy : Bool} {days : List (List (Option Row))}
    (hd : days.Pairwise (OtherDays L headers tz)) (ts : List Transaction) :
    readTransactions L headers tz ns legacy days.flatten = .ok ts ↔
      ∃ tss, List.Forall₂ (fun B tb => readTransactions L headers tz ns legacy B = .ok tb) days tss ∧ ts = tss.flatten := by
  induction days generalizing ts with
  | nil =>
    constructor
    · intro h
      cases h
      exact ⟨[], .nil, rfl⟩
    · rintro ⟨_, h, rfl⟩
      cases h
      rfl
  | cons B days ih =>
    rw [List.pairwise_cons] at hd
    have hother : OtherDays L headers tz B days.flatten := by
      intro row row' d hr hr' h1 h2
      obtain ⟨C, hC, hm⟩ := List.mem_flatten.1 hr'
      exact hd.1 C hC row row' d hr hm h1 h2
    rw [List.flatten_cons]
    constructor
    · intro h
      obtain ⟨vs, gs, a1, a2, a3, _⟩ := (readTransactions_iff ..).1 h
      obtain ⟨xs, ys, hx, hy, rfl⟩ : ∃ xs ys, Rows L headers B xs ∧ Rows L headers days.flatten ys ∧ vs = xs ++ ys := by
        refine ⟨vs.take B.length, vs.drop B.length, ?_, ?_, (List.take_append_drop _ _).symm⟩
        · have := List.forall₂_take B.length a1
          rwa [List.take_left] at this
        · have := List.forall₂_drop B.length a1
          rwa [List.drop_left] at this
      obtain ⟨t₁, t₂, rfl, h1, h2⟩ := (read_append hx hy
        (clean_of_days hx hy (fun v hv => a3 v (List.mem_append_left _ hv)) hother)).1 h
      obtain ⟨tss, h3, rfl⟩ := (ih hd.2 t₂).1 h2
      exact ⟨t₁ :: tss, .cons h1 h3, rfl⟩
    · rintro ⟨_, h, rfl⟩
      cases h with
      | cons h1 h3 =>
        have h2 := (ih hd.2 _).2 ⟨_, h3, rfl⟩
        obtain ⟨xs, _, hx, _, a3, _⟩ := (readTransactions_iff ..).1 h1
        obtain ⟨ys, _, hy, _⟩ := (readTransactions_iff ..).1 h2
        exact (read_append hx hy (clean_of_days hx hy a3 hother)).2 ⟨_, _, rfl, h1, h2⟩

/-- The days of the transactions are those of rows. -/
theorem read_dates {L : ImportLib} {headers : Row} {tz : TzAbbr.DB} {ns : Str} {legacy : Bool} {rows : List (Option Row)} {ts : List Transaction}
    (h : readTransactions L headers tz ns legacy rows = .ok ts) : ∀ t ∈ ts, ∃ row, some row ∈ rows ∧ RowDay L headers tz row t.date := by
  intro t ht
  obtain ⟨vs, gs, h1, _, h3, h4, h5⟩ := (readTransactions_iff ..).1 h
  obtain ⟨g, hg, hs⟩ := forall₂_right h5 ht
  obtain ⟨v, g', rfl⟩ := List.exists_cons_of_ne_nil (h4.nonempty g hg)
  have hv : v ∈ vs := by rw [← h4.flatten]; exact List.mem_flatten.2 ⟨_, hg, List.mem_cons_self⟩
  obtain ⟨row, hr, hread⟩ := rows_mem h1 hv
  refine ⟨row, hr, v, hread, _, when_some ns (h3 v hv), ?_⟩
  unfold formTransaction at hs
  split at hs
  · cases hs
  · cases hs
    rfl

/-- What is read from some of the days. -/
theorem read_part {L : ImportLib} {headers : Row} {tz : TzAbbr.DB} {ns : Str} {legacy : Bool} {days part : List (List (Option Row))}
    (hd : ByDay L headers tz days) (hp : part.Subperm days) {ts : List Transaction}
    (h : readTransactions L headers tz ns legacy days.flatten = .ok ts) :
    ∃ ts', readTransactions L headers tz ns legacy part.flatten = .ok ts' ∧
      WholeDays (ts.map TransactionPostings.ofTransaction) (ts'.map TransactionPostings.ofTransaction) ∧
      ∀ t ∈ ts, (∃ B ∈ part, ∃ row, some row ∈ B ∧ RowDay L headers tz row t.date) → t ∈ ts' := by
  obtain ⟨tss, h1, rfl⟩ := (read_days hd.apart ts).1 h
  -- the transactions of a day, as a function of its rows
  let f : List (Option Row) → List Transaction := fun B => match readTransactions L headers tz ns legacy B with
    | .ok tb => tb
    | .error _ => []
  have hf : ∀ B ∈ days, readTransactions L headers tz ns legacy B = .ok (f B) := by
    intro B hB
    obtain ⟨tb, _, e⟩ := forall₂_mem_left h1 hB
    simp only [f, e]
  have htss : tss = days.map f := by
    clear h hp hd
    induction h1 with
    | nil => rfl
    | cons e _ ih =>
      rw [List.map_cons, ← ih fun B hB => hf B (List.mem_cons_of_mem _ hB)]
      congr 1
      have := hf _ List.mem_cons_self
      rw [e] at this
      exact Except.ok.inj this
  subst htss
  have hmem : ∀ B ∈ part, B ∈ days := fun B hB => hp.subset hB
  have hread : readTransactions L headers tz ns legacy part.flatten = .ok (part.map f).flatten := by
    rw [read_days (hd.subperm hp).apart]
    refine ⟨part.map f, ?_, rfl⟩
    rw [List.forall₂_map_right_iff, List.forall₂_same]
    exact fun B hB => hf B (hmem B hB)
  have hdates : ∀ B ∈ days, ∀ t ∈ f B, ∃ row, some row ∈ B ∧ RowDay L headers tz row t.date := fun B hB => read_dates (hf B hB)
  refine ⟨_, hread, ?_, ?_⟩
  swap
  · rintro t ht ⟨C, hC, row', hr', hd'⟩
    obtain ⟨tb, htb, htm⟩ := List.mem_flatten.1 ht
    obtain ⟨B, hB, rfl⟩ := List.mem_map.1 htb
    obtain ⟨row, hr, hdr⟩ := hdates B hB t htm
    have : B = C := by
      by_contra hne
      have : Std.Symm (OtherDays L headers tz) := ⟨fun _ _ h => OtherDays.symm h⟩
      exact hd.apart.forall hB (hmem C hC) hne row row' t.date hr hr' hdr hd'
    subst this
    exact List.mem_flatten.2 ⟨_, List.mem_map_of_mem hC, htm⟩
  rw [List.map_flatten, List.map_flatten]
  apply wholeDays_parts
  · intro z hz
    rw [List.map_map] at hz
    obtain ⟨B, hB, rfl⟩ := List.mem_map.1 hz
    obtain ⟨d, hd⟩ := hd.one B hB
    refine ⟨d, ?_⟩
    intro x hx
    obtain ⟨t, ht, rfl⟩ := List.mem_map.1 (show x ∈ (f B).map TransactionPostings.ofTransaction from hx)
    obtain ⟨row, h1, h2⟩ := hdates B hB t ht
    exact rowDay_unique h2 (hd row h1)
  · rw [List.map_map, List.pairwise_map]
    refine hd.apart.imp_of_mem ?_
    intro B C hB hC hBC x hx y hy e
    obtain ⟨t, ht, rfl⟩ := List.mem_map.1 (show x ∈ (f B).map TransactionPostings.ofTransaction from hx)
    obtain ⟨u, hu, rfl⟩ := List.mem_map.1 (show y ∈ (f C).map TransactionPostings.ofTransaction from hy)
    obtain ⟨row, h1, h2⟩ := hdates B hB t ht
    obtain ⟨row', h1', h2'⟩ := hdates C hC u hu
    exact hBC row row' t.date h1 h1' h2 ((show t.date = u.date from e) ▸ h2')
  · rw [List.map_map, List.map_map]
    obtain ⟨l, hl, hs⟩ := hp
    exact ⟨_, hl.map _, hs.map _⟩

/-- What is imported from a file, or nothing if it cannot be imported. -/
def imported (L : ImportLib) (ns : Str) (legacy : Bool) (headers : Row) (rows : List (Option Row)) (tzRecords : List (Option TzAbbr.Record)) :
    List TransactionPostings :=
  match getTransactions L ns legacy (some headers) rows tzRecords with
  | .ok imp => imp.postings
  | .error _ => []

/-- **C92, PayPal.** A PayPal CSV file of all days (in local time) that can ever be downloaded can be imported and merged into the journal `js` at
once with nothing left over; what the journal already knows of it, it has under the dates of the file. Any number of files with the same
header, each of some of these days in whichever order, are imported and merged into the journal in any number of runs. Then all files can be
imported, no run fails, nothing is left over, and if every day was in some file, the journal is that of merging the whole. -/
theorem C92_paypal {L : ImportLib} {ns : Str} {legacy : Bool} {headers : Row} {tzRecords : List (Option TzAbbr.Record)} {tz : TzAbbr.DB} {imp : Import}
    {days : List (List (Option Row))} (h : getTransactions L ns legacy (some headers) days.flatten tzRecords = .ok imp)
    (htz : TzAbbr.fromRecords tzRecords = .ok tz) (hd : ByDay L headers tz days) (h₀ h₁ : HashOrder) (js js' : List TransactionPostings)
    (hW : journalOf [(h₀, js), (h₁, imp.postings)] = some js') (ha : DatesAgree js imp.postings) (orders : Nat → HashOrder)
    (runs : List (List (List (List (Option Row))))) (hne : runs ≠ []) (hr : ∀ r ∈ runs, ∀ part ∈ r, part.Subperm days) :
    (∀ r ∈ runs, ∀ part ∈ r, ∃ imp', getTransactions L ns legacy (some headers) part.flatten tzRecords = .ok imp') ∧
    ∃ j, journalAfter js (runs.mapIdx fun i r => (orders i, r.map fun part =>
        (orders i, imported L ns legacy headers part.flatten tzRecords))) = some j ∧
      ((∀ B ∈ days, ∃ r ∈ runs, ∃ part ∈ r, B ∈ part) → j = js') := by
  obtain ⟨_, _, e1, e2, _, hread⟩ := (getTransactions_iff ..).1 h
  cases e1
  rw [htz] at e2
  cases e2
  have hparts : ∀ r ∈ runs, ∀ part ∈ r, ∃ imp', getTransactions L ns legacy (some headers) part.flatten tzRecords = .ok imp' ∧
      imported L ns legacy headers part.flatten tzRecords = imp'.postings ∧ WholeDays imp.postings imp'.postings ∧
      ∀ t ∈ imp.postings, (∃ B ∈ part, ∃ row, some row ∈ B ∧ RowDay L headers tz row (dateOf t)) → t ∈ imp'.postings := by
    intro r hrm part hx
    obtain ⟨ts', a1, a2, a3⟩ := read_part hd (hr r hrm part hx) hread
    have e : getTransactions L ns legacy (some headers) part.flatten tzRecords = .ok ⟨ns, ts'⟩ :=
      (getTransactions_iff ..).2 ⟨_, _, rfl, htz, rfl, a1⟩
    refine ⟨_, e, by unfold imported; rw [e], a2, ?_⟩
    intro x hxm hB
    obtain ⟨t, ht, rfl⟩ := List.mem_map.1 (show x ∈ imp.transactions.map TransactionPostings.ofTransaction from hxm)
    exact List.mem_map_of_mem (a3 t ht hB)
  refine ⟨fun r hrm x hx => by obtain ⟨i, e, _⟩ := hparts r hrm x hx; exact ⟨i, e⟩, ?_⟩
  obtain ⟨j, k1, k2⟩ := downloads_read (fun part : List (List (Option Row)) => imported L ns legacy headers part.flatten tzRecords) h₀ h₁ js
    imp.postings js' hW ha orders runs hne (fun r hrm part hx => by
      obtain ⟨_, _, e, hw, _⟩ := hparts r hrm part hx
      rw [e]
      exact hw)
  refine ⟨j, k1, fun hall => k2 ?_⟩
  intro x hx
  obtain ⟨t, ht, rfl⟩ := List.mem_map.1 (show x ∈ imp.transactions.map TransactionPostings.ofTransaction from hx)
  obtain ⟨row, hrow, hdate⟩ := read_dates hread t ht
  obtain ⟨B, hB, hrow⟩ := List.mem_flatten.1 hrow
  obtain ⟨r, hrm, part, hp, hBp⟩ := hall B hB
  obtain ⟨_, _, e, _, hk⟩ := hparts r hrm part hp
  exact ⟨r, hrm, part, hp, by rw [e]; exact hk _ hx ⟨B, hBp, row, hrow, hdate⟩⟩

/-- The journal of a single input. -/
theorem journalOf_single {W : List TransactionPostings} (h : (Merger.new.merge .sorted W).1 = .ok []) :
    ∃ j, journalOf [(.sorted, W)] = some j ∧ journalOf [(.sorted, []), (.sorted, W)] = some j ∧ j.Perm W := by
  rcases hm : Merger.new.merge .sorted W with ⟨x, m⟩
  rw [hm] at h
  simp only at h
  subst h
  obtain ⟨hb, hu, hR⟩ := merge_ok R_new hm
  have hne' := handedBack_nil_iff.1 hu.symm
  refine ⟨(bookAfter [W]).journal, journalOf_books.2 ⟨fun hx => hx.elim hb id, leftOver_cons_nil.2 ⟨hne', rfl⟩, rfl⟩,
    journalOf_books.2 ⟨?_, leftOver_cons_nil.2 ⟨(fun t ht => by cases ht), leftOver_cons_nil.2 ⟨hne', rfl⟩⟩, rfl⟩, ?_⟩
  · rintro (hx | hx | hx)
    · exact bad_none _ hx
    · exact hb hx
    · exact hx
  · have he : (bookAfter [W]).entries = W := entries_empty_after fun t ht he => hne' t ht (empty_undecided.2 he)
    have hjp := journal_perm (bookAfter [W])
    rwa [he] at hjp

/-- C92, PayPal, a new journal: if the fields of the file have no newlines, legacy fingerprints are asked for and all fingerprints are
distinct (see C77), nothing more is needed. -/
theorem C92_paypal_new {L : ImportLib} {ns : Str} {headers : Row} {tzRecords : List (Option TzAbbr.Record)} {tz : TzAbbr.DB} {imp : Import}
    {days : List (List (Option Row))} (h : getTransactions L ns true (some headers) days.flatten tzRecords = .ok imp)
    (htz : TzAbbr.fromRecords tzRecords = .ok tz) (hd : ByDay L headers tz days) (hp : NoNewlines days.flatten)
    (hfp : DistinctFingerprints imp.transactions) (orders : Nat → HashOrder) (runs : List (List (List (List (Option Row))))) (hne : runs ≠ [])
    (hr : ∀ r ∈ runs, ∀ part ∈ r, part.Subperm days) (hall : ∀ B ∈ days, ∃ r ∈ runs, ∃ part ∈ r, B ∈ part) :
    ∃ j, journalAfter [] (runs.mapIdx fun i r => (orders i, r.map fun part =>
        (orders i, imported L ns true headers part.flatten tzRecords))) = some j ∧
      journalOf [(.sorted, imp.postings)] = some j ∧ j.Perm imp.postings := by
  obtain ⟨j', h1, h2, h3⟩ := journalOf_single ((C47_paypal_merge h hp .sorted).2 (.inr ⟨rfl, hfp⟩))
  obtain ⟨_, j, k1, k2⟩ := C92_paypal h htz hd .sorted .sorted [] j' h2 (fun T hT => by cases hT) orders runs hne hr
  obtain rfl := k2 hall
  exact ⟨_, k1, h1, h3⟩

/-! ### An example -/

/-- The library of the examples, for three days. -/
def Ex.threeDays : ImportLib :=
  { Ex.plainLib with
    localDate := fun i => if i.1 < daysFromCivil ⟨2019, 1, 2⟩ * 86400 then ⟨2019, 1, 1⟩ else
      if i.1 < daysFromCivil ⟨2019, 1, 3⟩ * 86400 then ⟨2019, 1, 2⟩ else ⟨2019, 1, 3⟩ }
/-- The rows of the first day of the file of the test. -/
def Ex.paypalDay1 : List (Option Row) := Ex.paypalRows.take 4
/-- Those of the second day, with one more payment an hour later. -/
def Ex.paypalDay2 : List (Option Row) := Ex.paypalRows.drop 4 ++ Ex.later "7.00"
/-- A payment of the third day, given in summer time. -/
def Ex.paypalDay3 : List (Option Row) :=
  Ex.rows [["04/01/2019", "00:30:00", "BST", "Shop", "Payment", "Completed", "USD", "7.00", "", "7.00"]]
/-- Two runs: the last two days, the newest first; then the first two days and the first day again. -/
def Ex.paypalRuns : List (List (List (List (Option Row)))) :=
  [[[Ex.paypalDay3, Ex.paypalDay2]], [[Ex.paypalDay1, Ex.paypalDay2], [Ex.paypalDay1]]]

set_option maxRecDepth 100000 in
/-- The hypotheses of `C92_paypal_new` are met. -/
example : ∃ imp j, getTransactions Ex.threeDays "test".toList true (some Ex.paypalHeaders) [Ex.paypalDay1, Ex.paypalDay2, Ex.paypalDay3].flatten
      Ex.paypalTz = .ok imp ∧ imp.postings.length = 4 ∧ j.Perm imp.postings ∧
    journalAfter [] (Ex.paypalRuns.mapIdx fun _ r => (.rev, r.map fun part =>
      (.rev, imported Ex.threeDays "test".toList true Ex.paypalHeaders part.flatten Ex.paypalTz))) = some j := by
  have key : (match getTransactions Ex.threeDays "test".toList true (some Ex.paypalHeaders) [Ex.paypalDay1, Ex.paypalDay2, Ex.paypalDay3].flatten
      Ex.paypalTz with
    | .ok imp => decide (imp.postings.length = 4 ∧ (Merger.new.merge HashOrder.rev imp.postings).1 = .ok [])
    | .error _ => false) = true := by decide +kernel
  split at key
  swap
  · cases key
  rename_i imp e
  obtain ⟨k1, k2⟩ := of_decide_eq_true key
  have hn : NoNewlines [Ex.paypalDay1, Ex.paypalDay2, Ex.paypalDay3].flatten := by
    have : ∀ o ∈ [Ex.paypalDay1, Ex.paypalDay2, Ex.paypalDay3].flatten, ∀ row ∈ o, ∀ f ∈ row, '\n' ∉ f := by decide +kernel
    exact fun row hr => this _ hr row rfl
  have hfp : DistinctFingerprints imp.transactions := by
    rcases (C47_paypal_merge e hn .rev).1 k2 with h | ⟨_, h⟩
    · exact absurd h (by decide +kernel)
    · exact h
  have hdates : ∀ (B : List (Option Row)) (d : Date),
      (∀ o ∈ B, ∀ row ∈ o, (((RawRecord.ofRow Ex.threeDays Ex.paypalHeaders row).bind (when Ex.zones)).map Ex.threeDays.localDate) = some d) →
      ∀ row, some row ∈ B → RowDay Ex.threeDays Ex.paypalHeaders Ex.zones row d := by
    intro B d hB row hr
    have := hB _ hr row rfl
    cases hv : RawRecord.ofRow Ex.threeDays Ex.paypalHeaders row with
    | none => rw [hv] at this; cases this
    | some v =>
      rw [hv] at this
      obtain ⟨dt, h1, h2⟩ := Option.map_eq_some_iff.1 this
      exact ⟨v, (reads_iff ..).1 hv, dt, h1, h2⟩
  have h1 := hdates Ex.paypalDay1 ⟨2019, 1, 1⟩ (by decide +kernel)
  have h2 := hdates Ex.paypalDay2 ⟨2019, 1, 2⟩ (by decide +kernel)
  have h3 := hdates Ex.paypalDay3 ⟨2019, 1, 3⟩ (by decide +kernel)
  have hother : ∀ {B C : List (Option Row)} {d d' : Date}, (∀ row, some row ∈ B → RowDay Ex.threeDays Ex.paypalHeaders Ex.zones row d) →
      (∀ row, some row ∈ C → RowDay Ex.threeDays Ex.paypalHeaders Ex.zones row d') → d ≠ d' →
      OtherDays Ex.threeDays Ex.paypalHeaders Ex.zones B C := by
    intro B C d d' hB hC hne row row' x hr hr' hx hx'
    exact hne ((rowDay_unique (hB row hr) hx).trans (rowDay_unique (hC row' hr') hx').symm)
  have hd : ByDay Ex.threeDays Ex.paypalHeaders Ex.zones [Ex.paypalDay1, Ex.paypalDay2, Ex.paypalDay3] := by
    constructor
    · intro B hB
      simp only [List.mem_cons, List.not_mem_nil, or_false] at hB
      rcases hB with rfl | rfl | rfl
      · exact ⟨_, h1⟩
      · exact ⟨_, h2⟩
      · exact ⟨_, h3⟩
    · refine List.pairwise_cons.2 ⟨?_, List.pairwise_cons.2 ⟨?_, List.pairwise_singleton _ _⟩⟩
      · intro C hC
        simp only [List.mem_cons, List.not_mem_nil, or_false] at hC
        rcases hC with rfl | rfl
        · exact hother h1 h2 (by decide)
        · exact hother h1 h3 (by decide)
      · intro C hC
        rw [List.mem_singleton.1 hC]
        exact hother h2 h3 (by decide)
  obtain ⟨j, a1, _, a3⟩ := C92_paypal_new e Ex.zones_eq hd hn hfp (fun _ => .rev) Ex.paypalRuns (by simp [Ex.paypalRuns])
    (by
      intro r hr x hx
      simp only [Ex.paypalRuns, List.mem_cons, List.not_mem_nil, or_false] at hr
      rcases hr with rfl | rfl <;> simp only [List.mem_cons, List.not_mem_nil, or_false] at hx
      · subst hx
        exact ⟨[Ex.paypalDay2, Ex.paypalDay3], List.Perm.swap _ _ _, List.sublist_cons_self _ _⟩
      · rcases hx with rfl | rfl
        · exact ⟨[Ex.paypalDay1, Ex.paypalDay2], List.Perm.refl _, List.Sublist.cons_cons _ (List.Sublist.cons_cons _ (List.nil_sublist _))⟩
        · exact ⟨[Ex.paypalDay1], List.Perm.refl _, List.Sublist.cons_cons _ (List.nil_sublist _)⟩)
    (by
      intro B hB
      simp only [List.mem_cons, List.not_mem_nil, or_false] at hB
      rcases hB with rfl | rfl | rfl
      · exact ⟨_, List.mem_cons_of_mem _ List.mem_cons_self, _, List.mem_cons_self, List.mem_cons_self⟩
      · exact ⟨_, List.mem_cons_self, _, List.mem_cons_self, List.mem_cons_of_mem _ List.mem_cons_self⟩
      · exact ⟨_, List.mem_cons_self, _, List.mem_cons_self, List.mem_cons_self⟩)
  exact ⟨imp, j, e, k1, a3, a1⟩

end PaypalCsv
end Verif
