import Verif.Proofs.NationwidePdf
import Verif.Proofs.Rx

/-!
# Tables of PDF statements
-/

namespace Verif
namespace NationwidePdf
open Nationwide NationwideCsv Tesseract Spec

theorem collectWords_eq (col : ColumnPos) (row : Line) : collectWords col row = wordsIn col row := by
  unfold collectWords wordsIn
  congr 1
  refine List.filter_congr fun w _ => ?_
  unfold Bounds.overlaps Word.horizBounds
  simp only
  rw [Bool.eq_iff_iff, Bool.and_eq_true, decide_eq_true_iff, decide_eq_true_iff, decide_eq_true_iff]
  exact And.comm

theorem joinWords_eq (col : ColumnPos) (row : Line) : joinWords col row = textIn col row := by
  unfold joinWords textIn
  rw [collectWords_eq]
  simp only [List.isEmpty_iff]

/-! ## Reading the lines of a table -/

section
variable {L : ImportLib} {cols : Columns} {rows pre ls : List Line} {row : Line}

theorem row_at (hr : rows = pre ++ row :: ls) : rows[pre.length]? = some row := by
  rw [hr, List.getElem?_append_right (Nat.le_refl _), Nat.sub_self, List.getElem?_cons_zero]

theorem yearBefore_next (col : Bounds) (hr : rows = pre ++ row :: ls) :
    yearBefore L col rows (pre.length + 1) = (yearCell L col row).or (yearBefore L col rows pre.length) := by
  unfold yearBefore
  rw [List.take_add_one, row_at hr, List.filterMap_append, List.getLast?_append]
  congr 1
  cases hy : yearCell L col row with
  | none => rw [Option.toList_some, List.filterMap_cons_none hy]; rfl
  | some y => rw [Option.toList_some, List.filterMap_cons_some hy]; rfl

theorem dateOn_eq (col : Bounds) (i : Nat) : dateOn L col rows i = (dateCell L col rows i).or ((List.range i).filterMap (dateCell L col rows)).getLast? := by
  unfold dateOn
  rw [List.range_succ, List.filterMap_append, List.getLast?_append]
  congr 1
  cases hy : dateCell L col rows i with
  | none => rw [List.filterMap_cons_none hy]; rfl
  | some y => rw [List.filterMap_cons_some hy]; rfl

end

theorem statementLine_other {L : ImportLib} {cols : Columns} {rows : List Line} {i : Nat} {row : Line}
    (h : ∀ y, wordsIn cols.date row ≠ [y]) : statementLine L cols rows i row = (textIn cols.details row).map fun detail =>
      ⟨dateOn L cols.date rows i, detail, textIn cols.payments row, textIn cols.receipts row, textIn cols.balance row, row.top, row.height⟩ := by
  unfold statementLine
  match hw : wordsIn cols.date row, ht : textIn cols.details row with
  | [y], _ => exact absurd hw (h y)
  | [], none => rfl
  | [], some _ => rfl
  | _ :: _ :: _, none => rfl
  | _ :: _ :: _, some _ => rfl

theorem readLinesLoop_iff {L : ImportLib} {cols : Columns} {rows : List Line} {ls pre : List Line} {st : DateState} (hr : rows = pre ++ ls)
    (hy : st.year = yearBefore L cols.date rows pre.length)
    (hd : st.date = ((List.range pre.length).filterMap (dateCell L cols.date rows)).getLast?) (out : List TransactionLine) :
    readLinesLoop L cols st ls = .ok out ↔ (∀ (j : Nat) (row : Line), ls[j]? = some row → DateReadable L cols.date rows (pre.length + j) row) ∧
      out = (ls.zipIdx pre.length).filterMap fun x => statementLine L cols rows x.2 x.1 := by
  induction ls generalizing pre st out with
  | nil =>
    constructor
    · intro h; cases h; exact ⟨by simp, by simp⟩
    · rintro ⟨_, rfl⟩; rfl
  | cons row ls ih =>
    have hyn := yearBefore_next (L := L) cols.date hr
    have hrow := row_at hr
    have hdn := dateOn_eq (L := L) (rows := rows) cols.date pre.length
    have hsplit : (∀ (j : Nat) (r : Line), (row :: ls)[j]? = some r → DateReadable L cols.date rows (pre.length + j) r) ↔
        DateReadable L cols.date rows pre.length row ∧
          ∀ (j : Nat) (r : Line), ls[j]? = some r → DateReadable L cols.date rows ((pre ++ [row]).length + j) r := by
      have e : ∀ j, (pre ++ [row]).length + j = pre.length + (j + 1) := by intro j; simp; omega
      constructor
      · intro h
        exact ⟨h 0 row rfl, fun j r hj => by rw [e]; exact h (j + 1) r hj⟩
      · rintro ⟨h1, h2⟩ j r hj
        cases j with
        | zero => cases hj; exact h1
        | succ j => have := h2 j r hj; rwa [e] at this
    have hlist : ((row :: ls).zipIdx pre.length).filterMap (fun x => statementLine L cols rows x.2 x.1) =
        (statementLine L cols rows pre.length row).toList ++ (ls.zipIdx (pre ++ [row]).length).filterMap fun x => statementLine L cols rows x.2 x.1 := by
      rw [List.zipIdx_cons, List.length_append, List.length_singleton]
      cases h : statementLine L cols rows pre.length row with
      | none => rw [List.filterMap_cons_none (by exact h)]; rfl
      | some x => rw [List.filterMap_cons_some (by exact h)]; rfl
    rw [hsplit, hlist]
    have hr' : rows = (pre ++ [row]) ++ ls := by rw [hr, List.append_assoc]; rfl
    have hlen : (pre ++ [row]).length = pre.length + 1 := by simp
    have next : ∀ st' : DateState, st'.year = yearBefore L cols.date rows (pre.length + 1) → st'.date = dateOn L cols.date rows pre.length →
        ∀ out, readLinesLoop L cols st' ls = .ok out ↔ _ := fun st' h1 h2 out =>
      ih (pre := pre ++ [row]) (st := st') hr' (by rw [hlen]; exact h1) (by rw [hlen]; exact h2) out
    -- a line that is not a year
    have emit : ∀ st' : DateState, st'.year = yearBefore L cols.date rows (pre.length + 1) → st'.date = dateOn L cols.date rows pre.length →
        (∀ y, wordsIn cols.date row ≠ [y]) → DateReadable L cols.date rows pre.length row →
        ((match readLinesLoop L cols st' ls with
          | .error e => .error e
          | .ok rest =>
            match joinWords cols.details row with
            | none => .ok rest
            | some detail =>
              .ok (⟨st'.date, detail, joinWords cols.payments row, joinWords cols.receipts row, joinWords cols.balance row, row.top,
                row.height⟩ :: rest) : Except ImportErr (List TransactionLine)) = .ok out ↔
          (DateReadable L cols.date rows pre.length row ∧
            ∀ (j : Nat) (r : Line), ls[j]? = some r → DateReadable L cols.date rows ((pre ++ [row]).length + j) r) ∧
          out = (statementLine L cols rows pre.length row).toList ++
            (ls.zipIdx (pre ++ [row]).length).filterMap fun x => statementLine L cols rows x.2 x.1) := by
      intro st' h1 h2 h3 h4
      rw [statementLine_other h3]
      simp only [joinWords_eq]
      cases hl : readLinesLoop L cols st' ls with
      | error e =>
        refine iff_of_false (by intro h; cases h) ?_
        rintro ⟨⟨_, h5⟩, rfl⟩
        have := (next st' h1 h2 _).2 ⟨h5, rfl⟩
        rw [hl] at this; cases this
      | ok rest =>
        obtain ⟨h5, rfl⟩ := (next st' h1 h2 _).1 hl
        simp only
        cases ht : textIn cols.details row with
        | none =>
          simp only [Option.map_none, Option.toList_none, List.nil_append]
          exact ⟨fun h => ⟨⟨h4, h5⟩, (Except.ok.inj h).symm⟩, fun h => by rw [h.2]⟩
        | some detail =>
          simp only [Option.map_some, Option.toList_some, List.singleton_append, h2]
          exact ⟨fun h => ⟨⟨h4, h5⟩, (Except.ok.inj h).symm⟩, fun h => by rw [h.2]⟩
    have hbad : ¬ DateReadable L cols.date rows pre.length row → ∀ e : ImportErr, ((.error e : Except ImportErr (List TransactionLine)) = .ok out ↔
          (DateReadable L cols.date rows pre.length row ∧
            ∀ (j : Nat) (r : Line), ls[j]? = some r → DateReadable L cols.date rows ((pre ++ [row]).length + j) r) ∧
          out = (statementLine L cols rows pre.length row).toList ++
            (ls.zipIdx (pre ++ [row]).length).filterMap fun x => statementLine L cols rows x.2 x.1) := fun h e =>
      iff_of_false (by intro h; cases h) (fun h' => h h'.1.1)
    rw [readLinesLoop]
    unfold updateDate
    rw [collectWords_eq]
    match hw : wordsIn cols.date row with
    | [] =>
      simp only
      have hc : dateCell L cols.date rows pre.length = none := by unfold dateCell; rw [hrow]; simp only [Option.map_some, hw]
      have hyc : yearCell L cols.date row = none := by unfold yearCell; rw [hw]
      refine emit st ?_ ?_ (by rw [hw]; intro y h; cases h) (.inl hw)
      · rw [hyn, hyc]; exact hy
      · rw [hdn, hc]; exact hd
    | [y] =>
      simp only
      have hc : dateCell L cols.date rows pre.length = none := by unfold dateCell; rw [hrow]; simp only [Option.map_some, hw]
      have hyc : yearCell L cols.date row = L.year y := by unfold yearCell; rw [hw]
      have hne : statementLine L cols rows pre.length row = none := by unfold statementLine; rw [hw]
      cases hL : L.year y with
      | none =>
        refine hbad ?_ _
        rintro (h | ⟨y', year, h, h', _⟩ | ⟨d, m, date, h, _⟩)
        · rw [hw] at h; cases h
        · rw [hw] at h; cases h; rw [hL] at h'; cases h'
        · rw [hw] at h; cases h
      | some year =>
        simp only
        by_cases hrange : 1980 ≤ year ∧ year ≤ 2100
        · rw [if_pos hrange]
          simp only
          rw [next _ (by rw [hyn, hyc, hL]; rfl) (by rw [hdn, hc]; exact hd), hne]
          simp only [Option.toList_none, List.nil_append]
          have : DateReadable L cols.date rows pre.length row := .inr (.inl ⟨y, year, hw, hL, hrange⟩)
          tauto
        · rw [if_neg hrange]
          refine hbad ?_ _
          rintro (h | ⟨y', year', h, h', h''⟩ | ⟨d, m, date, h, _⟩)
          · rw [hw] at h; cases h
          · rw [hw] at h; cases h; rw [hL] at h'; cases h'; exact hrange h''
          · rw [hw] at h; cases h
    | [d, m] =>
      simp only
      have hc : ∀ day month year, L.day d = some day → L.month m = some month → st.year = some year →
          dateCell L cols.date rows pre.length = some ⟨year, month, day⟩ := by
        intro day month year h1 h2 h3
        unfold dateCell; rw [hrow, ← hy]; simp only [Option.map_some, hw, h1, h2, h3]
      have hc' : L.day d = none ∨ L.month m = none ∨ st.year = none → dateCell L cols.date rows pre.length = none := by
        unfold dateCell; rw [hrow, ← hy]; simp only [Option.map_some, hw]
        rintro (h | h | h) <;> rw [h] <;> cases L.day d <;> cases L.month m <;> rfl
      have hyc : yearCell L cols.date row = none := by unfold yearCell; rw [hw]
      have hread : DateReadable L cols.date rows pre.length row ↔ ∃ date, dateCell L cols.date rows pre.length = some date ∧
          L.validDate date.year date.month date.day = true := by
        constructor
        · rintro (h | ⟨y', year', h, h', h''⟩ | ⟨d', m', date, h, h1, h2⟩)
          · rw [hw] at h; cases h
          · rw [hw] at h; cases h
          · exact ⟨date, h1, h2⟩
        · rintro ⟨date, h1, h2⟩
          exact .inr (.inr ⟨d, m, date, hw, h1, h2⟩)
      have hno : L.day d = none ∨ L.month m = none ∨ st.year = none → ¬ DateReadable L cols.date rows pre.length row := by
        intro h
        rw [hread, hc' h]
        rintro ⟨_, h, _⟩; cases h
      cases h1 : L.day d with
      | none => exact hbad (hno (.inl h1)) _
      | some day =>
        cases h2 : L.month m with
        | none => exact hbad (hno (.inr (.inl h2))) _
        | some month =>
          cases h3 : st.year with
          | none => exact hbad (hno (.inr (.inr h3))) _
          | some year =>
            simp only
            have hc := hc _ _ _ h1 h2 h3
            by_cases hv : L.validDate year month day = true
            · rw [if_pos hv]
              simp only
              refine emit ⟨some year, some ⟨year, month, day⟩⟩ ?_ ?_ (by rw [hw]; intro y h; cases h) (hread.2 ⟨_, hc, hv⟩)
              · rw [hyn, hyc]; exact h3.symm.trans hy
              · rw [hdn, hc]; rfl
            · rw [if_neg hv]
              refine hbad ?_ _
              rw [hread, hc]
              rintro ⟨_, h, h'⟩
              cases h
              exact hv h'
    | a :: b :: c :: rest =>
      simp only
      refine hbad ?_ _
      rintro (h | ⟨y', year', h, h', h''⟩ | ⟨d, m, date, h, _⟩) <;> rw [hw] at h <;> cases h

theorem readLines_iff {L : ImportLib} {cols : Columns} {p : Paragraph} {out : List TransactionLine} :
    readLines L cols p = .ok out ↔
      (∀ (j : Nat) (row : Line), (p.lines.drop (cols.headerLineIdx + 1))[j]? = some row →
        DateReadable L cols.date (p.lines.drop (cols.headerLineIdx + 1)) j row) ∧
      out = statementLines L cols (p.lines.drop (cols.headerLineIdx + 1)) := by
  have := readLinesLoop_iff (L := L) (cols := cols) (rows := p.lines.drop (cols.headerLineIdx + 1)) (ls := p.lines.drop (cols.headerLineIdx + 1))
    (pre := []) (st := ⟨none, none⟩) rfl rfl rfl out
  simp only [List.length_nil, Nat.zero_add] at this
  exact this

/-! ## Finding tables -/

theorem findInLine_iff {idx : Nat} {row : Line} {cols : Columns} : Columns.findInLine idx row = some cols ↔
    ∃ a b c d e rest, Headings row ∧ row.words = a :: b :: c :: d :: e :: rest ∧ cols.headerLineIdx = idx ∧
      cols.date = ⟨a.left, a.left + a.width⟩ ∧ cols.details = ⟨b.left, c.left⟩ ∧ cols.payments = ⟨c.left, d.left⟩ ∧
      cols.receipts = ⟨d.left, e.left⟩ ∧ cols.balance = ⟨e.left, e.left + e.width⟩ := by
  unfold Columns.findInLine Headings
  match hw : row.words with
  | a :: b :: c :: d :: e :: rest =>
    simp only [List.take_succ_cons, List.take_zero, List.map_cons, List.map_nil, List.cons.injEq, and_true]
    split
    · rename_i h
      refine iff_of_false (by intro h; cases h) ?_
      rintro ⟨_, _, _, _, _, _, ⟨h1, h2, h3, h4, h5⟩, _⟩
      rcases h with h | h | h | h | h <;> contradiction
    · rename_i h
      push Not at h
      constructor
      · intro e; cases e
        exact ⟨a, b, c, d, _, rest, h, ⟨rfl, rfl, rfl, rfl, rfl, rfl⟩, rfl, rfl, rfl, rfl, rfl, rfl⟩
      · rintro ⟨_, _, _, _, _, _, _, ⟨rfl, rfl, rfl, rfl, rfl, rfl⟩, h1, h2, h3, h4, h5, h6⟩
        congr 1
        obtain ⟨_, _, _, _, _, _⟩ := cols
        simp only at h1 h2 h3 h4 h5 h6
        subst h1 h2 h3 h4 h5 h6
        rfl
  | [] | [_] | [_, _] | [_, _, _] | [_, _, _, _] =>
    refine iff_of_false (by intro h; cases h) ?_
    rintro ⟨_, _, _, _, _, _, _, h, _⟩; cases h

theorem findInLine_none {idx : Nat} {row : Line} : Columns.findInLine idx row = none ↔ ¬ Headings row := by
  constructor
  · intro h hh
    have hl : 5 ≤ row.words.length := by
      have := congrArg List.length hh
      rw [List.length_map, List.length_take] at this
      simp only [List.length_cons, List.length_nil] at this
      omega
    match hw : row.words with
    | a :: b :: c :: d :: e :: rest =>
      have := (findInLine_iff (idx := idx) (row := row) (cols := ⟨idx, ⟨a.left, a.left + a.width⟩, ⟨b.left, c.left⟩, ⟨c.left, d.left⟩,
        ⟨d.left, e.left⟩, ⟨e.left, e.left + e.width⟩⟩)).2 ⟨a, b, c, d, e, rest, hh, hw, rfl, rfl, rfl, rfl, rfl, rfl⟩
      rw [h] at this; cases this
    | [] | [_] | [_, _] | [_, _, _] | [_, _, _, _] => rw [hw] at hl; simp at hl
  · intro h
    cases hc : Columns.findInLine idx row with
    | none => rfl
    | some c =>
      obtain ⟨_, _, _, _, _, _, hh, _⟩ := findInLine_iff.1 hc
      exact absurd hh h

theorem findFrom_iff {idx : Nat} {ls : List Line} {cols : Columns} : Columns.findFrom idx ls = some cols ↔
    ∃ before head rows, ls = before ++ head :: rows ∧ (∀ l ∈ before, ¬ Headings l) ∧
      Columns.findInLine (idx + before.length) head = some cols := by
  induction ls generalizing idx with
  | nil =>
    refine iff_of_false (by intro h; cases h) ?_
    rintro ⟨before, head, rows, h, _⟩
    cases before <;> cases h
  | cons l ls ih =>
    rw [Columns.findFrom]
    cases hl : Columns.findInLine idx l with
    | some c =>
      simp only
      constructor
      · intro e; cases e
        exact ⟨[], l, ls, rfl, by simp, hl⟩
      · rintro ⟨before, head, rows, h, h1, h2⟩
        cases before with
        | nil => cases h; rw [← h2]; exact hl.symm
        | cons b before =>
          cases h
          rw [findInLine_none.2 (h1 l List.mem_cons_self)] at hl
          cases hl
    | none =>
      simp only
      rw [ih]
      constructor
      · rintro ⟨before, head, rows, rfl, h1, h2⟩
        refine ⟨l :: before, head, rows, rfl, ?_, ?_⟩
        · intro x hx
          rcases List.mem_cons.1 hx with rfl | hx
          · exact findInLine_none.1 hl
          · exact h1 x hx
        · rw [← h2, List.length_cons, Nat.add_assoc, Nat.add_comm 1]
      · rintro ⟨before, head, rows, h, h1, h2⟩
        cases before with
        | nil => cases h; rw [List.length_nil, Nat.add_zero, hl] at h2; cases h2
        | cons b before =>
          cases h
          refine ⟨before, head, rows, rfl, fun x hx => h1 x (List.mem_cons_of_mem _ hx), ?_⟩
          rw [← h2, List.length_cons, Nat.add_assoc, Nat.add_comm 1]

theorem isTable_iff {p : Paragraph} {cols : Columns} {rows : List Line} :
    IsTable p cols rows ↔ Columns.findInParagraph p = some cols ∧ rows = p.lines.drop (cols.headerLineIdx + 1) := by
  unfold Columns.findInParagraph
  rw [findFrom_iff]
  constructor
  · rintro ⟨before, head, a, b, c, d, e, rest, h1, h2, h3, h4, h5, h6⟩
    refine ⟨⟨before, head, rows, h1, h2, findInLine_iff.2 ⟨a, b, c, d, e, rest, h3, h4, by rw [Nat.zero_add]; exact h5, h6⟩⟩, ?_⟩
    rw [h1, h5, List.drop_append, List.drop_eq_nil_of_le (by omega)]
    simp
  · rintro ⟨⟨before, head, rows', h1, h2, h3⟩, rfl⟩
    obtain ⟨a, b, c, d, e, rest, h4, h5, h6, h7⟩ := findInLine_iff.1 h3
    rw [Nat.zero_add] at h6
    refine ⟨before, head, a, b, c, d, e, rest, ?_, h2, h4, h5, h6, h7⟩
    rw [h1, h6, List.drop_append, List.drop_eq_nil_of_le (by omega)]
    simp

/-! ## Finding the account -/

open Rx in
theorem run_chr_nil' (p : Char → Bool) (pos : Nat) (s : Str) : run (chr p) ⟨pos, s, []⟩ =
    match s with
    | c :: cs => if p c then [⟨pos + 1, cs, []⟩] else []
    | [] => [] := by cases s <;> rfl

/-- A text that consists of characters of given classes. -/
def Shape : List (Char → Bool) → Str → Prop
  | [], [] => True
  | p :: ps, c :: cs => p c = true ∧ Shape ps cs
  | _, _ => False

open Rx in
theorem run_shape (ps : List (Char → Bool)) (pos : Nat) (s : Str) :
    (run (ps.foldr (fun p r => seq (chr p) r) eol) ⟨pos, s, []⟩).head?.isSome = true ↔ Shape ps s := by
  induction ps generalizing pos s with
  | nil =>
    cases s with
    | nil => exact iff_of_true rfl trivial
    | cons c cs => exact iff_of_false (by simp [run]) id
  | cons p ps ih =>
    rw [List.foldr_cons]
    change ((run (chr p) _).flatMap _).head?.isSome = true ↔ _
    rw [run_chr_nil']
    cases s with
    | nil => exact iff_of_false (by simp) id
    | cons c cs =>
      simp only
      by_cases h : p c = true
      · rw [if_pos h, List.flatMap_cons, List.flatMap_nil, List.append_nil, ih]
        exact ⟨fun h' => ⟨h, h'⟩, fun h' => h'.2⟩
      · rw [if_neg h]
        exact iff_of_false (by simp) fun h' => h h'.1

open Rx in
theorem shape_isMatch (ps : List (Char → Bool)) (s : Str) :
    (seq bol (ps.foldr (fun p r => seq (chr p) r) eol)).isMatch s = true ↔ Shape ps s := by
  unfold isMatch
  rw [captures_bol]
  · rw [← run_shape ps 0 s, Option.isSome_map]
    change ((run bol _).flatMap _).head?.isSome = true ↔ _
    rw [run_bol, if_pos rfl]
  · intro st hs
    change (run bol st).flatMap _ = []
    rw [run_bol, if_neg hs]

open Rx in
theorem findFrom_congr {r r' : Rx} (h : ∀ s, run r s = run r' s) (pos : Nat) (s : Str) : findFrom r pos s = findFrom r' pos s := by
  induction s generalizing pos with
  | nil => unfold findFrom; rw [h]
  | cons c cs ih => unfold findFrom; rw [h, ih]

open Rx in
theorem sortCode_shape (D : Char → Bool) (s : Str) :
    (sortCodeRx D).isMatch s = true ↔ Shape [D, D, (· == '-'), D, D, (· == '-'), D, D] s := by
  rw [← shape_isMatch]
  unfold isMatch captures
  rw [findFrom_congr]
  intro st
  simp only [sortCodeRx, Rx.cat, Rx.rep, Rx.lit, List.foldr_cons, List.foldr_nil, Rx.run, List.flatMap_assoc]

open Rx in
theorem acctNum_shape (D : Char → Bool) (s : Str) : (acctNumRx D).isMatch s = true ↔ Shape (List.replicate 8 D) s := by
  rw [← shape_isMatch]
  unfold isMatch captures
  rw [findFrom_congr]
  intro st
  simp only [acctNumRx, Rx.cat, Rx.rep, List.replicate, List.foldr_cons, List.foldr_nil, Rx.run, List.flatMap_assoc]

theorem shape_replicate (D : Char → Bool) (n : Nat) (s : Str) : Shape (List.replicate n D) s ↔ s.length = n ∧ ∀ x ∈ s, D x = true := by
  induction n generalizing s with
  | zero =>
    cases s with
    | nil => exact iff_of_true trivial ⟨rfl, by simp⟩
    | cons c cs => exact iff_of_false id (by simp)
  | succ n ih =>
    cases s with
    | nil => exact iff_of_false id (by simp)
    | cons c cs =>
      rw [List.replicate_succ]
      change (D c = true ∧ Shape _ cs) ↔ _
      rw [ih]
      simp only [List.length_cons, Nat.add_right_cancel_iff, List.forall_mem_cons]
      tauto

theorem shape_sortCode (D : Char → Bool) (s : Str) : Shape [D, D, (· == '-'), D, D, (· == '-'), D, D] s ↔
    ∃ a b c d e f, s = [a, b, '-', c, d, '-', e, f] ∧ ∀ x ∈ [a, b, c, d, e, f], D x = true := by
  constructor
  · intro h
    match s, h with
    | [a, b, x, c, d, y, e, f], ⟨h1, h2, hx, h3, h4, hy, h5, h6, _⟩ =>
      simp only [beq_iff_eq] at hx hy
      subst hx hy
      refine ⟨a, b, c, d, e, f, rfl, ?_⟩
      simp only [List.forall_mem_cons]
      exact ⟨h1, h2, h3, h4, h5, h6, by simp⟩
  · rintro ⟨a, b, c, d, e, f, rfl, h⟩
    simp only [List.forall_mem_cons] at h
    obtain ⟨h1, h2, h3, h4, h5, h6, _⟩ := h
    exact ⟨h1, h2, beq_self_eq_true _, h3, h4, beq_self_eq_true _, h5, h6, trivial⟩

theorem accountLine_iff (L : ImportLib) (row : Line) (account : Str) : accountNameInLine L row = some account ↔ AccountLine L row account := by
  unfold accountNameInLine AccountLine
  have hsp : " ".toList = [' '] := by decide
  rw [hsp]
  match hw : row.words with
  | w0 :: w1 :: w2 :: w3 :: rest =>
    simp only
    split
    · rename_i h
      rw [sortCode_shape, acctNum_shape, shape_replicate, shape_sortCode] at h
      obtain ⟨h0, h1, ⟨a, b, c, d, e, f, h2, h3⟩, h4, h5⟩ := h
      constructor
      · intro e1; cases e1
        refine ⟨w0, w1, w2, w3, rest, a, b, c, d, e, f, w3.text, rfl, h0, h1, h2, rfl, h4, ?_, rfl⟩
        intro x hx
        rcases List.mem_append.1 hx with hx | hx
        · exact h3 x hx
        · exact h5 x hx
      · rintro ⟨_, _, _, _, _, _, _, _, _, _, _, n, h, _, _, _, hn, _, _, rfl⟩
        cases h
        rw [hn]
    · rename_i hno
      rw [sortCode_shape, acctNum_shape, shape_replicate, shape_sortCode] at hno
      refine iff_of_false (by intro h; cases h) ?_
      rintro ⟨_, _, _, _, _, a, b, c, d, e, f, n, h, h0, h1, h2, rfl, h4, h5, rfl⟩
      cases h
      exact hno ⟨h0, h1, ⟨a, b, c, d, e, f, h2, fun x hx => h5 x (List.mem_append_left _ hx)⟩, h4, fun x hx => h5 x (List.mem_append_right _ hx)⟩
  | [] | [_] | [_, _] | [_, _, _] =>
    refine iff_of_false (by intro h; cases h) ?_
    rintro ⟨_, _, _, _, _, _, _, _, _, _, _, _, h, _⟩
    cases h

theorem paragraphs_eq (doc : Document) : doc.paragraphs = allParagraphs doc := by
  unfold Document.paragraphs allParagraphs
  exact List.flatMap_assoc

/-- The account is in the first line that has one. -/
theorem findAccount_iff (L : ImportLib) (doc : Document) (account : Str) : findAccountName L doc = some account ↔
    ∃ before row after, (allParagraphs doc).flatMap Paragraph.lines = before ++ row :: after ∧ (∀ l ∈ before, ∀ a, ¬ AccountLine L l a) ∧
      AccountLine L row account := by
  unfold findAccountName
  rw [List.findSome?_eq_some_iff, paragraphs_eq]
  simp only [accountLine_iff]
  constructor
  · rintro ⟨l1, a, l2, h1, h2, h3⟩
    refine ⟨l1, a, l2, h1, fun l hl x hx => ?_, h2⟩
    have := h3 l hl
    rw [(accountLine_iff ..).2 hx] at this
    cases this
  · rintro ⟨l1, a, l2, h1, h3, h2⟩
    refine ⟨l1, a, l2, h1, h2, fun l hl => ?_⟩
    cases hx : accountNameInLine L l with
    | none => rfl
    | some x => exact absurd ((accountLine_iff ..).1 hx) (h3 l hl x)

/-! ## The lines up to a gap -/

/-- The lines up to the first gap; `prev` is the line before. -/
def upTo : Option TransactionLine → List TransactionLine → List TransactionLine
  | _, [] => []
  | none, l :: ls => l :: upTo (some l) ls
  | some p, l :: ls => if Near p l then l :: upTo (some l) ls else []

theorem linesLoop_eq (L : ImportLib) (ns : Str) (prev : Option TransactionLine) (acc : Acc) (ls : List TransactionLine) :
    linesLoop L ns prev acc ls = feedAll L ns acc (upTo prev ls) := by
  induction ls generalizing prev acc with
  | nil => cases prev <;> rfl
  | cons l ls ih =>
    cases prev with
    | none =>
      simp only [linesLoop, Bool.false_eq_true, if_false, upTo, feedAll, ih]
      cases Acc.feedLine L ns acc l <;> rfl
    | some p =>
      simp only [linesLoop, upTo]
      by_cases h : Near p l
      · have h' : ¬ (decide (l.top > p.top + p.height * 2) = true) := by
          rw [decide_eq_true_iff]; unfold Near at h; omega
        rw [if_neg h', if_pos h]
        simp only [feedAll, ih]
        cases Acc.feedLine L ns acc l <;> rfl
      · have h' : decide (l.top > p.top + p.height * 2) = true := by
          rw [decide_eq_true_iff]; unfold Near at h; omega
        rw [if_pos h', if_neg h]
        rfl

theorem upTo_spec (prev : Option TransactionLine) (ls : List TransactionLine) :
    ∃ rest, ls = upTo prev ls ++ rest ∧ (prev.toList ++ upTo prev ls).IsChain Near ∧
      ∀ b, rest.head? = some b → ∃ a, (prev.toList ++ upTo prev ls).getLast? = some a ∧ ¬ Near a b := by
  induction ls generalizing prev with
  | nil => exact ⟨[], by cases prev <;> rfl, by cases prev <;> simp [upTo], by simp⟩
  | cons l ls ih =>
    obtain ⟨rest, h1, h2, h3⟩ := ih (some l)
    cases prev with
    | none =>
      refine ⟨rest, ?_, h2, h3⟩
      show l :: ls = l :: (upTo (some l) ls ++ rest)
      rw [← h1]
    | some p =>
      unfold upTo
      by_cases h : Near p l
      · rw [if_pos h]
        refine ⟨rest, ?_, ?_, ?_⟩
        · show l :: ls = l :: (upTo (some l) ls ++ rest)
          rw [← h1]
        · exact List.isChain_cons_cons.2 ⟨h, h2⟩
        · intro b hb
          obtain ⟨a, ha, hn⟩ := h3 b hb
          refine ⟨a, ?_, hn⟩
          show (p :: l :: upTo (some l) ls).getLast? = some a
          rw [List.getLast?_cons_cons]
          exact ha
      · rw [if_neg h]
        refine ⟨l :: ls, rfl, by simp, fun b hb => ?_⟩
        cases hb
        exact ⟨p, rfl, h⟩

theorem upTo_gap (ls : List TransactionLine) : UpToGap ls (upTo none ls) := upTo_spec none ls

theorem gap_unique {ls us vs : List TransactionLine} (hu : UpToGap ls us) (hv : UpToGap ls vs) : us = vs := by
  have key : ∀ {us vs : List TransactionLine}, UpToGap ls us → UpToGap ls vs → us.length ≤ vs.length := by
    rintro us vs ⟨r, h1, h2, _⟩ ⟨r', h1', _, h3'⟩
    by_contra hlt
    have hb : r'.head? = some us[vs.length] := by
      have e : ls[vs.length]? = some us[vs.length] := by
        rw [h1, List.getElem?_append_left (by omega), List.getElem?_eq_getElem]
      rw [h1', List.getElem?_append_right (Nat.le_refl _), Nat.sub_self] at e
      rw [List.head?_eq_getElem?, e]
    obtain ⟨a, ha, hn⟩ := h3' _ hb
    have hvpos : 0 < vs.length := by
      cases vs with
      | nil => cases ha
      | cons v vs => simp
    have ha' : a = us[vs.length - 1] := by
      rw [List.getLast?_eq_getElem?] at ha
      have e : ls[vs.length - 1]? = some a := by rw [h1', List.getElem?_append_left (by omega), ha]
      rw [h1, List.getElem?_append_left (by omega), List.getElem?_eq_getElem (by omega)] at e
      exact (Option.some.inj e).symm
    have := List.isChain_iff_getElem.1 h2 (vs.length - 1) (by omega)
    rw [← ha'] at this
    apply hn
    have e : vs.length - 1 + 1 = vs.length := by omega
    simp only [e] at this
    exact this
  have hl := Nat.le_antisymm (key hu hv) (key hv hu)
  obtain ⟨r, h1, _⟩ := hu
  obtain ⟨r', h1', _⟩ := hv
  exact (List.append_inj (h1.symm.trans h1') hl).1

/-! ## All tables -/

theorem tablesLoop_iff {L : ImportLib} {ns : Str} {tables : List (Columns × Paragraph)} {acc acc' : Acc} :
    tablesLoop L ns acc tables = .ok acc' ↔ ∃ pages, List.Forall₂ (fun t ls => readLines L t.1 t.2 = .ok ls) tables pages ∧
      feedAll L ns acc (pages.flatMap (upTo none)) = .ok acc' := by
  induction tables generalizing acc with
  | nil =>
    constructor
    · intro h; cases h; exact ⟨[], .nil, rfl⟩
    · rintro ⟨pages, h, h'⟩; cases h; exact h'
  | cons t ts ih =>
    obtain ⟨cols, p⟩ := t
    constructor
    · intro h
      rw [tablesLoop] at h
      cases hr : readLines L cols p with
      | error e => rw [hr] at h; cases h
      | ok lines =>
        rw [hr] at h
        cases hl : linesToTransactions L ns acc lines with
        | error e =>
          change (do let acc ← linesToTransactions L ns acc lines; tablesLoop L ns acc ts) = _ at h
          rw [hl] at h; cases h
        | ok acc1 =>
          change (do let acc ← linesToTransactions L ns acc lines; tablesLoop L ns acc ts) = _ at h
          rw [hl] at h
          obtain ⟨pages, h1, h2⟩ := ih.1 h
          refine ⟨lines :: pages, .cons hr h1, ?_⟩
          rw [List.flatMap_cons, feedAll_append]
          exact ⟨acc1, by rw [← linesLoop_eq]; exact hl, h2⟩
    · rintro ⟨pages, h1, h2⟩
      cases h1 with
      | cons hr h1 =>
        rename_i lines pages
        rw [List.flatMap_cons, feedAll_append] at h2
        obtain ⟨acc1, h3, h4⟩ := h2
        rw [← linesLoop_eq] at h3
        have h5 := ih.2 ⟨pages, h1, h4⟩
        rw [tablesLoop, hr]
        change (do let acc ← linesLoop L ns none acc lines; tablesLoop L ns acc ts) = _
        rw [h3]
        exact h5

end NationwidePdf
end Verif
