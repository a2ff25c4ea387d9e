import Verif.Model.Machine
import Verif.Props.TzAbbr
import Verif.Proofs.Money
import Verif.Examples.Import
import Mathlib.Tactic.Linarith
import Mathlib.Data.List.Basic

/-!
# Numbers of the machine do not get too large (C89)
-/

namespace Verif
open Spec

/-! ## What is claimed -/

/-- There are no 17 digits in a row. -/
def FewDigits (s : Str) : Prop := ∀ d, d <:+: s → (∀ c ∈ d, c.isDigit = true) → d.length ≤ 16

/-- A position is small. -/
def Small (x : Int) : Prop := -2 ^ 29 ≤ x ∧ x ≤ 2 ^ 29

/-- A line has small positions. -/
def SmallLine (l : Tesseract.Line) : Prop := Small l.top ∧ Small l.height ∧ ∀ w ∈ l.words, Small w.left ∧ Small w.width

/-! ## Errors and panics -/

theorem lift_ok {E T : Type} (x : T) : lift (.ok x : Except E T) = .ok x := rfl

theorem lift_error {E T : Type} (e : E) : lift (.error e : Except E T) = .error (.err e) := rfl

theorem lift_bind {E T U : Type} (x : Except E T) (f : T → Except E U) : lift (x >>= f) = lift x >>= fun a => lift (f a) := by
  cases x <;> rfl

theorem lift_pure {E T : Type} (x : T) : lift (pure x : Except E T) = pure x := rfl

theorem lift_injective {E T : Type} {x y : Except E T} (h : lift x = lift y) : x = y := by
  cases x <;> cases y <;> cases h <;> rfl

theorem ok_bind {E T U : Type} (x : T) (f : T → Except E U) : ((.ok x : Except E T) >>= f) = f x := rfl

theorem error_bind {E T U : Type} (e : E) (f : T → Except E U) : ((.error e : Except E T) >>= f) = .error e := rfl

theorem pure_ok {E T : Type} (x : T) : (pure x : Except E T) = .ok x := rfl

namespace Rx

/-- The texts of a match are parts of the text. -/
def St.Within (t : Str) (s : St) : Prop := s.rest <:+ t ∧ ∀ c ∈ s.caps, c.2 <:+: t

theorem within_iter {t : Str} {f : St → List St} (hf : ∀ s, s.Within t → ∀ s' ∈ f s, s'.Within t) (n : Nat) (s : St) (h : s.Within t) :
    ∀ s' ∈ iter f n s, s'.Within t := by
  induction n generalizing s with
  | zero =>
    intro s' hs
    obtain rfl := List.mem_singleton.1 hs
    exact h
  | succ n ih =>
    intro s' hs
    rw [iter, List.mem_append] at hs
    rcases hs with hs | hs
    · obtain ⟨a, ha, hs⟩ := List.mem_flatMap.1 hs
      exact ih a (hf s h a (List.mem_filter.1 ha).1) s' hs
    · obtain rfl := List.mem_singleton.1 hs
      exact h

theorem within_run {t : Str} (r : Rx) : ∀ s : St, s.Within t → ∀ s' ∈ run r s, s'.Within t := by
  induction r with
  | eps =>
    intro s h s' hs
    rw [run] at hs
    obtain rfl := List.mem_singleton.1 hs
    exact h
  | chr p =>
    intro s h s' hs
    rw [run] at hs
    split at hs
    · rename_i c cs hr
      split at hs
      · obtain rfl := List.mem_singleton.1 hs
        exact ⟨(List.suffix_cons c cs).trans (hr ▸ h.1), h.2⟩
      · cases hs
    · cases hs
  | seq a b iha ihb =>
    intro s h s' hs
    rw [run] at hs
    obtain ⟨x, hx, hs⟩ := List.mem_flatMap.1 hs
    exact ihb x (iha s h x hx) s' hs
  | alt a b iha ihb =>
    intro s h s' hs
    rw [run, List.mem_append] at hs
    exact hs.elim (iha s h s') (ihb s h s')
  | star a ih =>
    intro s h s' hs
    rw [run] at hs
    exact within_iter ih _ s h s' hs
  | grp n a ih =>
    intro s h s' hs
    rw [run] at hs
    obtain ⟨x, hx, rfl⟩ := List.mem_map.1 hs
    obtain ⟨h1, h2⟩ := ih s h x hx
    refine ⟨h1, fun c hc => ?_⟩
    rcases List.mem_cons.1 hc with rfl | hc
    · exact (List.take_prefix _ _).isInfix.trans h.1.isInfix
    · exact h2 c hc
  | bol =>
    intro s h s' hs
    rw [run] at hs
    split at hs
    · obtain rfl := List.mem_singleton.1 hs
      exact h
    · cases hs
  | eol =>
    intro s h s' hs
    rw [run] at hs
    split at hs
    · obtain rfl := List.mem_singleton.1 hs
      exact h
    · cases hs

theorem within_findFrom {t : Str} (r : Rx) (pos : Nat) (s : Str) (h : s <:+ t) (m : Found) (hm : findFrom r pos s = some m) :
    m.stop.Within t := by
  induction s generalizing pos with
  | nil =>
    rw [findFrom, Option.map_eq_some_iff] at hm
    obtain ⟨st, hst, rfl⟩ := hm
    exact within_run r _ ⟨h, fun _ hc => by cases hc⟩ _ (List.mem_of_mem_head? hst)
  | cons c cs ih =>
    rw [findFrom] at hm
    split at hm
    · rename_i st hst
      cases hm
      exact within_run r _ ⟨h, fun _ hc => by cases hc⟩ _ (List.mem_of_mem_head? hst)
    · exact ih (pos + 1) ((List.suffix_cons c cs).trans h) hm

/-- What a group has captured is part of the text. -/
theorem captured_infix {r : Rx} {s : Str} {m : Found} (h : captures r s = some m) (n : Nat) : (m.get n).getD [] <:+: s := by
  have hw := within_findFrom r 0 s (List.suffix_refl s) m h
  unfold Found.get
  cases hf : m.stop.caps.find? (·.1 == n) with
  | none => exact List.nil_infix
  | some c => exact hw.2 c (List.mem_of_find?_eq_some hf)

end Rx

namespace NationwideCsv
open Nationwide

/-! ## CSV files -/

theorem number_lt (s : Str) (h : ∀ c ∈ s, c.isDigit = true) : number s < 10 ^ s.length := by
  induction s with
  | nil => simp [number]
  | cons c cs ih =>
    have := ih fun x hx => h x (List.mem_cons_of_mem _ hx)
    have hc := (isDigit_iff c).1 (h c List.mem_cons_self)
    have h9 : c.toNat ≤ 57 := hc.2
    rw [number, List.length_cons, Nat.pow_succ]
    have hv : c.toNat - '0'.toNat ≤ 9 := by
      have : '0'.toNat = 48 := rfl
      omega
    nlinarith [Nat.mul_le_mul_right (10 ^ cs.length) hv]

theorem capturedNumber_lt {s d : Str} (hs : FewDigits s) (hd : d <:+: s) {n : Nat} (h : capturedNumber d = some n) : n < 10 ^ 16 := by
  unfold capturedNumber at h
  split at h
  · rename_i hall
    have hall' := List.all_eq_true.1 hall
    simp only at h
    split at h
    · cases h
      rw [ofDigitChars_number hall']
      exact (number_lt d hall').trans_le (Nat.pow_le_pow_right (by decide) (hs d hd hall'))
    · cases h
  · cases h

/-- An absent result as an error of the format. -/
def orFormat {T : Type} (x : Option T) : Except (Fault ImportErr) T :=
  match x with
  | none => .error (.err .format)
  | some a => .ok a

theorem gbpValueM_eq (M : Machine) (L : ImportLib) {s : Str} (hs : FewDigits s) : gbpValueM M L s = orFormat (gbpValue L s) := by
  unfold gbpValueM gbpValue
  cases hm : (gbpRx L.digit).captures s with
  | none => rfl
  | some m =>
    simp only
    cases h2 : capturedNumber ((m.get 2).getD []) with
    | none => rfl
    | some p =>
      cases h3 : capturedNumber ((m.get 3).getD []) with
      | none => rfl
      | some q =>
        have hp := capturedNumber_lt hs (Rx.captured_infix hm 2) h2
        have hq := capturedNumber_lt hs (Rx.captured_infix hm 3) h3
        have hlt : p * 100 + q < 2 ^ 63 := by norm_num at *; omega
        simp only
        rw [if_pos hlt, M.i64_ok _ (by norm_num; omega) (by norm_num at *; omega), ok_bind,
          M.i64_ok _ (by norm_num; omega) (by norm_num at *; omega), ok_bind]
        show Except.ok _ = Except.ok _
        congr 4

theorem optGbpValueM_eq (M : Machine) (L : ImportLib) {s : Str} (hs : FewDigits s) : optGbpValueM M L s = orFormat (optGbpValue L s) := by
  unfold optGbpValueM optGbpValue
  split
  · rfl
  · rw [gbpValueM_eq M L hs]
    cases gbpValue L s <;> rfl

theorem five_ofRowM (M : Machine) (L : ImportLib) {row : Row} (hs : ∀ f ∈ row, FewDigits f) :
    RecordFive.ofRowM M L row = orFormat (RecordFive.ofRow L row) := by
  unfold RecordFive.ofRowM RecordFive.ofRow
  split
  · rename_i date t l o i rest
    rw [optGbpValueM_eq M L (hs o (by simp)), optGbpValueM_eq M L (hs i (by simp))]
    unfold dateM
    dsimp only
    cases L.dateDayMonYear date <;> cases optGbpValue L o <;> cases optGbpValue L i <;> rfl
  · rename_i hne
    split
    · exact absurd rfl (hne _ _ _ _ _ _)
    · rfl

theorem six_ofRowM (M : Machine) (L : ImportLib) {row : Row} (hs : ∀ f ∈ row, FewDigits f) :
    RecordSix.ofRowM M L row = orFormat (RecordSix.ofRow L row) := by
  unfold RecordSix.ofRowM RecordSix.ofRow
  split
  · rename_i date t l o i b rest
    rw [optGbpValueM_eq M L (hs o (by simp)), optGbpValueM_eq M L (hs i (by simp)), gbpValueM_eq M L (hs b (by simp))]
    unfold dateM
    dsimp only
    cases L.dateDayMonYear date <;> cases optGbpValue L o <;> cases optGbpValue L i <;> cases gbpValue L b <;> rfl
  · rename_i hne
    split
    · exact absurd rfl (hne _ _ _ _ _ _ _)
    · rfl

theorem seqValueM_eq (M : Machine) (ns : Str) {k : Int} (h0 : 0 ≤ k) (h : k + 1 < 2 ^ 31) : seqValueM M ns k = .ok (seqValue ns k) := by
  unfold seqValueM seqValue
  rw [M.i32_ok _ (by norm_num; omega) h]
  rfl

theorem five_formPostingsM (M : Machine) (L : ImportLib) (r : RecordFive) (ns account : Str) (legacy : Bool) {k : Int} (h0 : 0 ≤ k)
    (h : k + 1 < 2 ^ 31) : r.formPostingsM M L ns account k legacy = lift (r.formPostings L ns account k legacy) := by
  unfold RecordFive.formPostingsM RecordFive.formPostings
  rw [lift_bind]
  refine congrArg _ (funext fun amt => ?_)
  simp only
  rw [lift_bind]
  refine congrArg _ (funext fun fp => ?_)
  rw [seqValueM_eq M ns h0 h]
  rfl

theorem six_formPostingsM (M : Machine) (L : ImportLib) (r : RecordSix) (ns account : Str) (legacy : Bool) {k : Int} (h0 : 0 ≤ k)
    (h : k + 1 < 2 ^ 31) : r.formPostingsM M L ns account k legacy = lift (r.formPostings L ns account k legacy) := by
  unfold RecordSix.formPostingsM RecordSix.formPostings
  rw [lift_bind]
  refine congrArg _ (funext fun amt => ?_)
  simp only
  rw [lift_bind]
  refine congrArg _ (funext fun fp => ?_)
  rw [seqValueM_eq M ns h0 h, ok_bind]
  cases legacy
  · rfl
  · simp only [if_true]
    rw [lift_bind]
    rfl

theorem nextCounterM_eq (M : Machine) (date prev : Option Date) {k : Int} (h0 : 0 ≤ k) (h : k + 1 < 2 ^ 31) :
    nextCounterM M date prev k = .ok (if date ≠ prev then 0 else k + 1) := by
  unfold nextCounterM
  split
  · rfl
  · exact M.i32_ok _ (by norm_num; omega) h

/-- Formats that do the same. -/
structure SameFormat {T : Type} (FM : FormatM T) (F : Format T) (row : Row) : Prop where
  ofRow : FM.ofRow row = orFormat (F.ofRow row)
  date : FM.date = F.date
  description : FM.description = F.description
  formPostings : ∀ r ns account legacy k, 0 ≤ k → k + 1 < 2 ^ 31 →
    FM.formPostings r ns account k legacy = lift (F.formPostings r ns account k legacy)

theorem rowsLoopM_eq {T : Type} (M : Machine) (FM : FormatM T) (F : Format T) (ns account : Str) (legacy : Bool)
    (rows : List (Option Row)) (hF : ∀ row, some row ∈ rows → SameFormat FM F row) (prev : Option Date) (k : Int) (h0 : 0 ≤ k)
    (h : k + 1 + rows.length < 2 ^ 31) : rowsLoopM M FM ns account legacy prev k rows = lift (rowsLoop F ns account legacy prev k rows) := by
  induction rows generalizing prev k with
  | nil => rfl
  | cons o rest ih =>
    cases o with
    | none => rfl
    | some row =>
      have hr := hF row List.mem_cons_self
      rw [rowsLoopM, rowsLoop, hr.ofRow]
      cases F.ofRow row with
      | none => rfl
      | some record =>
        show (do
          let dateCounter ← nextCounterM M (some (FM.date record)) prev k
          let posts ← FM.formPostings record ns account dateCounter legacy
          let ts ← rowsLoopM M FM ns account legacy (some (FM.date record)) dateCounter rest
          pure (mkTransaction (FM.date record) none (FM.description record) [posts.1, posts.2] :: ts)) = _
        rw [List.length_cons] at h
        push_cast at h
        rw [hr.date, hr.description]
        rw [nextCounterM_eq M _ _ h0 (by omega), ok_bind]
        have hb : 0 ≤ (if some (F.date record) ≠ prev then 0 else k + 1) ∧
            (if some (F.date record) ≠ prev then 0 else k + 1) + 1 + (rest.length : Int) < 2 ^ 31 := by
          split <;> constructor <;> omega
        simp only
        generalize (if some (F.date record) ≠ prev then 0 else k + 1) = k' at hb
        rw [hr.formPostings record ns account legacy k' hb.1 (by have := hb.2; omega)]
        cases F.formPostings record ns account k' legacy with
        | error e => rfl
        | ok posts =>
          rw [lift_ok, ok_bind, ih (fun row hm => hF row (List.mem_cons_of_mem _ hm)) (some (F.date record)) k' hb.1 hb.2]
          simp only
          cases rowsLoop F ns account legacy (some (F.date record)) k' rest <;> rfl

theorem quantityRecordM_eq (M : Machine) (L : ImportLib) (want : Str) {o : Option (Option Row)}
    (hs : ∀ row, o = some (some row) → ∀ f ∈ row, FewDigits f) : quantityRecordM M L want o = lift (quantityRecord L want o) := by
  unfold quantityRecordM quantityRecord
  rcases o with _ | _ | _ | ⟨h, _ | ⟨a, rest⟩⟩
  · rfl
  · rfl
  · rfl
  · rfl
  · simp only
    rw [gbpValueM_eq M L (hs _ rfl a (by simp))]
    cases gbpValue L a with
    | none => rfl
    | some x =>
      show (if h = want then _ else _) = lift (if h = want then _ else _)
      split <;> rfl

theorem processFileM_eq (M : Machine) (L : ImportLib) (ns account : Str) (legacy : Bool) {rows : List (Option Row)}
    (hs : ∀ row, some row ∈ rows → ∀ f ∈ row, FewDigits f) (h : rows.length < 2 ^ 31) :
    processFileM M L ns account legacy rows = lift (processFile L ns account legacy rows) := by
  unfold processFileM processFile
  rcases rows with _ | ⟨_ | headers, rows⟩
  · rfl
  · rfl
  · have hl : (0 : Int) + 1 + rows.length < 2 ^ 31 := by
      rw [List.length_cons] at h
      omega
    have hs' : ∀ row, some row ∈ rows → ∀ f ∈ row, FewDigits f := fun row hm => hs row (List.mem_cons_of_mem _ hm)
    simp only
    split
    · exact rowsLoopM_eq M (fiveM M L) (five L) ns account legacy rows (fun row hm => ⟨five_ofRowM M L (hs' row hm), rfl, rfl,
        fun r ns account legacy k h0 h => five_formPostingsM M L r ns account legacy h0 h⟩) none 0 (by decide) hl
    · split
      · exact rowsLoopM_eq M (sixM M L) (six L) ns account legacy rows (fun row hm => ⟨six_ofRowM M L (hs' row hm), rfl, rfl,
          fun r ns account legacy k h0 h => six_formPostingsM M L r ns account legacy h0 h⟩) none 0 (by decide) hl
      · rfl

/-- C89 for CSV files: if there are fewer than `2 ^ 31` records and no field has 17 digits in a row then no number gets too large:
however the program is built, it does what the rest of the model says. -/
theorem C89_csv (M : Machine) (L : ImportLib) (fpNs : FpNamespace) (legacy : Bool) {records : List (Option Row)}
    (hs : ∀ row, some row ∈ records → ∀ f ∈ row, FewDigits f) (h : records.length < 2 ^ 31) :
    getTransactionsM M L fpNs legacy records = lift (getTransactions L fpNs legacy records) := by
  have hget : ∀ i row, records[i]? = some (some row) → ∀ f ∈ row, FewDigits f := fun i row he => hs row (List.mem_of_getElem? he)
  unfold getTransactionsM getTransactions
  rw [lift_bind]
  refine congrArg _ (funext fun account => ?_)
  rw [lift_bind, quantityRecordM_eq M L _ fun row he => hget 1 row he]
  refine congrArg _ (funext fun _ => ?_)
  rw [lift_bind, quantityRecordM_eq M L _ fun row he => hget 2 row he]
  refine congrArg _ (funext fun _ => ?_)
  rw [lift_bind]
  refine congrArg _ (funext fun ns => ?_)
  rw [lift_bind, processFileM_eq M L ns account legacy (fun row hm => hs row (List.mem_of_mem_drop hm))
    (by rw [List.length_drop]; omega)]
  rfl

end NationwideCsv

namespace NationwidePdf
open Nationwide NationwideCsv Tesseract

/-! ## Documents -/

theorem horizBoundsM_eq {E : Type} (M : Machine) {w : Word} (h : Small w.left ∧ Small w.width) :
    horizBoundsM (E := E) M w = .ok w.horizBounds := by
  obtain ⟨⟨h1, h2⟩, h3, h4⟩ := h
  unfold horizBoundsM
  rw [M.i32_ok _ (by norm_num at *; omega) (by norm_num at *; omega)]
  rfl

theorem collectWordsM_eq {E : Type} (M : Machine) (col : ColumnPos) {ws : List Word} (h : ∀ w ∈ ws, Small w.left ∧ Small w.width) :
    collectWordsM (E := E) M col ws = .ok ((ws.filter fun w => col.overlaps w.horizBounds).map Word.text) := by
  induction ws with
  | nil => rfl
  | cons w ws ih =>
    rw [collectWordsM, horizBoundsM_eq M (h w List.mem_cons_self), ok_bind, ih fun x hx => h x (List.mem_cons_of_mem _ hx), ok_bind,
      List.filter_cons]
    split <;> rfl

theorem joinWordsM_eq {E : Type} (M : Machine) (col : ColumnPos) {l : Line} (h : SmallLine l) :
    joinWordsM (E := E) M col l = .ok (joinWords col l) := by
  unfold joinWordsM
  rw [collectWordsM_eq M col h.2.2]
  rfl

theorem findInLineM_eq {E : Type} (M : Machine) (idx : Nat) {l : Line} (h : SmallLine l) :
    Columns.findInLineM (E := E) M idx l = .ok (Columns.findInLine idx l) := by
  have hw := h.2.2
  unfold Columns.findInLineM Columns.findInLine
  split
  · rename_i w0 w1 w2 w3 w4 ws e
    rw [e] at hw
    simp only [e]
    split
    · rfl
    · rw [horizBoundsM_eq M (hw w0 (by simp)), ok_bind, horizBoundsM_eq M (hw w4 (by simp))]
      rfl
  · rename_i hne
    split
    · rename_i e
      exact absurd e (hne _ _ _ _ _ _)
    · rfl

theorem findFromM_eq {E : Type} (M : Machine) (idx : Nat) {ls : List Line} (h : ∀ l ∈ ls, SmallLine l) :
    Columns.findFromM (E := E) M idx ls = .ok (Columns.findFrom idx ls) := by
  induction ls generalizing idx with
  | nil => rfl
  | cons l ls ih =>
    rw [Columns.findFromM, Columns.findFrom, findInLineM_eq M idx (h l List.mem_cons_self), ok_bind]
    cases Columns.findInLine idx l with
    | none => exact ih (idx + 1) fun x hx => h x (List.mem_cons_of_mem _ hx)
    | some c => rfl

theorem updateDateM_eq (M : Machine) (L : ImportLib) (col : ColumnPos) {l : Line} (h : SmallLine l) (st : DateState) :
    updateDateM M L col l st = lift (updateDate L col l st) := by
  unfold updateDateM updateDate
  rw [collectWordsM_eq M col h.2.2, ok_bind]
  show (match collectWords col l with | [] => _ | [y] => _ | [d, m] => _ | _ => _) = _
  rcases collectWords col l with _ | ⟨y, _ | ⟨m, _ | ⟨z, rest⟩⟩⟩
  · rfl
  · simp only
    cases L.year y with
    | none => rfl
    | some year =>
      simp only
      split <;> rfl
  · simp only
    cases L.day y <;> cases L.month m <;> cases st.year <;> try rfl
    simp only
    split <;> rfl
  · rfl

/-- What the rest of the model does with a line. -/
def readLine (L : ImportLib) (cols : Columns) (st : DateState) (line : Line) : Except ImportErr (Option TransactionLine × DateState) :=
  match updateDate L cols.date line st with
  | .error e => .error e
  | .ok (.year, st) => .ok (none, st)
  | .ok (_, st) => .ok ((joinWords cols.details line).map fun detail =>
      ⟨st.date, detail, joinWords cols.payments line, joinWords cols.receipts line, joinWords cols.balance line, line.top, line.height⟩, st)

theorem readLineM_eq (M : Machine) (L : ImportLib) (cols : Columns) (st : DateState) {l : Line} (h : SmallLine l) :
    readLineM M L cols st l = lift (readLine L cols st l) := by
  unfold readLineM readLine
  rw [updateDateM_eq M L cols.date h st]
  have hj : ∀ st', (do
      match ← joinWordsM M cols.details l with
      | none => .ok (none, st')
      | some detail => do
        let payment ← joinWordsM M cols.payments l
        let receipt ← joinWordsM M cols.receipts l
        let balance ← joinWordsM M cols.balance l
        pure (some (TransactionLine.mk st'.date detail payment receipt balance l.top l.height), st') :
        Except (Fault ImportErr) (Option TransactionLine × DateState)) =
      .ok ((joinWords cols.details l).map fun detail =>
        ⟨st'.date, detail, joinWords cols.payments l, joinWords cols.receipts l, joinWords cols.balance l, l.top, l.height⟩, st') := by
    intro st'
    rw [joinWordsM_eq M _ h, ok_bind]
    cases joinWords cols.details l with
    | none => rfl
    | some d =>
      simp only
      rw [joinWordsM_eq M _ h, ok_bind, joinWordsM_eq M _ h, ok_bind, joinWordsM_eq M _ h, ok_bind]
      rfl
  cases updateDate L cols.date l st with
  | error e => rfl
  | ok x =>
    obtain ⟨_ | _ | _, st'⟩ := x
    · exact hj st'
    · rfl
    · exact hj st'

theorem readLinesLoop_step (L : ImportLib) (cols : Columns) (st : DateState) (line : Line) (ls : List Line) :
    readLinesLoop L cols st (line :: ls) = (do
      let x ← readLine L cols st line
      let rest ← readLinesLoop L cols x.2 ls
      pure (x.1.toList ++ rest)) := by
  rw [readLinesLoop]
  unfold readLine
  cases updateDate L cols.date line st with
  | error e => rfl
  | ok x =>
    obtain ⟨_ | _ | _, st'⟩ := x <;> simp only [ok_bind]
    · cases readLinesLoop L cols st' ls with
      | error e => rfl
      | ok rest => cases joinWords cols.details line <;> rfl
    · cases readLinesLoop L cols st' ls <;> rfl
    · cases readLinesLoop L cols st' ls with
      | error e => rfl
      | ok rest => cases joinWords cols.details line <;> rfl

theorem readLinesLoopM_eq (M : Machine) (L : ImportLib) (cols : Columns) (st : DateState) {ls : List Line} (h : ∀ l ∈ ls, SmallLine l) :
    readLinesLoopM M L cols st ls = lift (readLinesLoop L cols st ls) := by
  induction ls generalizing st with
  | nil => rfl
  | cons l ls ih =>
    rw [readLinesLoop_step, readLinesLoopM, readLineM_eq M L cols st (h l List.mem_cons_self), lift_bind]
    refine congrArg _ (funext fun x => ?_)
    rw [lift_bind]
    simp only
    rw [ih x.2 fun y hy => h y (List.mem_cons_of_mem _ hy)]
    rfl

theorem readLinesM_eq (M : Machine) (L : ImportLib) (cols : Columns) {p : Paragraph} (h : ∀ l ∈ p.lines, SmallLine l) :
    readLinesM M L cols p = lift (readLines L cols p) :=
  readLinesLoopM_eq M L cols _ fun l hl => h l (List.mem_of_mem_drop hl)

/-- The lines of a table come from lines of the paragraph, each from one of its own. -/
theorem readLinesLoop_lines {L : ImportLib} {cols : Columns} {st : DateState} {ls : List Line} {ts : List TransactionLine}
    (h : readLinesLoop L cols st ls = .ok ts) : ts.length ≤ ls.length ∧ ∀ t ∈ ts, ∃ l ∈ ls, t.top = l.top ∧ t.height = l.height := by
  induction ls generalizing st ts with
  | nil =>
    cases h
    exact ⟨Nat.le_refl _, fun t ht => by cases ht⟩
  | cons l ls ih =>
    rw [readLinesLoop_step] at h
    unfold readLine at h
    have key : ∀ (out : Option TransactionLine) (st' : DateState), (∀ t ∈ out, t.top = l.top ∧ t.height = l.height) →
        ((do let rest ← readLinesLoop L cols st' ls; pure (out.toList ++ rest)) : Except ImportErr _) = .ok ts →
        ts.length ≤ (l :: ls).length ∧ ∀ t ∈ ts, ∃ l' ∈ l :: ls, t.top = l'.top ∧ t.height = l'.height := by
      intro out st' hout he
      cases hr : readLinesLoop L cols st' ls with
      | error e => rw [hr] at he; cases he
      | ok rest =>
        rw [hr] at he
        cases he
        obtain ⟨h1, h2⟩ := ih hr
        constructor
        · rw [List.length_append, List.length_cons]
          have : out.toList.length ≤ 1 := by cases out <;> simp
          omega
        · intro t ht
          rcases List.mem_append.1 ht with ht | ht
          · obtain ⟨a, b⟩ := hout t (Option.mem_toList.1 ht)
            exact ⟨l, List.mem_cons_self, a, b⟩
          · obtain ⟨l', hl', e⟩ := h2 t ht
            exact ⟨l', List.mem_cons_of_mem _ hl', e⟩
    have hout : ∀ (st' : DateState), ∀ t ∈ ((joinWords cols.details l).map fun detail => (⟨st'.date, detail, joinWords cols.payments l,
        joinWords cols.receipts l, joinWords cols.balance l, l.top, l.height⟩ : TransactionLine)), t.top = l.top ∧ t.height = l.height := by
      intro st' t ht
      obtain ⟨d, _, rfl⟩ := Option.map_eq_some_iff.1 ht
      exact ⟨rfl, rfl⟩
    cases hu : updateDate L cols.date l st with
    | error e => rw [hu] at h; cases h
    | ok x =>
      rw [hu] at h
      obtain ⟨_ | _ | _, st'⟩ := x
      · exact key _ st' (hout st') h
      · exact key none st' (fun t ht => by cases ht) h
      · exact key _ st' (hout st') h

/-- The counters are not too large yet. -/
def Acc.Below (acc : Acc) (n : Int) : Prop :=
  0 ≤ acc.dateCounter ∧ acc.dateCounter ≤ n ∧ ∀ t, acc.curTrn = some t → 0 ≤ t.dateCounter ∧ t.dateCounter ≤ n

theorem buildM_eq (M : Machine) (L : ImportLib) (t : TransactionBuilder) (ns : Str) (h0 : 0 ≤ t.dateCounter) (h : t.dateCounter + 1 < 2 ^ 31) :
    t.buildM M L ns = lift (t.build L ns) := by
  unfold TransactionBuilder.buildM TransactionBuilder.build
  rw [lift_bind]
  refine congrArg _ (funext fun b => ?_)
  simp only
  rw [seqValueM_eq M ns h0 h]
  rfl

theorem flushM_eq (M : Machine) (L : ImportLib) (ns : Str) {acc : Acc} {n : Int} (h : acc.Below n) (hn : n + 1 < 2 ^ 31) :
    acc.flushM M L ns = lift (acc.flush L ns) := by
  unfold Acc.flushM Acc.flush
  cases hc : acc.curTrn with
  | none => rfl
  | some t =>
    obtain ⟨h1, h2⟩ := h.2.2 t hc
    simp only
    rw [buildM_eq M L t ns h1 (by omega)]
    cases t.build L ns <;> rfl

theorem flush_below {L : ImportLib} {ns : Str} {acc acc' : Acc} {n : Int} (h : acc.Below n) (hf : acc.flush L ns = .ok acc') :
    acc'.Below n ∧ acc'.prevDate = acc.prevDate ∧ acc'.dateCounter = acc.dateCounter := by
  unfold Acc.flush at hf
  split at hf
  · cases hf; exact ⟨h, rfl, rfl⟩
  · split at hf
    · cases hf
    · cases hf
      exact ⟨⟨h.1, h.2.1, fun t ht => by cases ht⟩, rfl, rfl⟩

theorem beginM_eq (M : Machine) (L : ImportLib) (ns : Str) {acc : Acc} (line : TransactionLine) (value : Str) (type_ : TransactionType)
    {n : Int} (h : acc.Below n) (hn : n + 1 < 2 ^ 31) :
    acc.beginM M L ns line value type_ = lift (acc.begin L ns line value type_) := by
  unfold Acc.beginM Acc.begin
  rw [flushM_eq M L ns h hn]
  cases hf : acc.flush L ns with
  | error e => rfl
  | ok acc' =>
    obtain ⟨hb, _⟩ := flush_below h hf
    rw [lift_ok, ok_bind]
    rw [nextCounterM_eq M _ _ hb.1 (by have := hb.2.1; omega), ok_bind]
    simp only
    cases parseAmount L value with
    | error e => rfl
    | ok amount =>
      rw [lift_ok, ok_bind]
      simp only
      cases TransactionBuilder.new line.impliedDate (if line.impliedDate ≠ acc'.prevDate then 0 else acc'.dateCounter + 1) amount type_
        line.detail <;> rfl

theorem begin_below {L : ImportLib} {ns : Str} {acc acc' : Acc} {line : TransactionLine} {value : Str} {type_ : TransactionType} {n : Int}
    (h : acc.Below n) (hf : acc.begin L ns line value type_ = .ok acc') : acc'.Below (n + 1) := by
  unfold Acc.begin at hf
  split at hf
  · cases hf
  · rename_i acc1 hfl
    obtain ⟨⟨h1, h2, _⟩, _⟩ := flush_below h hfl
    simp only at hf
    split at hf
    · cases hf
    · split at hf
      · cases hf
      · rename_i t ht
        cases hf
        have hk : 0 ≤ (if line.impliedDate ≠ acc1.prevDate then 0 else acc1.dateCounter + 1) ∧
            (if line.impliedDate ≠ acc1.prevDate then 0 else acc1.dateCounter + 1) ≤ n + 1 := by
          split <;> constructor <;> omega
        refine ⟨hk.1, hk.2, ?_⟩
        rintro t' ⟨⟩
        unfold TransactionBuilder.new at ht
        split at ht
        · cases ht
        · split at ht
          · cases ht
          · cases ht
            exact hk

theorem finishLine_below {L : ImportLib} {acc acc' : Acc} {line : TransactionLine} {n : Int} (h : acc.Below n)
    (hf : acc.finishLine L line = .ok acc') : acc'.Below n := by
  unfold Acc.finishLine at hf
  simp only at hf
  split at hf
  · rename_i t b ht _
    split at hf
    · cases hf
    · cases hf
      refine ⟨h.1, h.2.1, ?_⟩
      rintro t' ⟨⟩
      exact h.2.2 t ht
  · cases hf
    exact h

theorem extend_counter {L : ImportLib} {t t' : TransactionBuilder} {d : Str} (h : t.extend L d = .ok t') : t'.dateCounter = t.dateCounter := by
  unfold TransactionBuilder.extend at h
  split at h
  · cases h; rfl
  · split at h
    · split at h
      · cases h
      · cases h; rfl
    · cases h; rfl

theorem feedLineM_eq (M : Machine) (L : ImportLib) (ns : Str) {acc : Acc} (line : TransactionLine) {n : Int} (h : acc.Below n)
    (hn : n + 1 < 2 ^ 31) : acc.feedLineM M L ns line = lift (acc.feedLine L ns line) := by
  unfold Acc.feedLineM Acc.feedLine
  cases line.payment with
  | some p =>
    cases line.receipt with
    | some r => rfl
    | none =>
      simp only
      rw [beginM_eq M L ns line p .payment h hn]
      cases acc.begin L ns line p .payment <;> rfl
  | none =>
    cases line.receipt with
    | some r =>
      simp only
      rw [beginM_eq M L ns line r .receipt h hn]
      cases acc.begin L ns line r .receipt <;> rfl
    | none =>
      simp only
      cases acc.curTrn with
      | none => rfl
      | some t =>
        simp only
        cases t.extend L line.detail <;> rfl

theorem below_mono {acc : Acc} {n m : Int} (h : acc.Below n) (hm : n ≤ m) : acc.Below m :=
  ⟨h.1, h.2.1.trans hm, fun t ht => ⟨(h.2.2 t ht).1, (h.2.2 t ht).2.trans hm⟩⟩

theorem feedLine_below {L : ImportLib} {ns : Str} {acc acc' : Acc} {line : TransactionLine} {n : Int} (h : acc.Below n)
    (hf : acc.feedLine L ns line = .ok acc') : acc'.Below (n + 1) := by
  unfold Acc.feedLine at hf
  split at hf
  · cases hf
  · split at hf
    · cases hf
    · rename_i hb
      exact finishLine_below (begin_below h hb) hf
  · split at hf
    · cases hf
    · rename_i hb
      exact finishLine_below (begin_below h hb) hf
  · split at hf
    · cases hf
      exact below_mono h (by omega)
    · rename_i t ht
      split at hf
      · cases hf
      · rename_i t' he
        refine finishLine_below (acc := { acc with curTrn := some t' }) (below_mono ⟨h.1, h.2.1, ?_⟩ (by omega)) hf
        rintro x ⟨⟩
        rw [extend_counter he]
        exact h.2.2 t ht

/-- Whether a line is far below the one before. -/
def farBelow (prev : Option TransactionLine) (line : TransactionLine) : Bool :=
  match prev with
  | some p => decide (line.top > p.top + p.height * 2)
  | none => false

theorem farBelowM_eq {E : Type} (M : Machine) (prev : Option TransactionLine) (line : TransactionLine)
    (h : ∀ p, prev = some p → Small p.top ∧ Small p.height) : farBelowM (E := E) M prev line = .ok (farBelow prev line) := by
  unfold farBelowM
  cases prev with
  | none => rfl
  | some p =>
    obtain ⟨⟨h1, h2⟩, h3, h4⟩ := h p rfl
    simp only
    rw [M.i32_ok _ (by norm_num at *; omega) (by norm_num at *; omega), ok_bind,
      M.i32_ok _ (by norm_num at *; omega) (by norm_num at *; omega)]
    rfl

theorem linesLoopM_eq (M : Machine) (L : ImportLib) (ns : Str) (prev : Option TransactionLine) (acc : Acc) (ls : List TransactionLine)
    {n : Int} (hp : ∀ p, prev = some p → Small p.top ∧ Small p.height) (hl : ∀ l ∈ ls, Small l.top ∧ Small l.height) (h : acc.Below n)
    (hn : n + ls.length + 1 < 2 ^ 31) : linesLoopM M L ns prev acc ls = lift (linesLoop L ns prev acc ls) ∧
      ∀ acc', linesLoop L ns prev acc ls = .ok acc' → acc'.Below (n + ls.length) := by
  induction ls generalizing prev acc n with
  | nil =>
    refine ⟨rfl, fun acc' he => ?_⟩
    cases he
    exact below_mono h (by simp)
  | cons l ls ih =>
    have hstep : linesLoop L ns prev acc (l :: ls) =
        if farBelow prev l then .ok acc
        else match acc.feedLine L ns l with
          | .error e => .error e
          | .ok acc => linesLoop L ns (some l) acc ls := by cases prev <;> rfl
    have hstepM : linesLoopM M L ns prev acc (l :: ls) = (do
        if ← farBelowM M prev l then .ok acc
        else
          let acc ← acc.feedLineM M L ns l
          linesLoopM M L ns (some l) acc ls) := by cases prev <;> rfl
    rw [hstepM, hstep, farBelowM_eq M prev l hp, ok_bind]
    rw [List.length_cons] at hn ⊢
    push_cast at hn ⊢
    generalize farBelow prev l = far
    cases far with
    | true =>
      refine ⟨rfl, fun acc' he => ?_⟩
      cases he
      exact below_mono h (by omega)
    | false =>
      simp only [Bool.false_eq_true, if_false]
      rw [feedLineM_eq M L ns l h (by omega)]
      cases hf : acc.feedLine L ns l with
      | error e => exact ⟨rfl, fun acc' he => by cases he⟩
      | ok acc1 =>
        obtain ⟨h1, h2⟩ := ih (some l) acc1 (n := n + 1) (by rintro p ⟨⟩; exact hl l List.mem_cons_self)
          (fun x hx => hl x (List.mem_cons_of_mem _ hx)) (feedLine_below h hf) (by omega)
        refine ⟨h1, fun acc' he => below_mono (h2 acc' he) (by omega)⟩

/-- How many lines there are in paragraphs. -/
def lineCount (ps : List Paragraph) : Nat := (ps.flatMap Paragraph.lines).length

theorem paragraphsLoopM_eq (M : Machine) (L : ImportLib) (ns : Str) (acc : Acc) (ps : List Paragraph) {n : Int}
    (hs : ∀ p ∈ ps, ∀ l ∈ p.lines, SmallLine l) (h : acc.Below n) (hn : n + lineCount ps + 1 < 2 ^ 31) :
    paragraphsLoopM M L ns acc ps =
      lift (tablesLoop L ns acc (ps.filterMap fun p => (Columns.findInParagraph p).map fun c => (c, p))) ∧
    ∀ acc', tablesLoop L ns acc (ps.filterMap fun p => (Columns.findInParagraph p).map fun c => (c, p)) = .ok acc' →
      acc'.Below (n + lineCount ps) := by
  induction ps generalizing acc n with
  | nil =>
    refine ⟨rfl, fun acc' he => ?_⟩
    cases he
    exact below_mono h (by omega)
  | cons p ps ih =>
    have hc : lineCount (p :: ps) = p.lines.length + lineCount ps := by
      unfold lineCount
      rw [List.flatMap_cons, List.length_append]
    rw [hc] at hn ⊢
    push_cast at hn ⊢
    have hs' : ∀ q ∈ ps, ∀ l ∈ q.lines, SmallLine l := fun q hq => hs q (List.mem_cons_of_mem _ hq)
    rw [paragraphsLoopM, findFromM_eq M 0 (hs p List.mem_cons_self), ok_bind, List.filterMap_cons]
    cases hf : Columns.findInParagraph p with
    | none =>
      rw [show Columns.findFrom 0 p.lines = none from hf]
      obtain ⟨h1, h2⟩ := ih acc (n := n) hs' h (by omega)
      exact ⟨h1, fun acc' he => below_mono (h2 acc' he) (by omega)⟩
    | some c =>
      rw [show Columns.findFrom 0 p.lines = some c from hf]
      simp only [Option.map_some]
      rw [tablesLoop, readLinesM_eq M L c (hs p List.mem_cons_self), lift_bind]
      cases hr : readLines L c p with
      | error e => exact ⟨rfl, fun acc' he => by cases he⟩
      | ok lines =>
        obtain ⟨hlen, hfrom⟩ := readLinesLoop_lines hr
        rw [List.length_drop] at hlen
        have hsm : ∀ l ∈ lines, Small l.top ∧ Small l.height := by
          intro l hl
          obtain ⟨l', hl', e1, e2⟩ := hfrom l hl
          obtain ⟨a, b, _⟩ := hs p List.mem_cons_self l' (List.mem_of_mem_drop hl')
          rw [e1, e2]
          exact ⟨a, b⟩
        obtain ⟨h1, h2⟩ := linesLoopM_eq M L ns none acc lines (n := n) (fun p hp => by cases hp) hsm h (by omega)
        simp only [lift_ok, ok_bind, h1, lift_bind]
        unfold linesToTransactions
        cases hl : linesLoop L ns none acc lines with
        | error e => exact ⟨rfl, fun acc' he => by cases he⟩
        | ok acc1 =>
          obtain ⟨h3, h4⟩ := ih acc1 (n := n + p.lines.length) hs' (below_mono (h2 acc1 hl) (by omega)) (by omega)
          simp only [lift_ok, ok_bind]
          exact ⟨h3, fun acc' he => below_mono (h4 acc' he) (by omega)⟩

/-- C89 for documents: if there are fewer than `2 ^ 31 - 1` lines and all positions are at most `2 ^ 29` then no number gets too large:
however the program is built, it does what the rest of the model says. -/
theorem C89_pdf (M : Machine) (L : ImportLib) (fpNs : FpNamespace) {doc : Document} (hs : ∀ p ∈ doc.paragraphs, ∀ l ∈ p.lines, SmallLine l)
    (h : lineCount doc.paragraphs + 1 < 2 ^ 31) : getTransactionsM M L fpNs doc = lift (getTransactions L fpNs doc) := by
  unfold getTransactionsM getTransactions
  cases findAccountName L doc with
  | none => rfl
  | some account =>
    simp only
    rw [lift_bind]
    refine congrArg _ (funext fun ns => ?_)
    have hb : Acc.new.Below 0 := ⟨by decide, by decide, fun t ht => by cases ht⟩
    have ht : doc.pages.flatMap findTables = doc.paragraphs.filterMap fun p => (Columns.findInParagraph p).map fun c => (c, p) := by
      unfold Document.paragraphs findTables
      rw [List.filterMap_flatMap, List.flatMap_assoc]
      exact List.flatMap_congr fun page _ => (List.filterMap_flatMap ..)
    obtain ⟨h1, h2⟩ := paragraphsLoopM_eq M L ns Acc.new doc.paragraphs hs hb (by omega)
    rw [← ht] at h1 h2
    rw [lift_bind, h1]
    cases hl : tablesLoop L ns Acc.new (doc.pages.flatMap findTables) with
    | error e => rfl
    | ok acc =>
      rw [lift_ok, ok_bind, ok_bind, lift_bind, flushM_eq M L ns (h2 acc hl) (by omega)]
      rfl

end NationwidePdf

namespace TzAbbr

/-- C89 for time zones: without any condition. -/
theorem C89_offset (M : Machine) (s : Str) : parseUtcOffsetM M s = lift (parseUtcOffset s) := by
  have e1 : parseUtcOffsetM M s = (match parts s with
    | none => .error (.err .format)
    | some (positive, hours, minutes) =>
      if minutes > 59 then .error (.err .minutes)
      else do
        let sign : Int := if positive then 1 else -1
        let h ← M.i32 (hours * 3600)
        let m ← M.i32 (minutes * 60)
        let sum ← M.i32 (h + m)
        let secs ← M.i32 (sign * sum)
        if -86400 < secs ∧ secs < 86400 then .ok secs else .error (.err .range)) := rfl
  have e2 : parseUtcOffset s = (match parts s with
    | none => .error .format
    | some (positive, hours, minutes) =>
      if minutes > 59 then .error .minutes
      else
        let sign : Int := if positive then 1 else -1
        let secs := sign * (hours * 3600 + minutes * 60)
        if -86400 < secs ∧ secs < 86400 then .ok secs else .error .range) := rfl
  rw [e1, e2]
  cases hp : parts s with
  | none => rfl
  | some x =>
    obtain ⟨positive, hours, minutes⟩ := x
    obtain ⟨h', m', ⟨hh, hm, _⟩, rfl, rfl⟩ := (parts_iff s positive hours minutes).1 hp
    simp only
    split
    · rfl
    · rw [M.i32_ok _ (by norm_num; omega) (by norm_num; omega), ok_bind, M.i32_ok _ (by norm_num; omega) (by norm_num; omega), ok_bind,
        M.i32_ok _ (by norm_num; omega) (by norm_num; omega), ok_bind]
      have hr : ∀ x : Int, -2 ^ 31 ≤ x → x < 2 ^ 31 → ((do
          let secs ← M.i32 x
          if -86400 < secs ∧ secs < 86400 then .ok secs else .error (.err .range)) : Except (Fault OffsetErr) Int) =
          lift (if -86400 < x ∧ x < 86400 then .ok x else .error .range) := by
        intro x h1 h2
        rw [M.i32_ok _ h1 h2, ok_bind]
        by_cases hx : -86400 < x ∧ x < 86400
        · rw [if_pos hx, if_pos hx, lift_ok]
        · rw [if_neg hx, if_neg hx, lift_error]
      exact hr _ (by cases positive <;> norm_num <;> omega) (by cases positive <;> norm_num <;> omega)

end TzAbbr
end Verif

namespace Verif

/-! ## Examples -/

/-- Builds that check for overflow. -/
def strictMachine : Machine where
  i32 x := if -2 ^ 31 ≤ x ∧ x < 2 ^ 31 then .ok x else .error .overflow
  i64 x := if -2 ^ 63 ≤ x ∧ x < 2 ^ 63 then .ok x else .error .overflow
  i32_ok _ h1 h2 := if_pos ⟨h1, h2⟩
  i64_ok _ h1 h2 := if_pos ⟨h1, h2⟩

/-- Builds whose numbers wrap around. -/
def wrappingMachine : Machine where
  i32 x := .ok ((x + 2 ^ 31) % 2 ^ 32 - 2 ^ 31)
  i64 x := .ok ((x + 2 ^ 63) % 2 ^ 64 - 2 ^ 63)
  i32_ok x h1 h2 := congrArg Except.ok (by norm_num at *; omega)
  i64_ok x h1 h2 := congrArg Except.ok (by norm_num at *; omega)

theorem few_of_short {s : Str} (h : s.length ≤ 16) : FewDigits s := fun _ hd _ => hd.length_le.trans h

/-- A field with at most 16 digits has no 17 digits in a row. -/
theorem few_of_count {s : Str} (h : (s.filter Char.isDigit).length ≤ 16) : FewDigits s := by
  intro d hd hall
  have : d.filter Char.isDigit = d := List.filter_eq_self.2 hall
  rw [← this]
  exact (hd.sublist.filter _).length_le.trans h

set_option maxRecDepth 100000 in
/-- The conditions hold for the files and the document of the tests, and both builds import them. -/
example : (∀ row, some row ∈ Ex.file5 → ∀ f ∈ row, FewDigits f) ∧ Ex.file5.length < 2 ^ 31 ∧
    (NationwideCsv.getTransactions Ex.plainLib .generated false Ex.file5).isOk = true ∧
    (NationwideCsv.getTransactionsM strictMachine Ex.plainLib .generated false Ex.file5).isOk = true ∧
    (NationwideCsv.getTransactionsM wrappingMachine Ex.plainLib .generated false Ex.file5).isOk = true := by
  have h : ∀ o ∈ Ex.file5, ∀ row ∈ o, ∀ f ∈ row, (f.filter Char.isDigit).length ≤ 16 := by decide +kernel
  have hf : ∀ row, some row ∈ Ex.file5 → ∀ f ∈ row, FewDigits f := fun row hr f hm => few_of_count (h _ hr row rfl f hm)
  have hok : (NationwideCsv.getTransactions Ex.plainLib .generated false Ex.file5).isOk = true := by decide +kernel
  refine ⟨hf, by decide, hok, ?_, ?_⟩ <;>
  · rw [NationwideCsv.C89_csv _ _ _ _ hf (by decide)]
    cases e : NationwideCsv.getTransactions Ex.plainLib .generated false Ex.file5 with
    | ok i => rfl
    | error e' => rw [e] at hok; cases hok

instance (x : Int) : Decidable (Small x) := inferInstanceAs (Decidable (_ ∧ _))

instance (l : Tesseract.Line) : Decidable (SmallLine l) := inferInstanceAs (Decidable (_ ∧ _ ∧ _))

set_option maxRecDepth 100000 in
/-- The conditions hold for a statement of two pages, and both builds import it. -/
example : (∀ p ∈ (Ex.pdfDoc Ex.pdfPage1 Ex.pdfPage2).paragraphs, ∀ l ∈ p.lines, SmallLine l) ∧
    NationwidePdf.lineCount (Ex.pdfDoc Ex.pdfPage1 Ex.pdfPage2).paragraphs + 1 < 2 ^ 31 ∧
    (NationwidePdf.getTransactionsM strictMachine Ex.plainLib .generated (Ex.pdfDoc Ex.pdfPage1 Ex.pdfPage2)).isOk = true ∧
    (NationwidePdf.getTransactionsM wrappingMachine Ex.plainLib .generated (Ex.pdfDoc Ex.pdfPage1 Ex.pdfPage2)).isOk = true := by
  have hs : ∀ p ∈ (Ex.pdfDoc Ex.pdfPage1 Ex.pdfPage2).paragraphs, ∀ l ∈ p.lines, SmallLine l := by decide +kernel
  have hl : NationwidePdf.lineCount (Ex.pdfDoc Ex.pdfPage1 Ex.pdfPage2).paragraphs + 1 < 2 ^ 31 := by decide +kernel
  have hok : (NationwidePdf.getTransactions Ex.plainLib .generated (Ex.pdfDoc Ex.pdfPage1 Ex.pdfPage2)).isOk = true := by decide +kernel
  refine ⟨hs, hl, ?_, ?_⟩ <;>
  · rw [NationwidePdf.C89_pdf _ _ _ hs hl]
    cases e : NationwidePdf.getTransactions Ex.plainLib .generated (Ex.pdfDoc Ex.pdfPage1 Ex.pdfPage2) with
    | ok i => rfl
    | error e' => rw [e] at hok; cases hok

/-- The conditions matter: a word at the largest position makes builds that check for overflow stop, and for others it is not in its
column. -/
theorem C89_position : let w : Tesseract.Word := ⟨1, 2147483647, 1, "Date".toList⟩
    NationwidePdf.collectWordsM (E := ImportErr) strictMachine ⟨2147483600, 2147483700⟩ [w] = .error .overflow ∧
    NationwidePdf.collectWordsM (E := ImportErr) wrappingMachine ⟨2147483600, 2147483700⟩ [w] = .ok [] ∧
    NationwidePdf.collectWords ⟨2147483600, 2147483700⟩ ⟨1, 0, 0, [w]⟩ = ["Date".toList] := by decide +kernel

/-- The conditions matter: with a sum of 17 digits of pounds, builds that check for overflow stop and others go on with another sum. -/
theorem C89_large :
    NationwideCsv.gbpValueM strictMachine Ex.plainLib "£99999999999999999.00".toList = .error .overflow ∧
    NationwideCsv.gbpValueM wrappingMachine Ex.plainLib "£99999999999999999.00".toList = .ok ⟨⟨false, 8446744073709551716, 2⟩, NationwideCsv.gbp⟩ ∧
    NationwideCsv.gbpValue Ex.plainLib "£99999999999999999.00".toList = none := by decide +kernel

end Verif
