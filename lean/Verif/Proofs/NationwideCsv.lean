import Verif.Proofs.Import
import Verif.Props.Fingerprint
import Verif.Props.Money

/-!
# Rows of Nationwide CSV files
-/

namespace Verif
open Spec
namespace NationwideCsv

/-- The counters of the loop, from the dates. -/
def counts : Option Date → Int → List Date → List Int
  | _, _, [] => []
  | prev, k, d :: ds =>
    let k' := if some d ≠ prev then 0 else k + 1
    k' :: counts (some d) k' ds

theorem counts_length (prev : Option Date) (k : Int) (ds : List Date) : (counts prev k ds).length = ds.length := by
  induction ds generalizing prev k with
  | nil => rfl
  | cons d ds ih => rw [counts, List.length_cons, List.length_cons, ih]

/-- The counter after the dates `before`. -/
def CountOk (before : List Date) (prev : Option Date) (k : Int) : Prop :=
  prev = before.getLast? ∧ ∀ b x, before = b ++ [x] → k = ((b.reverse.takeWhile (· = x)).length : Int)

theorem counts_eq (before ds : List Date) (prev : Option Date) (k : Int) (h : CountOk before prev k) (i : Nat) (hi : i < ds.length) :
    (counts prev k ds)[i]? = some (sinceChange (before ++ ds) (before.length + i) : Int) := by
  induction ds generalizing before prev k i with
  | nil => cases hi
  | cons d ds ih =>
    have hk : (if some d ≠ prev then (0 : Int) else k + 1) = ((before.reverse.takeWhile (· = d)).length : Int) := by
      obtain ⟨h1, h2⟩ := h
      rcases List.eq_nil_or_concat before with hb | ⟨b, x, hb⟩
      · subst hb; subst h1; simp
      · rw [List.concat_eq_append] at hb
        rw [h2 b x hb, h1, hb]
        rw [List.getLast?_concat, List.reverse_append, List.reverse_singleton, List.singleton_append, List.takeWhile_cons]
        by_cases hd : d = x
        · subst hd; simp
        · have hx : x ≠ d := fun e => hd e.symm
          simp [hd, hx]
    have hn : CountOk (before ++ [d]) (some d) (if some d ≠ prev then (0 : Int) else k + 1) := by
      refine ⟨by rw [List.getLast?_concat], fun b x hb => ?_⟩
      obtain ⟨e1, e2⟩ := List.append_inj' hb rfl
      subst e1
      obtain rfl := (List.cons.inj e2).1
      exact hk
    cases i with
    | zero =>
      rw [counts, List.getElem?_cons_zero]
      congr 1
      unfold sinceChange
      rw [Nat.add_zero, List.getElem?_append_right (Nat.le_refl _), Nat.sub_self, List.getElem?_cons_zero]
      simp only [List.take_left']
      exact hk
    | succ i =>
      have := ih (before ++ [d]) _ _ hn i (by simpa using hi)
      rw [counts, List.getElem?_cons_succ, this, List.append_assoc, List.length_append, List.length_singleton, Nat.add_assoc,
        Nat.add_comm 1]
      rfl

/-- The loop succeeds exactly if all rows can be read and make postings. -/
theorem rowsLoop_iff {T : Type} (F : Format T) (ns account : Str) (legacy : Bool) (prev : Option Date) (k : Int) (rows : List (Option Row))
    (ts : List Transaction) : rowsLoop F ns account legacy prev k rows = .ok ts ↔
      ∃ rs : List T, rows.map (fun o => o.bind F.ofRow) = rs.map some ∧ ts.length = rs.length ∧
        ∀ i (h : i < rs.length), ∃ p q n, (counts prev k (rs.map F.date))[i]? = some n ∧
          F.formPostings rs[i] ns account n legacy = .ok (p, q) ∧
          ts[i]? = some (mkTransaction (F.date rs[i]) none (F.description rs[i]) [p, q]) := by
  induction rows generalizing prev k ts with
  | nil =>
    unfold rowsLoop
    constructor
    · intro h; cases h; exact ⟨[], rfl, rfl, fun i h => absurd h (Nat.not_lt_zero _)⟩
    · rintro ⟨rs, h1, h2, _⟩
      obtain rfl := List.map_eq_nil_iff.1 h1.symm
      rw [List.length_eq_zero_iff.1 h2]
  | cons o rows ih =>
    cases o with
    | none =>
      refine iff_of_false (by intro h; cases h) ?_
      rintro ⟨rs, h1, _⟩
      cases rs with
      | nil => cases h1
      | cons r rs => injection h1 with h1 _; cases h1
    | some row =>
      unfold rowsLoop
      cases hr : F.ofRow row with
      | none =>
        refine iff_of_false (by intro h; cases h) ?_
        rintro ⟨rs, h1, _⟩
        cases rs with
        | nil => cases h1
        | cons r rs => injection h1 with h1 _; change F.ofRow row = _ at h1; rw [hr] at h1; cases h1
      | some r =>
        simp only
        constructor
        · intro h
          cases hf : F.formPostings r ns account (if some (F.date r) ≠ prev then 0 else k + 1) legacy with
          | error e => rw [hf] at h; cases h
          | ok pq =>
            obtain ⟨p, q⟩ := pq
            rw [hf] at h
            simp only at h
            cases hl : rowsLoop F ns account legacy (some (F.date r)) (if some (F.date r) ≠ prev then 0 else k + 1) rows with
            | error e => rw [hl] at h; cases h
            | ok ts' =>
              rw [hl] at h
              cases h
              obtain ⟨rs, h1, h2, h3⟩ := (ih _ _ _).1 hl
              refine ⟨r :: rs, by rw [List.map_cons, List.map_cons, h1, Option.bind_some, hr], by rw [List.length_cons, List.length_cons, h2], ?_⟩
              intro i hi
              cases i with
              | zero => exact ⟨p, q, _, rfl, hf, rfl⟩
              | succ i =>
                obtain ⟨p, q, n, g1, g2, g3⟩ := h3 i (by simpa using hi)
                exact ⟨p, q, n, g1, g2, g3⟩
        · rintro ⟨rs, h1, h2, h3⟩
          cases rs with
          | nil => cases h1
          | cons r' rs =>
            injection h1 with e1 h1
            change F.ofRow row = _ at e1
            rw [hr] at e1
            cases e1
            obtain ⟨p, q, n, g1, g2, g3⟩ := h3 0 (by simp)
            cases g1
            cases ts with
            | nil => cases h2
            | cons t ts =>
              rw [show F.formPostings r ns account (if some (F.date r) ≠ prev then 0 else k + 1) legacy = .ok (p, q) from g2]
              simp only
              have hl := (ih (some (F.date r)) (if some (F.date r) ≠ prev then 0 else k + 1) ts).2 ⟨rs, h1, by simpa using h2, fun i hi => by
                obtain ⟨p, q, n, g1, g2, g3⟩ := h3 (i + 1) (by simpa using hi)
                exact ⟨p, q, n, g1, g2, g3⟩⟩
              rw [hl]
              cases g3
              rfl

theorem processRows_iff {T : Type} (F : Format T) (ns account : Str) (legacy : Bool) (rows : List (Option Row)) (ts : List Transaction) :
    processRows F ns account legacy rows = .ok ts ↔
      ∃ rs : List T, rows.map (fun o => o.bind F.ofRow) = rs.map some ∧ ts.length = rs.length ∧
        ∀ i (h : i < rs.length), ∃ p q, F.formPostings rs[i] ns account (sinceChange (rs.map F.date) i) legacy = .ok (p, q) ∧
          ts[i]? = some (mkTransaction (F.date rs[i]) none (F.description rs[i]) [p, q]) := by
  unfold processRows
  rw [rowsLoop_iff]
  have hc : ∀ (rs : List T) i, i < rs.length → (counts none 0 (rs.map F.date))[i]? = some (sinceChange (rs.map F.date) i : Int) := by
    intro rs i hi
    have := counts_eq [] (rs.map F.date) none 0 ⟨rfl, fun b x hb => by simp at hb⟩ i (by rw [List.length_map]; exact hi)
    simpa using this
  constructor
  · rintro ⟨rs, h1, h2, h3⟩
    refine ⟨rs, h1, h2, fun i hi => ?_⟩
    obtain ⟨p, q, n, g1, g2, g3⟩ := h3 i hi
    rw [hc rs i hi] at g1
    cases g1
    exact ⟨p, q, g2, g3⟩
  · rintro ⟨rs, h1, h2, h3⟩
    refine ⟨rs, h1, h2, fun i hi => ?_⟩
    obtain ⟨p, q, g2, g3⟩ := h3 i hi
    exact ⟨p, q, _, hc rs i hi, g2, g3⟩

theorem seqValue_eq (ns : Str) (n : Nat) : seqValue ns n = numbered ns (n + 1) := by
  unfold seqValue numbered Str.ofInt
  rw [if_neg (by omega)]
  congr 1

/-- The text of a sum of money that may be left out. -/
def Money (L : ImportLib) (s : Str) (m : Option Amount) : Prop :=
  (s = [] ∧ m = none) ∨ (s ≠ [] ∧ ∃ a, gbpValue L s = some a ∧ m = some a)

theorem money_iff (L : ImportLib) (s : Str) (m : Option Amount) : optGbpValue L s = some m ↔ Money L s m := by
  unfold optGbpValue Money
  by_cases h : s = []
  · rw [if_pos h]; simp [h, eq_comm]
  · rw [if_neg h]
    simp only [h, false_and, false_or, ne_eq, not_false_eq_true, true_and, Option.map_eq_some_iff]
    constructor
    · rintro ⟨a, h1, rfl⟩; exact ⟨a, h1, rfl⟩
    · rintro ⟨a, h1, rfl⟩; exact ⟨a, h1, rfl⟩

/-- The fields of a row of five columns. -/
def FiveRow (L : ImportLib) (row : List Str) (r : RecordFive) : Prop :=
  ∃ date out inn rest, row = date :: r.transactions :: r.location :: out :: inn :: rest ∧ L.dateDayMonYear date = some r.date ∧
    Money L out r.paidOut ∧ Money L inn r.paidIn

/-- The fields of a row of six columns. -/
def SixRow (L : ImportLib) (row : List Str) (r : RecordSix) : Prop :=
  ∃ date out inn balance rest, row = date :: r.type_ :: r.description :: out :: inn :: balance :: rest ∧ L.dateDayMonYear date = some r.date ∧
    Money L out r.paidOut ∧ Money L inn r.paidIn ∧ gbpValue L balance = some r.balance

theorem fiveRow_iff (L : ImportLib) (row : Row) (r : RecordFive) : RecordFive.ofRow L row = some r ↔ FiveRow L row r := by
  unfold FiveRow
  constructor
  · intro h
    unfold RecordFive.ofRow at h
    split at h
    · rename_i date trns loc out inn rest
      simp only [Option.bind_eq_bind, Option.bind_eq_some_iff] at h
      obtain ⟨d, h1, o, h2, i, h3, h4⟩ := h
      cases h4
      exact ⟨date, out, inn, rest, rfl, h1, (money_iff ..).1 h2, (money_iff ..).1 h3⟩
    · cases h
  · rintro ⟨date, out, inn, rest, rfl, h1, h2, h3⟩
    unfold RecordFive.ofRow
    simp only [Option.bind_eq_bind, Option.bind_eq_some_iff]
    exact ⟨_, h1, _, (money_iff ..).2 h2, _, (money_iff ..).2 h3, rfl⟩

theorem sixRow_iff (L : ImportLib) (row : Row) (r : RecordSix) : RecordSix.ofRow L row = some r ↔ SixRow L row r := by
  unfold SixRow
  constructor
  · intro h
    unfold RecordSix.ofRow at h
    split at h
    · rename_i date trns loc out inn bal rest
      simp only [Option.bind_eq_bind, Option.bind_eq_some_iff] at h
      obtain ⟨d, h1, o, h2, i, h3, b, h4, h5⟩ := h
      cases h5
      exact ⟨date, out, inn, bal, rest, rfl, h1, (money_iff ..).1 h2, (money_iff ..).1 h3, h4⟩
    · cases h
  · rintro ⟨date, out, inn, bal, rest, rfl, h1, h2, h3, h4⟩
    unfold RecordSix.ofRow
    simp only [Option.bind_eq_bind, Option.bind_eq_some_iff]
    exact ⟨_, h1, _, (money_iff ..).2 h2, _, (money_iff ..).2 h3, _, h4, rfl⟩

/-- The amount of the own posting: as it is if paid in, the opposite if paid out. -/
def OwnAmount (paidIn paidOut : Option Amount) (amt : Amount) : Prop :=
  (paidIn = some amt ∧ paidOut = none) ∨
    (paidIn = none ∧ ∃ a, paidOut = some a ∧ value amt.quantity = -value a.quantity ∧ amt.commodity = a.commodity ∧
      amt.quantity.scale = a.quantity.scale ∧ amt.quantity.neg = !a.quantity.neg)

/-- Exactly one of the two is there. -/
def OneOf (paidIn paidOut : Option Amount) : Prop :=
  (paidIn ≠ none ∧ paidOut = none) ∨ (paidIn = none ∧ paidOut ≠ none)

theorem selfAmount_own {i o : Option Amount} {amt : Amount} (h : selfAmount i o = .ok amt) : OwnAmount i o amt := by
  unfold selfAmount at h
  split at h
  · cases h; exact Or.inl ⟨rfl, rfl⟩
  · rename_i a
    cases h
    exact Or.inr ⟨rfl, a, rfl, value_negate _, rfl, rfl, rfl⟩
  · cases h

theorem selfAmount_ok_iff (i o : Option Amount) : (∃ amt, selfAmount i o = .ok amt) ↔ OneOf i o := by
  unfold selfAmount OneOf
  cases i <;> cases o <;> simp

theorem newBuilder_iff (name : Str) (version : Int) (ns : Str) (b : FingerprintBuilder) : newBuilder name version ns = .ok b ↔
    (∀ c ∈ name, PartChar c) ∧ (∀ c ∈ ns, PartChar c) ∧ b = ⟨[], name, version, ns⟩ := by
  constructor
  · intro h
    obtain ⟨h1, h2, h3⟩ := new_ok (newBuilder_ok h)
    exact ⟨h2, h3, h1⟩
  · rintro ⟨h1, h2, rfl⟩
    obtain ⟨b, hb⟩ := (C43_accepted_iff name version ns).2 ⟨h1, h2⟩
    unfold newBuilder
    rw [hb]
    simp only
    rw [(new_ok hb).1]

/-- All characters of a namespace are allowed. -/
def GoodNamespace (ns : Str) : Prop := ∀ c ∈ ns, PartChar c
instance (ns) : Decidable (GoodNamespace ns) := by unfold GoodNamespace PartChar; infer_instance

theorem newBuilder_good {name : Str} (hn : ∀ c ∈ name, PartChar c) (version : Int) {ns : Str} (h : GoodNamespace ns) :
    newBuilder name version ns = .ok ⟨[], name, version, ns⟩ := (newBuilder_iff ..).2 ⟨hn, h, rfl⟩

theorem newBuilder_bad (name : Str) (version : Int) {ns : Str} (h : ¬ GoodNamespace ns) :
    ∃ e, newBuilder name version ns = .error e := by
  cases hb : newBuilder name version ns with
  | error e => exact ⟨e, rfl⟩
  | ok b => exact absurd ((newBuilder_iff ..).1 hb).2.1 h

end NationwideCsv
end Verif
