import Verif.Props.PaypalCsv
import Verif.Spec.Calendar
import Mathlib.Tactic.IntervalCases

/-!
# C50: at which instant a PayPal record happened
-/

namespace Verif
open Spec
namespace PaypalCsv

theorem monthDays_pos (y : Int) (m : Nat) : 28 ≤ monthDays y m := by
  unfold monthDays
  split
  · split <;> omega
  · split <;> omega

/-- Two counts of days agree. -/
theorem counts_unique {f g : Date → Int} (hf : CountsDays f) (hg : CountsDays g) {d : Date} (hd : RealDate d) : f d = g d := by
  obtain ⟨h, rfl⟩ : ∃ h : Date → Int, h = fun d => f d - g d := ⟨_, rfl⟩
  have step : ∀ d, RealDate d → f (dayAfter d) - g (dayAfter d) = f d - g d := by
    intro d hd
    have := hf.2 d hd
    have := hg.2 d hd
    omega
  generalize e : (fun d => f d - g d) = h at step
  have step : ∀ d, RealDate d → h (dayAfter d) = h d := by rw [← e]; exact step
  have days : ∀ (y : Int) (m n : Nat), 1 ≤ m → m ≤ 12 → n + 1 ≤ monthDays y m → h ⟨y, m, n + 1⟩ = h ⟨y, m, 1⟩ := by
    intro y m n h1 h2 h3
    induction n with
    | zero => rfl
    | succ n ih =>
      have := step ⟨y, m, n + 1⟩ ⟨⟨h1, h2⟩, by simp, by simp only; omega⟩
      unfold dayAfter at this
      rw [if_pos (by simp only; omega)] at this
      simp only at this
      rw [this]
      exact ih (by omega)
  have last : ∀ (y : Int) (m : Nat), 1 ≤ m → m ≤ 12 → h (dayAfter ⟨y, m, monthDays y m⟩) = h ⟨y, m, 1⟩ := by
    intro y m h1 h2
    have hp := monthDays_pos y m
    rw [step ⟨y, m, monthDays y m⟩ ⟨⟨h1, h2⟩, by simp only; omega, Nat.le_refl _⟩]
    have := days y m (monthDays y m - 1) h1 h2 (by omega)
    rwa [Nat.sub_add_cancel (by omega)] at this
  have months : ∀ (y : Int) (m : Nat), m + 1 ≤ 12 → h ⟨y, m + 1, 1⟩ = h ⟨y, 1, 1⟩ := by
    intro y m hm
    induction m with
    | zero => rfl
    | succ m ih =>
      have := last y (m + 1) (by omega) (by omega)
      unfold dayAfter at this
      rw [if_neg (by simp), if_pos (by simp only; omega)] at this
      rw [this]
      exact ih (by omega)
  have years : ∀ y : Int, h ⟨y + 1, 1, 1⟩ = h ⟨y, 1, 1⟩ := by
    intro y
    have := last y 12 (by omega) (by omega)
    unfold dayAfter at this
    rw [if_neg (by simp), if_neg (by simp)] at this
    rw [this]
    exact months y 11 (by omega)
  have all : ∀ y : Int, h ⟨y, 1, 1⟩ = h ⟨1970, 1, 1⟩ := by
    have up : ∀ n : Nat, h ⟨1970 + n, 1, 1⟩ = h ⟨1970, 1, 1⟩ := by
      intro n
      induction n with
      | zero => simp
      | succ n ih =>
        have := years (1970 + (n : Int))
        rw [show 1970 + (n : Int) + 1 = 1970 + ((n + 1 : Nat) : Int) by omega] at this
        rw [this, ih]
    have down : ∀ n : Nat, h ⟨1970 - n, 1, 1⟩ = h ⟨1970, 1, 1⟩ := by
      intro n
      induction n with
      | zero => simp
      | succ n ih =>
        rw [← ih]
        have := years (1970 - ((n + 1 : Nat) : Int))
        rw [show 1970 - ((n + 1 : Nat) : Int) + 1 = 1970 - (n : Int) by omega] at this
        exact this.symm
    intro y
    by_cases hy : 1970 ≤ y
    · have := up (y - 1970).toNat
      rw [show 1970 + ((y - 1970).toNat : Int) = y by omega] at this
      exact this
    · have := down (1970 - y).toNat
      rw [show 1970 - ((1970 - y).toNat : Int) = y by omega] at this
      exact this
  have zero : h ⟨1970, 1, 1⟩ = 0 := by
    rw [← e]
    simp only [hf.1, hg.1, Int.sub_self]
  obtain ⟨y, m, n⟩ := d
  obtain ⟨⟨h1, h2⟩, h3, h4⟩ := hd
  simp only at h1 h2 h3 h4
  have k : h ⟨y, m, n⟩ = 0 := by
    have a := days y m (n - 1) h1 h2 (by omega)
    have b := months y (m - 1) (by omega)
    rw [Nat.sub_add_cancel (by omega)] at a b
    rw [a, b, all, zero]
  rw [← e] at k
  simp only at k
  omega

/-- The number of days is counted in the Gregorian calendar. -/
theorem counts_civil : CountsDays daysFromCivil := by
  refine ⟨rfl, ?_⟩
  rintro ⟨y, m, n⟩ ⟨⟨h1, h2⟩, h3, h4⟩
  simp only at h1 h2 h3 h4
  by_cases hn : n < monthDays y m
  · unfold dayAfter
    rw [if_pos (by exact hn)]
    unfold daysFromCivil
    simp only
    split <;> push_cast <;> omega
  · have hn : n = monthDays y m := by omega
    subst hn
    unfold dayAfter
    rw [if_neg (by simp)]
    simp only
    unfold monthDays
    by_cases hl : Leap y
    · rw [if_pos hl]
      unfold Leap at hl
      interval_cases m <;> simp only [daysFromCivil] <;> simp <;> omega
    · rw [if_neg hl]
      unfold Leap at hl
      interval_cases m <;> simp only [daysFromCivil] <;> simp <;> omega

/-- C50: days are counted in the Gregorian calendar from 1970-01-01, and there is only one way to count them. -/
theorem C50_days : CountsDays daysFromCivil ∧ ∀ f, CountsDays f → ∀ d, RealDate d → f d = daysFromCivil d :=
  ⟨counts_civil, fun _ hf _ hd => counts_unique hf counts_civil hd⟩

/-- C50: a record happened at the instant whose seconds since the beginning of 1970 are those of its date and time of day minus the offset
of its time zone. -/
theorem C50_instant {f : Date → Int} (hf : CountsDays f) (tz : TzAbbr.DB) {v : RawRecord} (hd : RealDate v.date) (i : Instant) :
    when tz v = some i ↔ ∃ offset, TzAbbr.abbrToTz tz v.timeZone = some offset ∧ i.2 = v.time.nano ∧
      i.1 + offset = 24 * 60 * 60 * f v.date + 60 * 60 * v.time.hour + 60 * v.time.minute + v.time.second := by
  unfold when
  rw [Option.map_eq_some_iff, counts_unique hf counts_civil hd]
  refine exists_congr fun o => and_congr_right fun _ => ?_
  unfold instant
  rw [Prod.ext_iff]
  simp only
  constructor
  · rintro ⟨h1, h2⟩; exact ⟨h2.symm, by omega⟩
  · rintro ⟨h1, h2⟩; exact ⟨by omega, h1.symm⟩

/-- A record of the evening before a leap day. -/
def exLate : RawRecord :=
  ⟨⟨2020, 2, 28⟩, ⟨23, 30, 5, 0⟩, "AHEAD".toList, none, [], .cleared, [], ⟨false, 0, 2⟩, none, ⟨false, 0, 2⟩⟩

/-- A zone that is half an hour ahead. -/
def exAhead : TzAbbr.DB := (∅ : TzAbbr.DB).insert "AHEAD".toList 1800

/-- At half past eleven in a zone that is half an hour ahead it is eleven in Greenwich; at half past midnight of the next day it is an hour
later. -/
example : RealDate exLate.date ∧ when exAhead exLate = some (1582930805, 0) ∧
    when exAhead { exLate with date := ⟨2020, 2, 29⟩, time := ⟨0, 30, 5, 0⟩ } = some (1582930805 + 3600, 0) ∧
    when exAhead { exLate with timeZone := "BEHIND".toList } = none := by
  have e : TzAbbr.abbrToTz exAhead "AHEAD".toList = some 1800 := by simp [TzAbbr.abbrToTz, exAhead]
  have hn : TzAbbr.abbrToTz exAhead "BEHIND".toList = none := by
    unfold TzAbbr.abbrToTz exAhead
    rw [Std.ExtTreeMap.getElem?_insert, if_neg (by decide +kernel)]
    rfl
  refine ⟨by decide +kernel, ?_, ?_, ?_⟩
  · exact (C50_instant counts_civil exAhead (by decide +kernel) _).2 ⟨1800, e, rfl, by decide +kernel⟩
  · exact (C50_instant counts_civil exAhead (by decide +kernel) _).2 ⟨1800, e, rfl, by decide +kernel⟩
  · unfold when
    show (TzAbbr.abbrToTz exAhead "BEHIND".toList).map _ = none
    rw [hn]
    rfl

end PaypalCsv
end Verif
