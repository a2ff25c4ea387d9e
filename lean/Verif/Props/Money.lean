import Verif.Proofs.Money
import Mathlib.Tactic.FieldSimp
import Mathlib.Tactic.Linarith

/-!
# C49: sums of money in Nationwide CSV files
-/

namespace Verif
open Spec NationwideCsv
namespace NationwideCsv

theorem digit_dot (L : ImportLib) : L.digit '.' = false := by rw [L.digit_ascii _ (by decide)]; decide
theorem digit_minus (L : ImportLib) : L.digit '-' = false := by rw [L.digit_ascii _ (by decide)]; decide

theorem digit_of (L : ImportLib) {c : Char} (h : c.isDigit = true) : L.digit c = true := by
  rw [L.digit_ascii c, h]
  have := ((isDigit_iff c).1 h).2
  have h2 : c.toNat ≤ '9'.toNat := this
  have h3 : '9'.toNat = 57 := rfl
  omega

theorem takeWhile_digits (L : ImportLib) {p r : Str} (h : ∀ c ∈ p, c.isDigit = true) (hr : ∀ c ∈ r.head?, L.digit c = false) :
    (p ++ r).takeWhile L.digit = p ∧ (p ++ r).dropWhile L.digit = r := by
  induction p with
  | nil =>
    cases r with
    | nil => exact ⟨rfl, rfl⟩
    | cons c r =>
      have := hr c rfl
      simp [this]
  | cons c p ih =>
    obtain ⟨h1, h2⟩ := ih fun x hx => h x (List.mem_cons_of_mem _ hx)
    have hc := digit_of L (h c List.mem_cons_self)
    simp [hc, h1, h2]

theorem gbpParts_written (L : ImportLib) {p q r : Str} (hp : Digits p) (hq : Digits q) (hr : ∀ c ∈ r.head?, L.digit c = false) :
    gbpParts L.digit (p ++ '.' :: (q ++ r)) = some (p, q) := by
  obtain ⟨h1, h2⟩ := takeWhile_digits L (r := '.' :: (q ++ r)) (digits_all hp) (by rintro c ⟨⟩; exact digit_dot L)
  obtain ⟨h3, h4⟩ := takeWhile_digits L (digits_all hq) hr
  unfold gbpParts
  rw [h2]
  simp only
  rw [h1, h3, if_neg]
  rintro (h | h)
  · exact hp.1 h
  · exact hq.1 h

/-- The pattern matches a sum of money that starts the text and is not followed by another digit. -/
theorem gbpMatch_written (L : ImportLib) {neg : Bool} {p q r : Str} (hp : Digits p) (hq : Digits q) (hr : ∀ c ∈ r.head?, L.digit c = false) :
    gbpMatch L.digit (pounds neg p q ++ r) = some (if neg then ['-'] else [], p, q) := by
  have hg := gbpParts_written L hp hq hr
  cases neg with
  | true =>
    simp only [pounds, if_true, List.cons_append, List.nil_append, List.append_assoc, gbpMatch]
    rw [hg]; rfl
  | false =>
    simp only [pounds, Bool.false_eq_true, if_false, List.cons_append, List.nil_append, List.append_assoc]
    obtain ⟨c, p', rfl⟩ := List.exists_cons_of_ne_nil hp.1
    have hc : c ≠ '-' := by
      rintro rfl
      have := hp.2 '-' List.mem_cons_self
      revert this; decide
    rw [List.cons_append] at hg ⊢
    unfold gbpMatch
    split
    · rename_i heq; injection heq with _ h; injection h with h; exact absurd h hc
    · rename_i heq; injection heq with _ h; subst h; rw [hg]; rfl
    · rename_i h1 h2; exact absurd rfl (h2 _)

/-- What is read from the groups of a match. -/
def readGroups (sign p q : Str) : Option Amount :=
  match capturedNumber p, capturedNumber q with
  | some pounds, some pence =>
    if pounds * 100 + pence < 2 ^ 63 then some ⟨⟨sign = ['-'], pounds * 100 + pence, 2⟩, gbp⟩ else none
  | _, _ => none

theorem gbpValue_some (L : ImportLib) {s : Str} {a : Amount} (h : gbpValue L s = some a) :
    ∃ pre suf sign p q, s = pre ++ suf ∧ gbpMatch L.digit suf = some (sign, p, q) ∧ readGroups sign p q = some a ∧
      ∀ pre' suf', s = pre' ++ suf' → pre'.length < pre.length → gbpMatch L.digit suf' = none := by
  unfold gbpValue Rx.captures at h
  rcases find_gbp L.digit (digit_dot L) (digit_minus L) 0 s with ⟨hf, _⟩ | ⟨m, pre, suf, sign, p, q, hf, h1, h2, h3, h4⟩
  · rw [hf] at h; cases h
  · rw [hf] at h
    refine ⟨pre, suf, sign, p, q, h1, h2, ?_, h4⟩
    simp only [Rx.Found.get, h3] at h
    exact h

theorem gbpValue_at_start (L : ImportLib) {s sign p q : Str} (h : gbpMatch L.digit s = some (sign, p, q)) :
    gbpValue L s = readGroups sign p q := by
  unfold gbpValue Rx.captures
  rcases find_gbp L.digit (digit_dot L) (digit_minus L) 0 s with ⟨_, hn⟩ | ⟨m, pre, suf, sign', p', q', hf, h1, h2, h3, h4⟩
  · rw [hn [] s rfl] at h; cases h
  · cases pre with
    | nil =>
      rw [List.nil_append] at h1
      subst h1
      rw [h] at h2
      cases h2
      rw [hf]
      simp only [Rx.Found.get, h3]
      rfl
    | cons c pre =>
      rw [h4 [] s rfl (by simp)] at h
      cases h

theorem capturedNumber_some {s : Str} (h : Digits s) (hn : number s < 2 ^ 63) : capturedNumber s = some (number s) := by
  unfold capturedNumber
  rw [if_pos (List.all_eq_true.2 (digits_all h))]
  simp only [ofDigitChars_number (digits_all h)]
  rw [if_pos hn]

theorem capturedNumber_none {s : Str} (h : Digits s) (hn : ¬ number s < 2 ^ 63) : capturedNumber s = none := by
  unfold capturedNumber
  rw [if_pos (List.all_eq_true.2 (digits_all h))]
  simp only [ofDigitChars_number (digits_all h)]
  rw [if_neg hn]

theorem readGroups_eq {neg : Bool} {p q : Str} (hp : Digits p) (hq : Digits q) :
    readGroups (if neg then ['-'] else []) p q =
      if number p * 100 + number q < 2 ^ 63 then some ⟨⟨neg, number p * 100 + number q, 2⟩, gbp⟩ else none := by
  unfold readGroups
  by_cases h1 : number p < 2 ^ 63
  · by_cases h2 : number q < 2 ^ 63
    · rw [capturedNumber_some hp h1, capturedNumber_some hq h2]
      cases neg <;> rfl
    · rw [capturedNumber_none hq h2, if_neg (show ¬ number p * 100 + number q < 2 ^ 63 by omega)]
      cases capturedNumber p <;> rfl
  · rw [capturedNumber_none hp h1, if_neg (show ¬ number p * 100 + number q < 2 ^ 63 by omega)]

theorem value_gbp (neg : Bool) (m : Nat) : value ⟨neg, m, 2⟩ = if neg then -((m : Rat) / 100) else (m : Rat) / 100 := by
  unfold value
  cases neg
  · simp; norm_num
  · simp; norm_num; ring

end NationwideCsv

/-- **C49**. A sum of money with two digits for the pence, with or without a minus sign, is read as exactly the number it denotes, in
pounds, if it is less than 2^63 pence. -/
theorem C49_exact (L : ImportLib) (neg : Bool) (p q : Str) (hp : Digits p) (hq : Digits q) (h2 : q.length = 2)
    (hmax : number p * 100 + number q < 2 ^ 63) :
    ∃ a, gbpValue L (pounds neg p q) = some a ∧ value a.quantity = denoted neg p q ∧ a.quantity.scale = 2 ∧
      (a.quantity.neg = true ↔ neg = true) ∧ a.commodity = ⟨"GBP".toList, .left⟩ := by
  have hm := gbpMatch_written L (neg := neg) (r := []) hp hq (by rintro c ⟨⟩)
  rw [List.append_nil] at hm
  refine ⟨_, by rw [gbpValue_at_start L hm, readGroups_eq hp hq, if_pos hmax], ?_, rfl, Iff.rfl, rfl⟩
  rw [value_gbp]
  unfold denoted
  rw [h2]
  cases neg
  · simp; ring
  · simp; ring

example (L : ImportLib) : ∃ a, gbpValue L "£-1234.05".toList = some a ∧ value a.quantity = -1234.05 := by
  obtain ⟨a, h1, h2, _⟩ := C49_exact L true "1234".toList "05".toList (by decide +kernel) (by decide +kernel) rfl (by decide +kernel)
  exact ⟨a, h1, by rw [h2]; decide +kernel⟩

/-- **C49** (size). A larger sum is refused. -/
theorem C49_too_big (L : ImportLib) (neg : Bool) (p q : Str) (hp : Digits p) (hq : Digits q) (hmax : 2 ^ 63 ≤ number p * 100 + number q) :
    gbpValue L (pounds neg p q) = none := by
  have hm := gbpMatch_written L (neg := neg) (r := []) hp hq (by rintro c ⟨⟩)
  rw [List.append_nil] at hm
  rw [gbpValue_at_start L hm, readGroups_eq hp hq, if_neg (by omega)]

example (L : ImportLib) : gbpValue L "£92233720368547758.08".toList = none :=
  C49_too_big L false "92233720368547758".toList "08".toList (by decide +kernel) (by decide +kernel) (by decide +kernel)

/-- **C49** (other texts). Any text that is accepted has a sum of money in it, and the sign and digits of it make the amount; what is
around it is ignored. The digits after the point count as pence, however many there are. -/
theorem C49_accepted (L : ImportLib) (s : Str) (a : Amount) (h : gbpValue L s = some a) :
    ∃ pre neg p q post, s = pre ++ pounds neg p q ++ post ∧ Digits p ∧ Digits q ∧ number p * 100 + number q < 2 ^ 63 ∧
      value a.quantity = (if neg then -1 else 1) * ((number p : Rat) + (number q : Rat) / 100) ∧ a.commodity = ⟨"GBP".toList, .left⟩ := by
  obtain ⟨pre, suf, sign, p, q, rfl, hm, hr, _⟩ := gbpValue_some L h
  have hparts : ∀ r, gbpParts L.digit r = some (p, q) → ∃ post, r = p ++ '.' :: (q ++ post) ∧ p ≠ [] ∧ q ≠ [] := by
    intro r hr
    unfold gbpParts at hr
    split at hr
    · rename_i r2 hd
      split at hr
      · cases hr
      · rename_i hne
        push Not at hne
        cases hr
        refine ⟨r2.dropWhile L.digit, ?_, hne.1, hne.2⟩
        rw [List.takeWhile_append_dropWhile, ← hd, List.takeWhile_append_dropWhile]
    · cases hr
  have hsign : ∃ neg post, suf = pounds neg p q ++ post ∧ sign = (if neg then ['-'] else []) ∧ p ≠ [] ∧ q ≠ [] := by
    unfold gbpMatch at hm
    split at hm
    · rename_i r
      obtain ⟨x, hx, he⟩ := Option.map_eq_some_iff.1 hm
      cases he
      obtain ⟨post, rfl, h1, h2⟩ := hparts _ hx
      exact ⟨true, post, by simp [pounds], rfl, h1, h2⟩
    · rename_i r _
      obtain ⟨x, hx, he⟩ := Option.map_eq_some_iff.1 hm
      cases he
      obtain ⟨post, rfl, h1, h2⟩ := hparts _ hx
      exact ⟨false, post, by simp [pounds], rfl, h1, h2⟩
    · cases hm
  obtain ⟨neg, post, rfl, rfl, hpn, hqn⟩ := hsign
  have hdig : ∀ x n, capturedNumber x = some n → ∀ c ∈ x, c.isDigit = true := by
    intro x n hx
    unfold capturedNumber at hx
    split at hx
    · rename_i h; exact List.all_eq_true.1 h
    · cases hx
  have hD : Digits p ∧ Digits q := by
    unfold readGroups at hr
    split at hr
    · rename_i n m hn hm
      exact ⟨⟨hpn, fun c hc => (isDigit_iff c).1 (hdig _ _ hn c hc)⟩, ⟨hqn, fun c hc => (isDigit_iff c).1 (hdig _ _ hm c hc)⟩⟩
    · cases hr
  rw [readGroups_eq hD.1 hD.2] at hr
  split at hr
  · rename_i hmax
    cases hr
    refine ⟨pre, neg, p, q, post, by rw [List.append_assoc], hD.1, hD.2, hmax, ?_, rfl⟩
    rw [value_gbp]
    cases neg
    · simp; ring
    · simp; ring
  · cases hr

/-- **C49** (number of digits). With another number of digits after the point the amount is right only if they are all zero. -/
theorem C49_digits (L : ImportLib) (neg : Bool) (p q : Str) (hp : Digits p) (hq : Digits q) (a : Amount)
    (h : gbpValue L (pounds neg p q) = some a) : value a.quantity = denoted neg p q ↔ q.length = 2 ∨ number q = 0 := by
  have hm := gbpMatch_written L (neg := neg) (r := []) hp hq (by rintro c ⟨⟩)
  rw [List.append_nil] at hm
  rw [gbpValue_at_start L hm, readGroups_eq hp hq] at h
  split at h
  swap; · cases h
  cases h
  rw [value_gbp]
  unfold denoted
  have h10 : (10 : Rat) ^ q.length ≠ 0 := pow_ne_zero _ (by norm_num)
  have key : ((number q : Rat) / 100 = number q / (10 : Rat) ^ q.length) ↔ q.length = 2 ∨ number q = 0 := by
    rw [div_eq_div_iff (by norm_num) h10]
    constructor
    · intro he
      have he' : number q * 10 ^ q.length = number q * 100 := by exact_mod_cast he
      by_cases h0 : number q = 0
      · exact Or.inr h0
      · refine Or.inl ?_
        have : 10 ^ q.length = 10 ^ 2 := Nat.eq_of_mul_eq_mul_left (Nat.pos_of_ne_zero h0) he'
        exact Nat.pow_right_injective (le_refl 10 |>.trans' (by norm_num)) this
    · rintro (he | he)
      · rw [he]; norm_num
      · rw [he]; simp
  rw [← key]
  cases neg
  · simp only [Bool.false_eq_true, if_false]
    push_cast
    constructor
    · intro h; linarith
    · intro h; linarith
  · simp only [if_true]
    push_cast
    constructor
    · intro h; linarith
    · intro h; linarith

/-- Pence written with one digit are misread: one pound fifty becomes one pound and five pence. -/
example (L : ImportLib) (a : Amount) (h : gbpValue L "£1.5".toList = some a) : value a.quantity ≠ denoted false "1".toList "5".toList :=
  fun he => absurd ((C49_digits L false "1".toList "5".toList (by decide +kernel) (by decide +kernel) a h).1 he) (by decide +kernel)

/-- That text is accepted, and a minus sign before the pound sign is ignored. -/
theorem C49_misread (L : ImportLib) :
    (∃ a, gbpValue L "£1.5".toList = some a ∧ value a.quantity = 1.05) ∧
    (∃ a, gbpValue L "-£1.23".toList = some a ∧ value a.quantity = 1.23) := by
  constructor
  · have hm := gbpMatch_written L (neg := false) (p := "1".toList) (q := "5".toList) (r := []) (by decide +kernel) (by decide +kernel)
      (by rintro c ⟨⟩)
    refine ⟨⟨⟨false, 105, 2⟩, gbp⟩, ?_, by decide +kernel⟩
    exact (gbpValue_at_start L hm).trans (by decide +kernel)
  · have hm := gbpMatch_written L (neg := false) (p := "1".toList) (q := "23".toList) (r := []) (by decide +kernel) (by decide +kernel)
      (by rintro c ⟨⟩)
    refine ⟨⟨⟨false, 123, 2⟩, gbp⟩, ?_, by decide +kernel⟩
    unfold gbpValue Rx.captures
    have h0 : gbpMatch L.digit "-£1.23".toList = none := rfl
    rcases find_gbp L.digit (digit_dot L) (digit_minus L) 0 "-£1.23".toList with ⟨_, hn⟩ | ⟨m, pre, suf, sign, p, q, hf, h1, h2, h3, h4⟩
    · have := hn ['-'] (pounds false "1".toList "23".toList ++ []) rfl
      rw [hm] at this; cases this
    · have hlen : pre = ['-'] := by
        rcases pre with _ | ⟨c, _ | ⟨d, pre⟩⟩
        · rw [List.nil_append] at h1; subst h1; rw [h0] at h2; cases h2
        · rw [show "-£1.23".toList = '-' :: "£1.23".toList from rfl] at h1; rw [(List.cons.inj h1).1]
        · have := h4 ['-'] (pounds false "1".toList "23".toList ++ []) rfl (by simp)
          rw [hm] at this; cases this
      subst hlen
      have : suf = pounds false "1".toList "23".toList ++ [] := (List.cons.inj h1).2.symm
      subst this
      rw [hm] at h2
      cases h2
      rw [hf]
      simp only [Rx.Found.get, h3]
      decide +kernel

end Verif
