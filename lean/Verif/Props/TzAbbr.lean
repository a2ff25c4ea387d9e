import Verif.Spec.TzAbbr
import Verif.Proofs.Rx
import Mathlib.Tactic.Tauto
import Mathlib.Tactic.SplitIfs

/-!
# Time zones (C54, C55)
-/

namespace Verif
open Spec

namespace TzAbbr
open Rx

theorem utc_lit : "UTC".toList = ['U', 'T', 'C'] := by decide

/-- The value of a digit. -/
def dval (c : Char) : Nat := c.toNat - 48

theorem ofDigits_two (d e : Char) : Nat.ofDigitChars 10 [d, e] 0 = dval d * 10 + dval e := by
  simp [Nat.ofDigitChars, dval, Nat.mul_comm]

theorem digit_bounds {c : Char} (h : digitChar c = true) : 48 ≤ c.toNat ∧ c.toNat ≤ 57 := by
  unfold digitChar at h
  simp only [Bool.and_eq_true, decide_eq_true_eq, Char.le_def] at h
  obtain ⟨h1, h2⟩ := h
  exact ⟨h1, h2⟩

/-- Evaluation of a pattern of fixed length. -/
macro "rx_eval" : tactic => `(tactic|
  (simp only [cat, Rx.str, rep, lit, run, beq_iff_eq, if_true, List.flatMap_cons, List.flatMap_nil, List.append_nil, flatMap_ite,
        map_ite', ite_self, List.map_nil, List.map_cons, List.head?_nil, Option.map_none, reduceCtorEq, if_false]))

theorem hours_captures (s : Str) : captures utcHoursRx s =
    match s with
    | [a, b, c, sg, d, e] =>
      if a = 'U' ∧ b = 'T' ∧ c = 'C' ∧ signChar sg = true ∧ digitChar d = true ∧ digitChar e = true then
        some ⟨0, ⟨6, [], [(2, [d, e]), (1, [sg])]⟩⟩ else none
    | _ => none := by
  rw [captures_bol]
  · unfold utcHoursRx
    rw [utc_lit]
    rcases s with _ | ⟨a, _ | ⟨b, _ | ⟨c, _ | ⟨sg, _ | ⟨d, _ | ⟨e, _ | ⟨f, s⟩⟩⟩⟩⟩⟩⟩ <;>
      rx_eval
    simp only [ite_and]
    split_ifs <;> rfl
  · intro st hs
    unfold utcHoursRx
    show (run bol st).flatMap _ = []
    rw [run_bol, if_neg hs]

theorem mins_captures (s : Str) : captures utcHoursMinsRx s =
    match s with
    | [a, b, c, sg, d, e, k, m, n] =>
      if a = 'U' ∧ b = 'T' ∧ c = 'C' ∧ signChar sg = true ∧ digitChar d = true ∧ digitChar e = true ∧ k = ':' ∧ digitChar m = true ∧
          digitChar n = true then
        some ⟨0, ⟨9, [], [(3, [m, n]), (2, [d, e]), (1, [sg])]⟩⟩ else none
    | _ => none := by
  rw [captures_bol]
  · unfold utcHoursMinsRx
    rw [utc_lit]
    rcases s with _ | ⟨a, _ | ⟨b, _ | ⟨c, _ | ⟨sg, _ | ⟨d, _ | ⟨e, _ | ⟨k, _ | ⟨m, _ | ⟨n, _ | ⟨f, s⟩⟩⟩⟩⟩⟩⟩⟩⟩⟩ <;>
      rx_eval
    simp only [ite_and]
    split_ifs <;> rfl
  · intro st hs
    unfold utcHoursMinsRx
    show (run bol st).flatMap _ = []
    rw [run_bol, if_neg hs]

theorem sign_iff {c : Char} : signChar c = true ↔ ∃ east : Bool, c = if east then '+' else '-' := by
  unfold signChar
  rw [Bool.or_eq_true, beq_iff_eq, beq_iff_eq]
  constructor
  · rintro (rfl | rfl)
    · exact ⟨false, rfl⟩
    · exact ⟨true, rfl⟩
  · rintro ⟨east, rfl⟩
    cases east <;> simp

theorem dval_ofNat {k : Nat} (h : k < 10) : dval (Char.ofNat (48 + k)) = k ∧ digitChar (Char.ofNat (48 + k)) = true := by
  revert k; decide

theorem twoDigits_of {d e : Char} (hd : digitChar d = true) (he : digitChar e = true) :
    dval d * 10 + dval e < 100 ∧ [d, e] = twoDigits (dval d * 10 + dval e) := by
  have h1 := digit_bounds hd
  have h2 := digit_bounds he
  unfold twoDigits dval
  have e1 : ((d.toNat - 48) * 10 + (e.toNat - 48)) / 10 = d.toNat - 48 := by omega
  have e2 : ((d.toNat - 48) * 10 + (e.toNat - 48)) % 10 = e.toNat - 48 := by omega
  refine ⟨by omega, ?_⟩
  rw [e1, e2, show 48 + (d.toNat - 48) = d.toNat by omega, show 48 + (e.toNat - 48) = e.toNat by omega, Char.ofNat_toNat, Char.ofNat_toNat]

theorem twoDigits_spec {n : Nat} (h : n < 100) : ∃ d e, twoDigits n = [d, e] ∧ digitChar d = true ∧ digitChar e = true ∧ dval d * 10 + dval e = n := by
  have h1 := dval_ofNat (k := n / 10) (by omega)
  have h2 := dval_ofNat (k := n % 10) (by omega)
  exact ⟨_, _, rfl, h1.2, h2.2, by rw [h1.1, h2.1]; omega⟩

/-- The parts of an offset, as the code finds them. -/
def parts (s : Str) : Option (Bool × Int × Int) :=
  match utcHoursRx.captures s with
  | some m => some ((m.get 1).getD [] = ['+'], capturedNumber m 2, 0)
  | none =>
    match utcHoursMinsRx.captures s with
    | some m => some ((m.get 1).getD [] = ['+'], capturedNumber m 2, capturedNumber m 3)
    | none => none

theorem sign_eq (east : Bool) : decide ([if east then '+' else '-'] = ['+']) = east := by cases east <;> decide

theorem parts_iff (s : Str) (east : Bool) (h m : Int) :
    parts s = some (east, h, m) ↔ ∃ h' m' : Nat, OffsetText s east h' m' ∧ h = h' ∧ m = m' := by
  constructor
  · intro hp
    unfold parts at hp
    rw [hours_captures] at hp
    split at hp
    · rename_i m hm
      split at hm
      · rename_i a b c sg d e
        split at hm
        · rename_i hc
          obtain ⟨rfl, rfl, rfl, hsg, hd, he⟩ := hc
          obtain ⟨east', rfl⟩ := sign_iff.1 hsg
          cases hm
          simp only [Option.some.injEq, Prod.mk.injEq] at hp
          obtain ⟨rfl, rfl, rfl⟩ := hp
          obtain ⟨h1, h2⟩ := twoDigits_of hd he
          refine ⟨dval d * 10 + dval e, 0, ⟨h1, by omega, Or.inl ⟨?_, rfl⟩⟩, ?_, rfl⟩
          · rw [← h2, utc_lit]
            have : decide (((⟨0, ⟨6, [], [(2, [d, e]), (1, [if east' then '+' else '-'])]⟩⟩ : Found).get 1).getD [] = ['+']) = east' := sign_eq east'
            rw [this]; rfl
          · show ((Nat.ofDigitChars 10 [d, e] 0 : Nat) : Int) = _
            rw [ofDigits_two]
        · cases hm
      · cases hm
    · rename_i hn
      rw [mins_captures] at hp
      split at hp
      · rename_i m hm
        split at hm
        · rename_i a b c sg d e k m n
          split at hm
          · rename_i hc
            obtain ⟨rfl, rfl, rfl, hsg, hd, he, rfl, hm', hn'⟩ := hc
            obtain ⟨east', rfl⟩ := sign_iff.1 hsg
            cases hm
            simp only [Option.some.injEq, Prod.mk.injEq] at hp
            obtain ⟨rfl, rfl, rfl⟩ := hp
            obtain ⟨h1, h2⟩ := twoDigits_of hd he
            obtain ⟨h3, h4⟩ := twoDigits_of hm' hn'
            refine ⟨dval d * 10 + dval e, dval m * 10 + dval n, ⟨h1, h3, Or.inr ?_⟩, ?_, ?_⟩
            · rw [← h2, ← h4, utc_lit]
              have : decide (((⟨0, ⟨9, [], [(3, [m, n]), (2, [d, e]), (1, [if east' then '+' else '-'])]⟩⟩ : Found).get 1).getD [] = ['+']) = east' :=
                sign_eq east'
              rw [this]; rfl
            · show ((Nat.ofDigitChars 10 [d, e] 0 : Nat) : Int) = _
              rw [ofDigits_two]
            · show ((Nat.ofDigitChars 10 [m, n] 0 : Nat) : Int) = _
              rw [ofDigits_two]
          · cases hm
        · cases hm
      · cases hp
  · rintro ⟨h', m', ⟨hh, hm, hs⟩, rfl, rfl⟩
    obtain ⟨d, e, hde, hd, he, hv⟩ := twoDigits_spec hh
    obtain ⟨x, y, hxy, hx, hy, hw⟩ := twoDigits_spec hm
    have hsg : signChar (if east then '+' else '-') = true := sign_iff.2 ⟨east, rfl⟩
    rcases hs with ⟨rfl, rfl⟩ | rfl
    · rw [hde, utc_lit]
      unfold parts
      rw [hours_captures]
      simp only [List.cons_append, List.nil_append, hsg, hd, he, and_self, if_true]
      have : decide (((⟨0, ⟨6, [], [(2, [d, e]), (1, [if east then '+' else '-'])]⟩⟩ : Found).get 1).getD [] = ['+']) = east := sign_eq east
      rw [this]
      refine congrArg some (congrArg (Prod.mk east) ?_)
      show (((Nat.ofDigitChars 10 [d, e] 0 : Nat) : Int), (0 : Int)) = _
      rw [ofDigits_two, hv]
      rfl
    · rw [hde, hxy, utc_lit]
      unfold parts
      rw [hours_captures, mins_captures]
      simp only [show ":".toList = [':'] from rfl, List.cons_append, List.nil_append, hsg, hd, he, hx, hy, and_self, if_true]
      have : decide (((⟨0, ⟨9, [], [(3, [x, y]), (2, [d, e]), (1, [if east then '+' else '-'])]⟩⟩ : Found).get 1).getD [] = ['+']) = east :=
        sign_eq east
      rw [this]
      refine congrArg some (congrArg (Prod.mk east) ?_)
      show (((Nat.ofDigitChars 10 [d, e] 0 : Nat) : Int), ((Nat.ofDigitChars 10 [x, y] 0 : Nat) : Int)) = _
      rw [ofDigits_two, ofDigits_two, hv, hw]

theorem parseUtcOffset_eq (s : Str) : parseUtcOffset s =
    match parts s with
    | none => .error .format
    | some (positive, hours, minutes) =>
      if minutes > 59 then .error .minutes
      else
        let secs := (if positive then 1 else -1) * (hours * 3600 + minutes * 60)
        if -86400 < secs ∧ secs < 86400 then .ok secs else .error .range := rfl

/-- C54: a text is accepted exactly if it has the form of an offset with less than 24 hours and less than 60 minutes, and its value
is what it means. -/
theorem C54_accepted_iff (s : Str) (secs : Int) : parseUtcOffset s = .ok secs ↔ Offset s secs := by
  rw [parseUtcOffset_eq]
  constructor
  · intro h
    split at h
    · cases h
    · rename_i positive hours minutes hp
      obtain ⟨h', m', ht, rfl, rfl⟩ := (parts_iff s _ _ _).1 hp
      split at h
      · cases h
      · by_cases hr : -86400 < (if positive then (1 : Int) else -1) * ((h' : Int) * 3600 + (m' : Int) * 60) ∧
            (if positive then (1 : Int) else -1) * ((h' : Int) * 3600 + (m' : Int) * 60) < 86400
        · have h : Except.ok (ε := OffsetErr) ((if positive then (1 : Int) else -1) * ((h' : Int) * 3600 + (m' : Int) * 60)) = .ok secs :=
            (if_pos hr).symm.trans h
          obtain rfl := Except.ok.inj h
          clear h hp
          refine ⟨positive, h', m', ht, ?_, by omega, ?_⟩
          · cases positive
            · rw [if_neg (by decide)] at hr; omega
            · rw [if_pos rfl] at hr; omega
          · cases positive
            · rw [if_neg (by decide), if_neg (by decide)]; omega
            · rw [if_pos rfl, if_pos rfl]; omega
        · have h : Except.error (α := Int) OffsetErr.range = .ok secs := (if_neg hr).symm.trans h
          cases h
  · rintro ⟨east, h, m, ht, hh, hm, rfl⟩
    rw [(parts_iff s east h m).2 ⟨h, m, ht, rfl, rfl⟩]
    simp only
    rw [if_neg (by omega)]
    cases east
    · simp only [Bool.false_eq_true, if_false]
      rw [if_pos (by omega)]
      congr 1; omega
    · simp only [if_true]
      rw [if_pos (by omega)]
      congr 1; omega

/-- C54: what each error means. -/
theorem C54_errors (s : Str) :
    (parseUtcOffset s = .error .format ↔ ¬ ∃ east h m, OffsetText s east h m) ∧
    (parseUtcOffset s = .error .minutes ↔ ∃ east h m, OffsetText s east h m ∧ 60 ≤ m) ∧
    (parseUtcOffset s = .error .range ↔ ∃ east h m, OffsetText s east h m ∧ m < 60 ∧ 24 ≤ h) := by
  rw [parseUtcOffset_eq]
  cases hp : parts s with
  | none =>
    have hno : ¬ ∃ east h m, OffsetText s east h m := by
      rintro ⟨east, h, m, ht⟩
      rw [(parts_iff s east h m).2 ⟨h, m, ht, rfl, rfl⟩] at hp
      cases hp
    simp only [true_iff, reduceCtorEq, false_iff, Except.error.injEq]
    exact ⟨hno, fun ⟨e, h, m, ht, _⟩ => hno ⟨e, h, m, ht⟩, fun ⟨e, h, m, ht, _⟩ => hno ⟨e, h, m, ht⟩⟩
  | some q =>
    obtain ⟨east, hours, minutes⟩ := q
    obtain ⟨h, m, ht, rfl, rfl⟩ := (parts_iff s _ _ _).1 hp
    have huniq : ∀ e' h' m', OffsetText s e' h' m' → e' = east ∧ h' = h ∧ m' = m := by
      intro e' h' m' ht'
      have := (parts_iff s e' h' m').2 ⟨h', m', ht', rfl, rfl⟩
      rw [hp] at this
      simp only [Option.some.injEq, Prod.mk.injEq] at this
      exact ⟨this.1.symm, by omega, by omega⟩
    have e1 : (∃ e' h' m', OffsetText s e' h' m' ∧ 60 ≤ m') ↔ 60 ≤ m := by
      constructor
      · rintro ⟨e', h', m', ht', hm⟩
        obtain ⟨_, _, rfl⟩ := huniq _ _ _ ht'
        exact hm
      · exact fun hm => ⟨_, _, _, ht, hm⟩
    have e2 : (∃ e' h' m', OffsetText s e' h' m' ∧ m' < 60 ∧ 24 ≤ h') ↔ m < 60 ∧ 24 ≤ h := by
      constructor
      · rintro ⟨e', h', m', ht', hm⟩
        obtain ⟨_, rfl, rfl⟩ := huniq _ _ _ ht'
        exact hm
      · exact fun hm => ⟨_, _, _, ht, hm⟩
    rw [e1, e2]
    simp only
    have hf : ∃ east h m, OffsetText s east h m := ⟨_, _, _, ht⟩
    split
    · rename_i hm
      simp only [reduceCtorEq, false_iff, Except.error.injEq, true_iff]
      exact ⟨not_not.2 hf, by omega, by omega⟩
    · rename_i hm
      by_cases hr : -86400 < (if east then (1 : Int) else -1) * ((h : Int) * 3600 + (m : Int) * 60) ∧
          (if east then (1 : Int) else -1) * ((h : Int) * 3600 + (m : Int) * 60) < 86400
      · rw [if_pos hr]
        simp only [reduceCtorEq, false_iff]
        refine ⟨not_not.2 hf, by omega, ?_⟩
        cases east
        · rw [if_neg (by decide)] at hr; omega
        · rw [if_pos rfl] at hr; omega
      · rw [if_neg hr]
        simp only [reduceCtorEq, false_iff, Except.error.injEq, true_iff]
        refine ⟨not_not.2 hf, by omega, ?_⟩
        cases east
        · rw [if_neg (by decide)] at hr; omega
        · rw [if_pos rfl] at hr; omega

/-- C54: with the other sign a text means the opposite offset. -/
theorem C54_opposite (t : Str) (secs : Int) :
    parseUtcOffset ("UTC+".toList ++ t) = .ok secs ↔ parseUtcOffset ("UTC-".toList ++ t) = .ok (-secs) := by
  have key : ∀ (e : Bool) (v : Int), Offset ("UTC".toList ++ [if e then '+' else '-'] ++ t) v →
      Offset ("UTC".toList ++ [if !e then '+' else '-'] ++ t) (-v) := by
    rintro e v ⟨e', h, m, ⟨h1, h2, ht⟩, hh, hm, rfl⟩
    have hee : e' = e ∧ ((t = twoDigits h ∧ m = 0) ∨ t = twoDigits h ++ ":".toList ++ twoDigits m) := by
      simp only [List.append_assoc] at ht
      rcases ht with ⟨ht, hm0⟩ | ht
      · have ht := List.append_cancel_left ht
        simp only [List.cons_append, List.nil_append, List.cons.injEq] at ht
        refine ⟨?_, Or.inl ⟨ht.2, hm0⟩⟩
        cases e <;> cases e' <;> first | rfl | (exact absurd ht.1 (by decide))
      · have ht := List.append_cancel_left ht
        simp only [List.cons_append, List.nil_append, List.cons.injEq] at ht
        refine ⟨?_, Or.inr (by rw [ht.2]; simp)⟩
        cases e <;> cases e' <;> first | rfl | (exact absurd ht.1 (by decide))
    clear ht
    obtain ⟨rfl, ht⟩ := hee
    refine ⟨!e', h, m, ⟨h1, h2, ?_⟩, hh, hm, ?_⟩
    · rcases ht with ⟨ht, hm0⟩ | ht
      · exact Or.inl ⟨by rw [ht], hm0⟩
      · exact Or.inr (by rw [ht]; simp)
    · cases e' <;> simp
  rw [C54_accepted_iff, C54_accepted_iff]
  have a1 : "UTC+".toList ++ t = "UTC".toList ++ [if true then '+' else '-'] ++ t := by
    rw [show "UTC+".toList = "UTC".toList ++ [if true then '+' else '-'] by decide]
  have a2 : "UTC-".toList ++ t = "UTC".toList ++ [if false then '+' else '-'] ++ t := by
    rw [show "UTC-".toList = "UTC".toList ++ [if false then '+' else '-'] by decide]
  rw [a1, a2]
  constructor
  · exact key true secs
  · intro h
    have := key false (-secs) h
    rwa [Int.neg_neg] at this

example : Offset "UTC+05:45".toList 20700 ∧ Offset "UTC-03".toList (-10800) ∧
    OffsetText "UTC+01:75".toList true 1 75 ∧ OffsetText "UTC-24".toList false 24 0 :=
  ⟨⟨true, 5, 45, ⟨by decide, by decide, Or.inr (by decide)⟩, by decide, by decide, by decide⟩,
   ⟨false, 3, 0, ⟨by decide, by decide, Or.inl ⟨by decide, rfl⟩⟩, by decide, by decide, by decide⟩,
   ⟨by decide, by decide, Or.inr (by decide)⟩, ⟨by decide, by decide, Or.inl ⟨by decide, rfl⟩⟩⟩

/-! ## C55: the table -/

theorem load_ok {m db : DB} {rs : List (Option Record)} (h : load m rs = .ok db) :
    (∀ r ∈ rs, ∃ x v, r = some x ∧ Offset x.utcOffset v) ∧
    ((rs.filterMap id).map Record.abbreviation).Nodup ∧ (∀ x, some x ∈ rs → x.abbreviation ∉ m) ∧
    ∀ a v, db[a]? = some v ↔ m[a]? = some v ∨ ∃ x, some x ∈ rs ∧ x.abbreviation = a ∧ Offset x.utcOffset v := by
  induction rs generalizing m with
  | nil => cases h; simp
  | cons r rs ih =>
    cases r with
    | none => cases h
    | some r =>
      unfold load at h
      cases hp : parseUtcOffset r.utcOffset with
      | error e => rw [hp] at h; cases h
      | ok v =>
        rw [hp] at h
        simp only at h
        have hv := (C54_accepted_iff _ _).1 hp
        have hvu : ∀ w, Offset r.utcOffset w ↔ w = v := by
          intro w
          rw [← C54_accepted_iff, hp]
          simp [eq_comm]
        split at h
        · cases h
        · rename_i hn
          obtain ⟨h1, h2, h3, h4⟩ := ih h
          refine ⟨?_, ?_, ?_, ?_⟩
          · intro x hx
            rcases List.mem_cons.1 hx with rfl | hx
            · exact ⟨r, v, rfl, hv⟩
            · exact h1 x hx
          · simp only [List.filterMap_cons, id, List.map_cons, List.nodup_cons]
            refine ⟨?_, h2⟩
            intro hm
            obtain ⟨x, hx, hxa⟩ := List.mem_map.1 hm
            obtain ⟨o, ho, rfl⟩ := List.mem_filterMap.1 hx
            have := h3 x ho
            rw [hxa] at this
            exact this (Std.ExtTreeMap.mem_insert_self)
          · intro x hx
            rcases List.mem_cons.1 hx with hx | hx
            · cases hx; exact hn
            · intro hm
              exact h3 x hx (Std.ExtTreeMap.mem_insert.2 (Or.inr hm))
          · intro a w
            rw [h4 a w, Std.ExtTreeMap.getElem?_insert]
            simp only [List.mem_cons]
            constructor
            · rintro (hw | ⟨x, hx, hxa, hxw⟩)
              · split at hw
                · rename_i hc
                  have := Std.LawfulEqOrd.compare_eq_iff_eq.1 hc
                  cases hw
                  exact Or.inr ⟨r, Or.inl rfl, this, hv⟩
                · exact Or.inl hw
              · exact Or.inr ⟨x, Or.inr hx, hxa, hxw⟩
            · rintro (hw | ⟨x, hx | hx, hxa, hxw⟩)
              · left
                rw [if_neg]
                · exact hw
                · intro hc
                  have hc := Std.LawfulEqOrd.compare_eq_iff_eq.1 hc
                  subst hc
                  exact hn (Std.ExtTreeMap.mem_iff_isSome_getElem?.2 (by rw [hw]; rfl))
              · cases hx
                left
                rw [if_pos (Std.LawfulEqOrd.compare_eq_iff_eq.2 hxa), (hvu w).1 hxw]
              · exact Or.inr ⟨x, hx, hxa, hxw⟩

theorem load_total {m : DB} {rs : List (Option Record)} (h1 : ∀ r ∈ rs, ∃ x v, r = some x ∧ Offset x.utcOffset v)
    (h2 : ((rs.filterMap id).map Record.abbreviation).Nodup) (h3 : ∀ x, some x ∈ rs → x.abbreviation ∉ m) : ∃ db, load m rs = .ok db := by
  induction rs generalizing m with
  | nil => exact ⟨m, rfl⟩
  | cons r rs ih =>
    obtain ⟨x, v, rfl, hv⟩ := h1 r List.mem_cons_self
    simp only [List.filterMap_cons, id, List.map_cons, List.nodup_cons] at h2
    unfold load
    rw [(C54_accepted_iff _ _).2 hv]
    simp only
    rw [if_neg (h3 x List.mem_cons_self)]
    refine ih (fun r hr => h1 r (List.mem_cons_of_mem _ hr)) h2.2 ?_
    intro y hy hm
    rcases Std.ExtTreeMap.mem_insert.1 hm with hc | hm
    · have hc := Std.LawfulEqOrd.compare_eq_iff_eq.1 hc
      exact h2.1 (List.mem_map.2 ⟨y, List.mem_filterMap.2 ⟨some y, hy, rfl⟩, hc.symm⟩)
    · exact h3 y (List.mem_cons_of_mem _ hy) hm

/-- C55: a table is accepted exactly if every record can be read and has a good offset, and no abbreviation is there twice. -/
theorem C55_accepted_iff (rs : List (Option Record)) :
    (∃ db, fromRecords rs = .ok db) ↔
      (∀ r ∈ rs, ∃ x v, r = some x ∧ Offset x.utcOffset v) ∧ ((rs.filterMap id).map Record.abbreviation).Nodup := by
  constructor
  · rintro ⟨db, h⟩
    exact ⟨(load_ok h).1, (load_ok h).2.1⟩
  · rintro ⟨h1, h2⟩
    exact load_total h1 h2 (fun x _ => Std.ExtTreeMap.not_mem_empty)

/-- C55: an abbreviation is looked up as the offset of its record, and nothing else is found. -/
theorem C55_lookup {rs : List (Option Record)} {db : DB} (h : fromRecords rs = .ok db) (a : Str) (secs : Int) :
    abbrToTz db a = some secs ↔ ∃ x, some x ∈ rs ∧ x.abbreviation = a ∧ Offset x.utcOffset secs := by
  unfold abbrToTz
  rw [(load_ok h).2.2.2 a secs]
  simp

/-- A table as in the tests of the code. -/
def sampleTable : List (Option Record) :=
  [some ⟨"BST".toList, "UTC+01".toList⟩, some ⟨"GMT".toList, "UTC+00".toList⟩, some ⟨"NST".toList, "UTC-03:30".toList⟩]

example : ∃ db, fromRecords sampleTable = .ok db ∧ abbrToTz db "NST".toList = some (-12600) ∧ abbrToTz db "XYZ".toList = none := by
  have h : ∃ db, fromRecords sampleTable = .ok db := by
    rw [C55_accepted_iff]
    refine ⟨?_, by decide +kernel⟩
    intro r hr
    simp only [sampleTable, List.mem_cons, List.not_mem_nil, or_false] at hr
    rcases hr with rfl | rfl | rfl
    · exact ⟨_, 3600, rfl, (C54_accepted_iff _ _).1 (by decide +kernel)⟩
    · exact ⟨_, 0, rfl, (C54_accepted_iff _ _).1 (by decide +kernel)⟩
    · exact ⟨_, -12600, rfl, (C54_accepted_iff _ _).1 (by decide +kernel)⟩
  obtain ⟨db, h⟩ := h
  refine ⟨db, h, ?_, ?_⟩
  · rw [C55_lookup h]
    exact ⟨⟨"NST".toList, "UTC-03:30".toList⟩, by simp [sampleTable], rfl, (C54_accepted_iff _ _).1 (by decide +kernel)⟩
  · cases hx : abbrToTz db "XYZ".toList with
    | none => rfl
    | some v =>
      rw [C55_lookup h] at hx
      obtain ⟨x, hx, ha, _⟩ := hx
      simp only [sampleTable, List.mem_cons, List.not_mem_nil, or_false, Option.some.injEq] at hx
      rcases hx with rfl | rfl | rfl <;> exact absurd ha (by decide +kernel)

end TzAbbr
end Verif
