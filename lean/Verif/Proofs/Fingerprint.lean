import Verif.Model.Fingerprint
import Verif.Spec.Fingerprint
import Verif.Proofs.Rx
import Mathlib.Data.List.Nodup
import Mathlib.Data.List.TakeWhile
import Mathlib.Tactic.Tauto

/-!
# Fingerprint encodings and tags
-/

namespace Verif
open Spec

theorem be_length (n v : Nat) : (be n v).length = n := by
  induction n generalizing v with
  | zero => rfl
  | succ n ih => unfold be; simp [ih]

theorem be_inj {n v w : Nat} (h : be n v = be n w) : v % 256 ^ n = w % 256 ^ n := by
  induction n generalizing v w with
  | zero => simp [Nat.mod_one]
  | succ n ih =>
    unfold be at h
    obtain ⟨h1, h2⟩ := List.append_inj h (by rw [be_length, be_length])
    have h3 := ih h1
    have h4 : v % 256 = w % 256 := by
      have := congrArg UInt8.toNat (List.cons.inj h2).1
      simpa using this
    have e : ∀ x : Nat, x % 256 ^ (n + 1) = 256 * (x / 256 % 256 ^ n) + x % 256 := by
      intro x
      rw [Nat.pow_succ', Nat.mod_mul, Nat.add_comm]
    rw [e, e, h3, h4]

/-- An encoding from whose bytes the value can be read without knowing where they end. -/
def Unamb {α : Type} (P : α → Prop) (f : α → Bytes) : Prop :=
  ∀ a b r s, P a → P b → f a ++ r = f b ++ s → a = b ∧ r = s

theorem Unamb.of_fixed {α : Type} {P : α → Prop} {f : α → Bytes} (hl : ∀ a b, (f a).length = (f b).length)
    (hi : ∀ a b, P a → P b → f a = f b → a = b) : Unamb P f := by
  intro a b r s ha hb h
  obtain ⟨h1, h2⟩ := List.append_inj h (hl a b)
  exact ⟨hi a b ha hb h1, h2⟩

theorem unamb_unsigned (n : Nat) : Unamb (fun v => v < 256 ^ n) (Enc.unsigned n) := by
  refine Unamb.of_fixed (fun a b => by unfold Enc.unsigned; rw [be_length, be_length]) ?_
  intro a b ha hb h
  have := be_inj h
  rwa [Nat.mod_eq_of_lt ha, Nat.mod_eq_of_lt hb] at this

theorem unamb_usize : Unamb (fun v => v < 2 ^ 64) Enc.usize := unamb_unsigned 8

theorem unamb_i32 : Unamb FitsI32 (Enc.signed 4) := by
  refine Unamb.of_fixed (fun a b => by unfold Enc.signed; rw [be_length, be_length]) ?_
  intro a b ha hb h
  have h := be_inj h
  unfold FitsI32 at ha hb
  omega

theorem encodeUtf8_eq (s : Str) : (encodeUtf8 s).toByteArray = s.utf8Encode := rfl

theorem encodeUtf8_inj {s t : Str} (h : encodeUtf8 s = encodeUtf8 t) : s = t := by
  have h1 : s.utf8Encode = t.utf8Encode := by rw [← encodeUtf8_eq, ← encodeUtf8_eq, h]
  have h2 := congrArg ByteArray.utf8Decode? h1
  rw [List.utf8Decode?_utf8Encode, List.utf8Decode?_utf8Encode] at h2
  simpa using h2

theorem encodeUtf8_length (s : Str) : (encodeUtf8 s).length = s.byteLen := by
  unfold encodeUtf8 Str.byteLen
  rw [List.length_flatMap]
  congr 1
  apply List.map_congr_left
  intro c _
  exact String.length_utf8EncodeChar c

theorem unamb_str : Unamb FitsStr Enc.str := by
  intro a b r s ha hb h
  unfold Enc.str Enc.raw at h
  rw [List.append_assoc, List.append_assoc] at h
  obtain ⟨h1, h2⟩ := unamb_usize _ _ _ _ ha hb h
  obtain ⟨h3, h4⟩ := List.append_inj h2 (by rw [encodeUtf8_length, encodeUtf8_length]; exact h1)
  exact ⟨encodeUtf8_inj h3, h4⟩

theorem serialize_length (d : Decimal) : d.serialize.length = 16 := by
  unfold Decimal.serialize; simp [be_length]

theorem serialize_inj {a b : Decimal} (ha : FitsDecimal a) (hb : FitsDecimal b) (h : a.serialize = b.serialize) : a = b := by
  unfold Decimal.serialize at h
  obtain ⟨h1, h2⟩ := List.append_inj h (by simp [be_length])
  have h1 := be_inj (List.reverse_inj.1 h1)
  have h2 := be_inj (List.reverse_inj.1 h2)
  obtain ⟨ha1, ha2⟩ := ha
  obtain ⟨hb1, hb2⟩ := hb
  cases a with | mk na ma sa => cases b with | mk nb mb sb =>
  simp only at h1 h2 ha1 ha2 hb1 hb2
  have e : (256 : Nat) ^ 12 = 2 ^ 96 := by decide
  rw [e, Nat.mod_eq_of_lt ha1, Nat.mod_eq_of_lt hb1] at h2
  cases na <;> cases nb <;> simp only [Bool.false_eq_true, if_true, if_false] at h1 <;> simp only [Decimal.mk.injEq, reduceCtorEq, false_and, true_and] <;> omega

theorem unamb_amount : Unamb FitsAmount Enc.amount := by
  intro a b r s ha hb h
  unfold Enc.amount Enc.raw at h
  simp only [List.append_assoc] at h
  obtain ⟨_, h⟩ := List.append_inj h (by unfold Enc.usize Enc.unsigned; rw [be_length, be_length])
  obtain ⟨h1, h⟩ := List.append_inj h (by rw [serialize_length, serialize_length])
  have h1 := serialize_inj ha.1 hb.1 h1
  obtain ⟨h2, h⟩ := unamb_unsigned 1 _ _ _ _ (by split <;> decide) (by split <;> decide) h
  obtain ⟨h3, h4⟩ := unamb_str _ _ _ _ ha.2 hb.2 h
  refine ⟨?_, h4⟩
  cases a with | mk qa ca => cases b with | mk qb cb => cases ca with | mk na pa => cases cb with | mk nb pb =>
  simp only at h1 h2 h3
  subst h1 h3
  cases pa <;> cases pb <;> first | rfl | (exfalso; revert h2; decide)

theorem unamb_option {α : Type} {P : α → Prop} {f : α → Bytes} (hf : Unamb P f) : Unamb (FitsOpt P) (Enc.option f) := by
  intro a b r s ha hb h
  cases a with
  | none =>
    cases b with
    | none => exact ⟨rfl, (unamb_unsigned 1 _ _ _ _ (by decide) (by decide) h).2⟩
    | some b =>
      unfold Enc.option at h
      simp only [List.append_assoc] at h
      have := (unamb_unsigned 1 _ _ _ _ (by decide) (by decide) h).1
      omega
  | some a =>
    cases b with
    | none =>
      unfold Enc.option at h
      simp only [List.append_assoc] at h
      have := (unamb_unsigned 1 _ _ _ _ (by decide) (by decide) h).1
      omega
    | some b =>
      unfold Enc.option at h
      simp only [List.append_assoc] at h
      obtain ⟨_, h⟩ := unamb_unsigned 1 _ _ _ _ (by decide) (by decide) h
      obtain ⟨h1, h2⟩ := hf _ _ _ _ (ha a rfl) (hb b rfl) h
      exact ⟨by rw [h1], h2⟩

theorem unamb_date : Unamb FitsDate Enc.date := by
  intro a b r s ha hb h
  unfold Enc.date at h
  simp only [List.append_assoc] at h
  obtain ⟨_, h⟩ := List.append_inj h rfl
  obtain ⟨h1, h⟩ := unamb_i32 _ _ _ _ ha.1 hb.1 h
  obtain ⟨h2, h⟩ := unamb_unsigned 4 _ _ _ _ ha.2.1 hb.2.1 h
  obtain ⟨h3, h⟩ := unamb_unsigned 4 _ _ _ _ ha.2.2 hb.2.2 h
  refine ⟨?_, h⟩
  cases a; cases b; simp_all

theorem unamb_time : Unamb (fun t : Time => t.hour < 2 ^ 32 ∧ t.minute < 2 ^ 32 ∧ t.second < 2 ^ 32 ∧ t.nano < 2 ^ 32) Enc.time := by
  intro a b r s ha hb h
  unfold Enc.time at h
  simp only [List.append_assoc] at h
  obtain ⟨_, h⟩ := List.append_inj h rfl
  obtain ⟨h1, h⟩ := unamb_unsigned 4 _ _ _ _ ha.1 hb.1 h
  obtain ⟨h2, h⟩ := unamb_unsigned 4 _ _ _ _ ha.2.1 hb.2.1 h
  obtain ⟨h3, h⟩ := unamb_unsigned 4 _ _ _ _ ha.2.2.1 hb.2.2.1 h
  obtain ⟨h4, h⟩ := unamb_unsigned 4 _ _ _ _ ha.2.2.2 hb.2.2.2 h
  refine ⟨?_, h⟩
  cases a; cases b; simp_all

/-! ## Numbers as text -/

theorem ofInt_no_dot (v : Int) : '.' ∉ Str.ofInt v := by
  have h : ∀ n : Nat, '.' ∉ Nat.toDigits 10 n := by
    intro n hm
    have := Nat.isDigit_of_mem_toDigits (by decide) (by decide) hm
    revert this; decide
  unfold Str.ofInt
  split
  · rw [List.mem_cons, not_or]; exact ⟨by decide, h _⟩
  · exact h _

theorem toDigits_inj {m n : Nat} (h : Nat.toDigits 10 m = Nat.toDigits 10 n) : m = n := by
  rw [← Nat.ofDigitChars_ten_toDigits (n := m), h, Nat.ofDigitChars_ten_toDigits]

theorem ofInt_inj {v w : Int} (h : Str.ofInt v = Str.ofInt w) : v = w := by
  have hm : ∀ n : Nat, '-' ∉ Nat.toDigits 10 n := by
    intro n hm
    have := Nat.isDigit_of_mem_toDigits (by decide) (by decide) hm
    revert this; decide
  unfold Str.ofInt at h
  split at h <;> split at h
  · have := toDigits_inj (List.cons.inj h).2; omega
  · exact absurd (h ▸ List.mem_cons_self) (hm _)
  · exact absurd (h ▸ List.mem_cons_self) (hm _)
  · have := toDigits_inj h; omega

/-! ## base64 -/

theorem alphabet_length : Base64.alphabet.length = 64 := by decide +kernel

theorem base64_char_mem {n : Nat} (h : n < 64) : Base64.char n ∈ Base64.alphabet := by
  unfold Base64.char
  rw [List.getD_eq_getElem?_getD, List.getElem?_eq_getElem (by rw [alphabet_length]; exact h)]
  exact List.getElem_mem _

instance (c : Char) : Decidable (PartChar c) := by unfold PartChar; infer_instance
instance (c : Char) : Decidable (Base64Char c) := by unfold Base64Char; infer_instance

theorem alphabet_chars : ∀ c ∈ Base64.alphabet, Base64Char c := by decide +kernel

theorem alphabet_nodup : Base64.alphabet.Nodup := by decide +kernel

theorem base64_char_inj {m n : Nat} (hm : m < 64) (hn : n < 64) (h : Base64.char m = Base64.char n) : m = n := by
  unfold Base64.char at h
  rw [List.getD_eq_getElem?_getD, List.getD_eq_getElem?_getD, List.getElem?_eq_getElem (by rw [alphabet_length]; exact hm),
    List.getElem?_eq_getElem (by rw [alphabet_length]; exact hn)] at h
  exact (List.Nodup.getElem_inj_iff alphabet_nodup).1 h

theorem base64_chars (b : Bytes) : ∀ c ∈ Base64.encode b, Base64Char c := by
  have hc : ∀ n, n < 64 → Base64Char (Base64.char n) := fun n h => alphabet_chars _ (base64_char_mem h)
  have hb : ∀ a : UInt8, a.toNat < 256 := fun a => a.toNat_lt
  induction b using Base64.encode.induct with
  | case1 => intro c h; cases h
  | case2 a =>
    intro c h
    have := hb a
    simp only [Base64.encode, List.mem_cons, List.not_mem_nil, or_false] at h
    rcases h with rfl | rfl <;> apply hc <;> omega
  | case3 a b =>
    intro c h
    have := hb a; have := hb b
    simp only [Base64.encode, List.mem_cons, List.not_mem_nil, or_false] at h
    rcases h with rfl | rfl | rfl <;> apply hc <;> omega
  | case4 a b c rest ih =>
    intro d h
    have := hb a; have := hb b; have := hb c
    simp only [Base64.encode, List.mem_cons] at h
    rcases h with rfl | rfl | rfl | rfl | h
    · apply hc; omega
    · apply hc; omega
    · apply hc; omega
    · apply hc; omega
    · exact ih d h

theorem base64_inj {x y : Bytes} (h : Base64.encode x = Base64.encode y) : x = y := by
  have hb : ∀ a : UInt8, a.toNat < 256 := fun a => a.toNat_lt
  induction x using Base64.encode.induct generalizing y with
  | case1 =>
    match y, h with
    | [], _ => rfl
    | [_], h => exact absurd h (by simp [Base64.encode])
    | [_, _], h => exact absurd h (by simp [Base64.encode])
    | _ :: _ :: _ :: _, h => exact absurd h (by simp [Base64.encode])
  | case2 a =>
    match y, h with
    | [], h => exact absurd h (by simp [Base64.encode])
    | [a'], h =>
      have := hb a; have := hb a'
      simp only [Base64.encode, List.cons.injEq, and_true] at h
      have h1 := base64_char_inj (by omega) (by omega) h.1
      have h2 := base64_char_inj (by omega) (by omega) h.2
      rw [show a = a' from UInt8.toNat_inj.1 (by omega)]
    | [_, _], h => exact absurd h (by simp [Base64.encode])
    | _ :: _ :: _ :: _, h => exact absurd h (by simp [Base64.encode])
  | case3 a b =>
    match y, h with
    | [], h => exact absurd h (by simp [Base64.encode])
    | [_], h => exact absurd h (by simp [Base64.encode])
    | [a', b'], h =>
      have := hb a; have := hb a'; have := hb b; have := hb b'
      simp only [Base64.encode, List.cons.injEq, and_true] at h
      have h1 := base64_char_inj (by omega) (by omega) h.1
      have h2 := base64_char_inj (by omega) (by omega) h.2.1
      have h3 := base64_char_inj (by omega) (by omega) h.2.2
      rw [show a = a' from UInt8.toNat_inj.1 (by omega), show b = b' from UInt8.toNat_inj.1 (by omega)]
    | _ :: _ :: _ :: _, h => exact absurd h (by simp [Base64.encode])
  | case4 a b c rest ih =>
    match y, h with
    | [], h => exact absurd h (by simp [Base64.encode])
    | [_], h => exact absurd h (by simp [Base64.encode])
    | [_, _], h => exact absurd h (by simp [Base64.encode])
    | a' :: b' :: c' :: rest', h =>
      have := hb a; have := hb a'; have := hb b; have := hb b'; have := hb c; have := hb c'
      simp only [Base64.encode, List.cons.injEq] at h
      have h1 := base64_char_inj (by omega) (by omega) h.1
      have h2 := base64_char_inj (by omega) (by omega) h.2.1
      have h3 := base64_char_inj (by omega) (by omega) h.2.2.1
      have h4 := base64_char_inj (by omega) (by omega) h.2.2.2.1
      rw [show a = a' from UInt8.toNat_inj.1 (by omega), show b = b' from UInt8.toNat_inj.1 (by omega),
        show c = c' from UInt8.toNat_inj.1 (by omega), ih h.2.2.2.2]

/-! ## The regular expression for parts -/

open Rx in
theorem validPart_iff (s : Str) : FingerprintBuilder.validPartRx.isMatch s = true ↔ s.all FingerprintBuilder.partChar = true := by
  unfold Rx.isMatch FingerprintBuilder.validPartRx Rx.cat Rx.cat Rx.cat
  rw [captures_bol]
  · have h : run (seq bol (seq (star (chr FingerprintBuilder.partChar)) eol)) ⟨0, s, []⟩ =
        if s.dropWhile FingerprintBuilder.partChar = [] then [⟨s.length, [], []⟩] else [] := by
      change (run bol _).flatMap _ = _
      rw [run_bol, if_pos rfl]
      change (run (star _) _).flatMap (run eol) = _
      rw [star_chr_max]
      · rw [run_eol]
        by_cases hd : s.dropWhile FingerprintBuilder.partChar = []
        · rw [if_pos hd, if_pos hd, hd]
          have := List.takeWhile_append_dropWhile (p := FingerprintBuilder.partChar) (l := s)
          rw [hd, List.append_nil] at this
          rw [this, Nat.zero_add]
        · rw [if_neg hd, if_neg hd]
      · intro pos c cs caps _
        rw [run_eol, if_neg (by simp)]
    rw [h]
    rw [List.all_eq_true]
    by_cases hd : s.dropWhile FingerprintBuilder.partChar = []
    · rw [if_pos hd]
      simp only [List.head?_cons, Option.map_some, Option.isSome_some, true_iff]
      exact List.dropWhile_eq_nil_iff.1 hd
    · rw [if_neg hd]
      simp only [List.head?_nil, Option.map_none, Option.isSome_none, Bool.false_eq_true, false_iff]
      exact fun h => hd (List.dropWhile_eq_nil_iff.2 h)
  · intro st hs
    change (run bol st).flatMap _ = []
    rw [run_bol, if_neg hs]

theorem partChar_iff (c : Char) : FingerprintBuilder.partChar c = true ↔ PartChar c := by
  unfold FingerprintBuilder.partChar PartChar Char.isAlphanum Char.isAlpha Char.isUpper Char.isLower Char.isDigit
  simp only [Bool.or_eq_true, Bool.and_eq_true, decide_eq_true_eq, beq_iff_eq, Char.le_def, ge_iff_le]
  have e : ∀ x : Char, x.val = x.val := fun _ => rfl
  simp only [show 'a'.val = 97 from rfl, show 'z'.val = 122 from rfl, show 'A'.val = 65 from rfl, show 'Z'.val = 90 from rfl,
    show '0'.val = 48 from rfl, show '9'.val = 57 from rfl]
  tauto

end Verif
