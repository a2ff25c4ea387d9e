import Verif.Props.Encoding
import Verif.Props.Bytes
import Verif.Props.Rules
import Verif.Props.ImportCmd

/-!
# C112: texts as characters and as bytes

Rust's strings are bytes in UTF-8, and their functions work on these; in the model they are lists of characters.
-/

namespace Verif.Spec
open Verif

/-- `str::replace` on bytes, for a pattern that is not empty: it is looked for from left to right, and the search goes on behind each place where it
was found. The number says how many bytes belong to the last such place.
Called at /repo/src/importers/cmd.rs:76. -/
def replaceBytes (pat new : Bytes) : Nat → Bytes → Bytes
  | _, [] => []
  | n + 1, _ :: bs => replaceBytes pat new n bs
  | 0, b :: bs => if pat <+: b :: bs then new ++ replaceBytes pat new (pat.length - 1) bs else b :: replaceBytes pat new 0 bs

/-- The pieces between the places where a byte stands (`str::split` at an ASCII character, /repo/src/comment.rs:56, 84). -/
def splitBytes (sep : UInt8) : Bytes → List Bytes
  | [] => [[]]
  | b :: bs =>
    if b = sep then [] :: splitBytes sep bs
    else match splitBytes sep bs with
      | [] => [[b]]
      | p :: ps => (b :: p) :: ps

/-- A byte that is not the first one of a character: `10......` in binary (the format of the strings that /repo/src/comment.rs:56, 84,
/repo/src/fingerprint.rs:13 and /repo/src/rules/table/predicate.rs:69 work on). -/
def Inner (b : UInt8) : Prop := 128 ≤ b.toNat ∧ b.toNat < 192

end Verif.Spec

namespace Verif
open Spec

/-! ### One character -/

/-- The bytes of a character as numbers (UTF-8; compared by the sorts at /repo/src/comment.rs:110, 115, 130 and /repo/src/merge/sources.rs:37). -/
def charBytes (v : Nat) : List Nat :=
  if v ≤ 0x7f then [v]
  else if v ≤ 0x7ff then [v / 64 % 32 + 192, v % 64 + 128]
  else if v ≤ 0xffff then [v / 4096 % 16 + 224, v / 64 % 64 + 128, v % 64 + 128]
  else [v / 262144 % 8 + 240, v / 4096 % 64 + 128, v / 64 % 64 + 128, v % 64 + 128]

theorem encode_charBytes (c : Char) : String.utf8EncodeChar c = (charBytes c.toNat).map UInt8.ofNat := by
  unfold charBytes String.utf8EncodeChar Char.toNat
  dsimp only
  split
  · rfl
  · split
    · rfl
    · split <;> rfl

theorem charBytes_small {v : Nat} (hv : v < 0x110000) : ∀ b ∈ charBytes v, b < 256 := by
  intro b hb
  unfold charBytes at hb
  split at hb
  · simp at hb; omega
  · split at hb
    · simp at hb; omega
    · split at hb <;> (simp at hb; omega)

theorem charBytes_shape {v : Nat} (hv : v < 0x110000) :
    ∃ b bs, charBytes v = b :: bs ∧ ¬ (128 ≤ b ∧ b < 192) ∧ ∀ x ∈ bs, 128 ≤ x ∧ x < 192 := by
  unfold charBytes
  split
  · exact ⟨_, _, rfl, by omega, by simp⟩
  · split
    · exact ⟨_, _, rfl, by omega, by simp; omega⟩
    · split
      · exact ⟨_, _, rfl, by omega, by simp; omega⟩
      · exact ⟨_, _, rfl, by omega, by simp; omega⟩

theorem char_bound (c : Char) : c.toNat < 0x110000 := by
  have h := c.valid
  simp only [UInt32.isValidChar, Nat.isValidChar] at h
  unfold Char.toNat
  omega

theorem compare_cons_lt {α : Type} [Ord α] {x y : α} {s t : List α} (h : compare x y = .lt) : compare (x :: s) (y :: t) = .lt := by
  show List.compareLex compare (x :: s) (y :: t) = .lt
  rw [List.compareLex_cons_cons, h]
  rfl

theorem compare_cons_eq {α : Type} [Ord α] {x y : α} {s t : List α} (h : compare x y = .eq) : compare (x :: s) (y :: t) = compare s t := by
  show List.compareLex compare (x :: s) (y :: t) = List.compareLex compare s t
  rw [List.compareLex_cons_cons, h]
  rfl

theorem charBytes_lt {v w : Nat} (hvw : v < w) (hw : w < 0x110000) (s t : List Nat) : compare (charBytes v ++ s) (charBytes w ++ t) = .lt := by
  have lt : ∀ {x y : Nat} {s t : List Nat}, x < y → compare (x :: s) (y :: t) = .lt := fun h => compare_cons_lt (Nat.compare_eq_lt.2 h)
  have le : ∀ {x y : Nat} {s t : List Nat}, x ≤ y → (x = y → compare s t = .lt) → compare (x :: s) (y :: t) = .lt := by
    intro x y s t h h'
    rcases Nat.lt_or_eq_of_le h with h | h
    · exact lt h
    · exact (compare_cons_eq (Nat.compare_eq_eq.2 h)).trans (h' h)
  unfold charBytes
  split_ifs <;> first
    | omega
    | exact lt (by omega)
    | exact le (by omega) fun h => lt (by omega)
    | exact le (by omega) fun h => le (by omega) fun h' => lt (by omega)
    | exact le (by omega) fun h => le (by omega) fun h' => le (by omega) fun h'' => lt (by omega)

theorem compare_bytes (a b : Bytes) : compare a b = compare (a.map UInt8.toNat) (b.map UInt8.toNat) := by
  have h1 : ∀ x y : UInt8, compare x y = compare x.toNat y.toNat := by
    intro x y
    show compareOfLessAndEq x y = compareOfLessAndEq x.toNat y.toNat
    unfold compareOfLessAndEq
    simp only [UInt8.lt_iff_toNat_lt, ← UInt8.toNat_inj]
  induction a generalizing b with
  | nil => cases b <;> rfl
  | cons x a ih =>
    cases b with
    | nil => rfl
    | cons y b =>
      show List.compareLex compare (x :: a) (y :: b) = List.compareLex compare (x.toNat :: a.map UInt8.toNat) (y.toNat :: b.map UInt8.toNat)
      rw [List.compareLex_cons_cons, List.compareLex_cons_cons, h1]
      have := ih b
      show _ = (compare x.toNat y.toNat).then (compare (a.map UInt8.toNat) (b.map UInt8.toNat))
      rw [← this]
      rfl

theorem bytes_toNat (c : Char) : (String.utf8EncodeChar c).map UInt8.toNat = charBytes c.toNat := by
  rw [encode_charBytes, List.map_map]
  conv_rhs => rw [← List.map_id (charBytes c.toNat)]
  refine List.map_congr_left fun b hb => ?_
  show (UInt8.ofNat b).toNat = b
  rw [UInt8.toNat_ofNat', Nat.mod_eq_of_lt (charBytes_small (char_bound c) b hb)]

theorem encode_lt {c d : Char} (h : c.toNat < d.toNat) (s t : Bytes) :
    compare (String.utf8EncodeChar c ++ s) (String.utf8EncodeChar d ++ t) = .lt := by
  rw [compare_bytes, List.map_append, List.map_append, bytes_toNat, bytes_toNat]
  exact charBytes_lt h (char_bound d) _ _

theorem char_lt {c d : Char} (h : c.toNat < d.toNat) : compare c d = .lt := by
  show compareOfLessAndEq c d = .lt
  unfold compareOfLessAndEq
  exact if_pos h

theorem encode_shape (c : Char) : ∃ b bs, String.utf8EncodeChar c = b :: bs ∧ ¬ Inner b ∧ ∀ x ∈ bs, Inner x := by
  obtain ⟨b, bs, h1, h2, h3⟩ := charBytes_shape (char_bound c)
  have hs := charBytes_small (char_bound c)
  rw [h1] at hs
  have ht : ∀ x ∈ b :: bs, (UInt8.ofNat x).toNat = x := fun x hx => by rw [UInt8.toNat_ofNat', Nat.mod_eq_of_lt (hs x hx)]
  refine ⟨UInt8.ofNat b, bs.map UInt8.ofNat, by rw [encode_charBytes, h1]; rfl, ?_, ?_⟩
  · unfold Inner
    rw [ht b List.mem_cons_self]
    exact h2
  · intro x hx
    obtain ⟨n, hn, rfl⟩ := List.mem_map.1 hx
    unfold Inner
    rw [ht n (List.mem_cons_of_mem _ hn)]
    exact h3 n hn

theorem char_eq_of_append {c d : Char} {s t : Bytes} (h : String.utf8EncodeChar c ++ s = String.utf8EncodeChar d ++ t) : c = d ∧ s = t := by
  have hc : c = d := by
    by_contra hne
    have refl : ∀ l : Bytes, compare l l = .eq := fun l => Std.LawfulEqOrd.compare_eq_iff_eq.2 rfl
    rcases Nat.lt_or_gt_of_ne (fun e => hne (Char.toNat_inj.1 e)) with h' | h'
    · have := encode_lt h' s t
      rw [h, refl] at this
      cases this
    · have := encode_lt h' t s
      rw [h, refl] at this
      cases this
  subst hc
  exact ⟨rfl, List.append_cancel_left h⟩

theorem encodeUtf8_cons (c : Char) (s : Str) : encodeUtf8 (c :: s) = String.utf8EncodeChar c ++ encodeUtf8 s := List.flatMap_cons

theorem encodeUtf8_append (s t : Str) : encodeUtf8 (s ++ t) = encodeUtf8 s ++ encodeUtf8 t := List.flatMap_append

/-! ### Texts -/

/-- **C112: order.** Texts compare as their bytes do: `sort` gives the same order. -/
theorem C112_order (a b : Str) : compare (utf8 a) (utf8 b) = compare a b := by
  rw [← utf8_eq, ← utf8_eq]
  induction a generalizing b with
  | nil =>
    cases b with
    | nil => rfl
    | cons d b =>
      obtain ⟨x, xs, h, -⟩ := encode_shape d
      rw [encodeUtf8_cons, h]
      rfl
  | cons c a ih =>
    cases b with
    | nil =>
      obtain ⟨x, xs, h, -⟩ := encode_shape c
      rw [encodeUtf8_cons, h]
      rfl
    | cons d b =>
      rw [encodeUtf8_cons, encodeUtf8_cons]
      rcases Nat.lt_trichotomy c.toNat d.toNat with h | h | h
      · rw [encode_lt h, compare_cons_lt]
        exact char_lt h
      · cases Char.toNat_inj.1 h
        rw [compare_cons_eq (Std.LawfulEqOrd.compare_eq_iff_eq.2 rfl), ← ih b]
        generalize String.utf8EncodeChar c = l
        induction l with
        | nil => rfl
        | cons x l ihl => exact (compare_cons_eq (Std.LawfulEqOrd.compare_eq_iff_eq.2 rfl)).trans ihl
      · have h1 := encode_lt h (encodeUtf8 b) (encodeUtf8 a)
        have h2 : compare (d :: b) (c :: a) = .lt := compare_cons_lt (char_lt h)
        rw [Std.OrientedCmp.eq_swap (cmp := compare), h1, Std.OrientedCmp.eq_swap (cmp := compare) (a := c :: a), h2]

theorem insertBy_map {α β : Type} (f : α → β) (le : α → α → Bool) (le' : β → β → Bool) (h : ∀ a b, le' (f a) (f b) = le a b) (a : α) (l : List α) :
    (insertBy le a l).map f = insertBy le' (f a) (l.map f) := by
  induction l with
  | nil => rfl
  | cons b l ih =>
    rw [List.map_cons]
    unfold insertBy
    rw [h]
    split
    · rfl
    · rw [List.map_cons, ih]

/-- **C112: `len`.** The length in bytes, which decides where tags are written (/repo/src/comment.rs:107). -/
theorem C112_len (s : Str) : s.byteLen = (encodeUtf8 s).length := by
  induction s with
  | nil => rfl
  | cons c s ih =>
    rw [encodeUtf8_cons, List.length_append, ← ih, String.length_utf8EncodeChar]
    rfl

/-- **C112: `sort`.** Sorting texts is sorting their bytes. -/
theorem C112_sort (l : List Str) : (sortBy Comment.strLe l).map utf8 = sortBy (fun a b => (compare a b).isLE) (l.map utf8) := by
  induction l with
  | nil => rfl
  | cons a l ih =>
    rw [List.map_cons]
    unfold sortBy
    rw [insertBy_map utf8 _ (fun a b => (compare a b).isLE) (fun a b => by unfold Comment.strLe; rw [C112_order]), ih]

/-- **C112: places.** Where the bytes of a text are cut before a byte that begins a character, or at the end, there the text is cut. -/
theorem C112_cut (s : Str) (x y : Bytes) (h : utf8 s = x ++ y) (hy : ∀ b ∈ y.head?, ¬ Inner b) :
    ∃ s1 s2, s = s1 ++ s2 ∧ x = utf8 s1 ∧ y = utf8 s2 := by
  simp only [← utf8_eq] at h ⊢
  induction s generalizing x with
  | nil =>
    obtain ⟨h1, h2⟩ := List.append_eq_nil_iff.1 h.symm
    exact ⟨[], [], rfl, h1, h2⟩
  | cons c s ih =>
    rw [encodeUtf8_cons] at h
    rcases List.append_eq_append_iff.1 h with ⟨z, h1, h2⟩ | ⟨z, h1, h2⟩
    · obtain ⟨s1, s2, e1, e2, e3⟩ := ih z h2
      exact ⟨c :: s1, s2, by rw [e1]; rfl, by rw [h1, e2, encodeUtf8_cons], e3⟩
    · cases z with
      | nil =>
        rw [List.append_nil] at h1
        obtain ⟨s1, s2, e1, e2, e3⟩ := ih [] (by simpa using h2.symm)
        exact ⟨c :: s1, s2, by rw [e1]; rfl, by rw [encodeUtf8_cons, ← e2, ← h1, List.append_nil], e3⟩
      | cons b z =>
        obtain ⟨f, fs, e, -, hin⟩ := encode_shape c
        cases x with
        | nil => exact ⟨[], c :: s, rfl, rfl, by rw [encodeUtf8_cons, h]; rfl⟩
        | cons x0 x =>
          rw [e, List.cons_append] at h1
          have hb : b ∈ fs := by
            rw [(List.cons.inj h1).2]
            exact List.mem_append_right _ List.mem_cons_self
          exact absurd (hin b hb) (hy b (by rw [h2]; rfl))

theorem head_outer {s : Str} : ∀ b ∈ (utf8 s ++ t).head?, s ≠ [] → ¬ Inner b := by
  intro b hb hs
  cases s with
  | nil => exact absurd rfl hs
  | cons c s =>
    obtain ⟨f, fs, e, hf, -⟩ := encode_shape c
    rw [← utf8_eq, encodeUtf8_cons, e] at hb
    cases hb
    exact hf

/-- **C112: `starts_with`.** -/
theorem C112_startsWith (s pre : Str) : Str.startsWith s pre = true ↔ utf8 pre <+: utf8 s := by
  unfold Str.startsWith
  rw [List.isPrefixOf_iff_prefix]
  constructor
  · rintro ⟨t, rfl⟩
    exact ⟨utf8 t, by simp only [← utf8_eq, encodeUtf8_append]⟩
  · rintro ⟨t, h⟩
    simp only [← utf8_eq] at h
    induction pre generalizing s with
    | nil => exact List.nil_prefix
    | cons c pre ih =>
      cases s with
      | nil =>
        obtain ⟨f, fs, e, -⟩ := encode_shape c
        rw [encodeUtf8_cons, e] at h
        cases h
      | cons d s =>
        rw [encodeUtf8_cons, encodeUtf8_cons, List.append_assoc] at h
        obtain ⟨rfl, h'⟩ := char_eq_of_append h
        exact List.cons_prefix_cons.2 ⟨rfl, ih s h'⟩

/-- **C112: `contains`.** -/
theorem C112_contains (s want : Str) : Str.containsStr want s = true ↔ utf8 want <:+: utf8 s := by
  have hinfix : Str.containsStr want s = true ↔ want <:+: s := by
    induction s with
    | nil =>
      unfold Str.containsStr
      rw [List.isEmpty_iff, List.infix_nil]
    | cons c s ih =>
      unfold Str.containsStr
      rw [Bool.or_eq_true, ih, List.isPrefixOf_iff_prefix, List.infix_cons_iff]
  rw [hinfix]
  constructor
  · rintro ⟨a, b, rfl⟩
    exact ⟨utf8 a, utf8 b, by simp only [← utf8_eq, encodeUtf8_append]⟩
  · rintro ⟨a, b, h⟩
    cases hw : want with
    | nil => exact List.nil_infix
    | cons c w =>
      obtain ⟨s1, s2, rfl, -, h2⟩ := C112_cut s a (utf8 want ++ b) (by rw [← h, List.append_assoc]) fun x hx => head_outer x hx (by rw [hw]; simp)
      have := (C112_startsWith s2 want).2 ⟨b, h2⟩
      unfold Str.startsWith at this
      rw [List.isPrefixOf_iff_prefix, hw] at this
      exact this.isInfix.trans (List.suffix_append s1 s2).isInfix

theorem replaceFrom_drop (pat new : Str) (n : Nat) (s : Str) : Str.replaceFrom pat new n s = Str.replaceFrom pat new 0 (s.drop n) := by
  induction s generalizing n with
  | nil =>
    rw [List.drop_nil]
    unfold Str.replaceFrom
    rfl
  | cons c s ih =>
    cases n with
    | zero => rfl
    | succ n =>
      rw [List.drop_succ_cons, ← ih n]
      rfl

theorem replaceBytes_drop (pat new : Bytes) (n : Nat) (s : Bytes) : replaceBytes pat new n s = replaceBytes pat new 0 (s.drop n) := by
  induction s generalizing n with
  | nil =>
    rw [List.drop_nil]
    unfold replaceBytes
    rfl
  | cons c s ih =>
    cases n with
    | zero => rfl
    | succ n =>
      rw [List.drop_succ_cons, ← ih n]
      rfl

/-- **C112: `replace`.** -/
theorem C112_replace (pat new s : Str) (hp : pat ≠ []) : utf8 (Str.replaceAll pat new s) = replaceBytes (utf8 pat) (utf8 new) 0 (utf8 s) := by
  unfold Str.replaceAll
  have hskip : ∀ (bs rest : Bytes), (∀ b ∈ bs, Inner b) → replaceBytes (utf8 pat) (utf8 new) 0 (bs ++ rest) =
      bs ++ replaceBytes (utf8 pat) (utf8 new) 0 rest := by
    intro bs rest hb
    induction bs with
    | nil => rfl
    | cons b bs ih =>
      have hno : ¬ utf8 pat <+: b :: (bs ++ rest) := by
        rintro ⟨t, ht⟩
        exact head_outer b (by rw [ht]; rfl) hp (hb b List.mem_cons_self)
      rw [List.cons_append]
      conv_lhs => unfold replaceBytes
      rw [if_neg hno, ih fun x hx => hb x (List.mem_cons_of_mem _ hx)]
      rfl
  have hpl : 0 < pat.length := List.length_pos_of_ne_nil hp
  suffices hx : ∀ n s, s.length = n → utf8 (Str.replaceFrom pat new 0 s) = replaceBytes (utf8 pat) (utf8 new) 0 (utf8 s) from hx _ s rfl
  intro n
  induction n using Nat.strong_induction_on with
  | _ n ih =>
    intro s hn
    cases s with
    | nil => rfl
    | cons c s =>
      obtain ⟨f, fs, e, hf, hin⟩ := encode_shape c
      have hu : utf8 (c :: s) = f :: (fs ++ utf8 s) := by rw [← utf8_eq, encodeUtf8_cons, e, utf8_eq]; rfl
      unfold Str.replaceFrom
      by_cases hm : pat <+: c :: s
      · obtain ⟨t, ht⟩ := hm
        rw [if_pos (List.isPrefixOf_iff_prefix.2 ⟨t, ht⟩), replaceFrom_drop]
        have hb : utf8 pat ++ utf8 t = f :: (fs ++ utf8 s) := by rw [← hu, ← ht]; simp only [← utf8_eq, encodeUtf8_append]
        have hdrop : s.drop (pat.length - 1) = t := by
          have : (c :: s).drop pat.length = t := by rw [← ht, List.drop_left]
          obtain ⟨k, hk⟩ := Nat.exists_eq_add_of_lt hpl
          rw [hk, Nat.zero_add] at this ⊢
          exact this
        have hbl : 0 < (utf8 pat).length := by
          cases hpat : pat with
          | nil => exact absurd hpat hp
          | cons d q =>
            obtain ⟨g, gs, e', -⟩ := encode_shape d
            rw [← utf8_eq, encodeUtf8_cons, e']
            exact Nat.succ_pos _
        have hdropB : (fs ++ utf8 s).drop ((utf8 pat).length - 1) = utf8 t := by
          have : (f :: (fs ++ utf8 s)).drop (utf8 pat).length = utf8 t := by rw [← hb, List.drop_left]
          obtain ⟨k, hk⟩ := Nat.exists_eq_add_of_lt hbl
          rw [hk, Nat.zero_add] at this ⊢
          exact this
        rw [hdrop, hu]
        unfold replaceBytes
        rw [if_pos ⟨utf8 t, hb⟩, replaceBytes_drop, hdropB, ← ih t.length (by
          have := congrArg List.length ht
          rw [List.length_append] at this
          omega) t rfl]
        simp only [← utf8_eq, encodeUtf8_append]
      · rw [if_neg fun h => hm (List.isPrefixOf_iff_prefix.1 h)]
        have hmb : ¬ utf8 pat <+: f :: (fs ++ utf8 s) := by
          rw [← hu]
          intro h
          have := (C112_startsWith (c :: s) pat).2 h
          exact hm (List.isPrefixOf_iff_prefix.1 this)
        rw [hu]
        conv_rhs => unfold replaceBytes
        rw [if_neg hmb, hskip fs _ hin, ← ih s.length (by rw [← hn]; exact Nat.lt_succ_self _) s rfl]
        rw [← utf8_eq, encodeUtf8_cons, e, utf8_eq]
        rfl

theorem splitOn_ne_nil (sep : Char) (s : Str) : Str.splitOn sep s ≠ [] := by
  cases s with
  | nil => exact List.cons_ne_nil _ _
  | cons c s =>
    unfold Str.splitOn
    split
    · exact List.cons_ne_nil _ _
    · split <;> exact List.cons_ne_nil _ _

/-- **C112: `split` at a character of ASCII**, such as the end of a line. -/
theorem C112_split (sep : Char) (hs : sep.toNat < 128) (s : Str) :
    splitBytes (UInt8.ofNat sep.toNat) (utf8 s) = (Str.splitOn sep s).map utf8 := by
  have hsep : (UInt8.ofNat sep.toNat).toNat = sep.toNat := by rw [UInt8.toNat_ofNat', Nat.mod_eq_of_lt (by omega)]
  have hpre : ∀ (bs rest : Bytes), (∀ b ∈ bs, b ≠ UInt8.ofNat sep.toNat) → ∀ p ps, splitBytes (UInt8.ofNat sep.toNat) rest = p :: ps →
      splitBytes (UInt8.ofNat sep.toNat) (bs ++ rest) = (bs ++ p) :: ps := by
    intro bs rest hb p ps hr
    induction bs with
    | nil => exact hr
    | cons b bs ih =>
      rw [List.cons_append]
      unfold splitBytes
      rw [if_neg (hb b List.mem_cons_self), ih fun x hx => hb x (List.mem_cons_of_mem _ hx)]
      rfl
  induction s with
  | nil => rfl
  | cons c s ih =>
    rw [← utf8_eq, encodeUtf8_cons, utf8_eq]
    by_cases hc : c = sep
    · subst hc
      rw [Windows1252.encode_ascii hs]
      show splitBytes _ (UInt8.ofNat c.toNat :: utf8 s) = _
      unfold splitBytes Str.splitOn
      rw [if_pos rfl, if_pos rfl, ih]
      rfl
    · obtain ⟨p, ps, hps⟩ := List.exists_cons_of_ne_nil (splitOn_ne_nil sep s)
      have hne : ∀ b ∈ String.utf8EncodeChar c, b ≠ UInt8.ofNat sep.toNat := by
        intro b hb e
        by_cases ha : c.toNat < 128
        · rw [Windows1252.encode_ascii ha] at hb
          have h1 : b.toNat = c.toNat := by
            rw [List.mem_singleton.1 hb, UInt8.toNat_ofNat', Nat.mod_eq_of_lt (by omega)]
          rw [e, hsep] at h1
          exact hc (Char.toNat_inj.1 h1.symm)
        · have := (Windows1252.encode_other ha).2 b hb
          rw [e, hsep] at this
          omega
      rw [hps] at ih
      rw [hpre _ _ hne _ _ ih]
      unfold Str.splitOn
      rw [if_neg hc, hps]
      show _ = utf8 (c :: p) :: _
      rw [← utf8_eq (c :: p), encodeUtf8_cons, utf8_eq]

/-! ### Cases -/

/-- Characters of one to four bytes, in the order of their numbers; in UTF-16 the last two would be the other way round. -/
example : (compare (utf8 "z".toList) (utf8 "é".toList), compare (utf8 "é".toList) (utf8 "€".toList),
    compare (utf8 "\uFFFD".toList) (utf8 "😀".toList)) = (.lt, .lt, .lt) := by
  rw [C112_order, C112_order, C112_order]
  decide +kernel

/-- A place inside of a character is none where the text can be cut. -/
example : utf8 "é".toList = [0xC3] ++ [0xA9] ∧ Inner 0xA9 ∧ ¬ ∃ s1 s2, "é".toList = s1 ++ s2 ∧ [0xC3] = utf8 s1 ∧ [0xA9] = utf8 s2 := by
  refine ⟨by rw [← utf8_eq]; decide +kernel, by unfold Inner; decide, ?_⟩
  rintro ⟨s1, s2, -, h1, -⟩
  cases s1 with
  | nil => cases h1
  | cons c s =>
    rw [← utf8_eq, encodeUtf8_cons] at h1
    by_cases hc : c.toNat < 128
    · rw [Windows1252.encode_ascii hc] at h1
      have h2 : (0xC3 : UInt8) = UInt8.ofNat c.toNat := (List.cons.inj h1).1
      have h3 := congrArg UInt8.toNat h2
      rw [UInt8.toNat_ofNat', Nat.mod_eq_of_lt (by omega)] at h3
      have : (0xC3 : UInt8).toNat = 195 := rfl
      omega
    · have := (Windows1252.encode_other hc).1
      have h2 := congrArg List.length h1
      rw [List.length_append] at h2
      simp only [List.length_singleton] at h2
      omega

/-- "fé" is found in "café" and replaced in "é, café", where the first "é" stays; there is no "e" in "café". -/
example : utf8 "fé".toList <:+: utf8 "café".toList ∧ ¬ utf8 "e".toList <:+: utf8 "café".toList ∧
    replaceBytes (utf8 "fé".toList) (utf8 "b".toList) 0 (utf8 "é, café".toList) = utf8 "é, cab".toList := by
  rw [← C112_contains, ← C112_contains, ← C112_replace _ _ _ (by decide)]
  exact ⟨by decide +kernel, by decide +kernel, by congr 1⟩

example : splitBytes 10 (utf8 "é\n€".toList) = [utf8 "é".toList, utf8 "€".toList] := by
  have := C112_split '\n' (by decide) "é\n€".toList
  exact this.trans (by decide +kernel)

end Verif
