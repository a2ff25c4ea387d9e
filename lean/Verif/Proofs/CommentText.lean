import Verif.Proofs.CommentParse
import Verif.Spec.Comment
import Mathlib.Data.List.Pairwise

/-!
# Comments and their text
-/

namespace Verif
open Spec

/-! ### Trimming -/

theorem dropWhile_eq_self {p : Char → Bool} {s : Str} (h : ∀ c ∈ s.head?, p c = false) : s.dropWhile p = s := by
  cases s with
  | nil => rfl
  | cons c s => rw [List.dropWhile_cons, h c (by simp)]; simp

theorem trim_trimmed {s : Str} (h : Trimmed s) : s.trim = s := by
  unfold Str.trim Str.trimEnd Str.trimStart
  rw [dropWhile_eq_self h.1, dropWhile_eq_self (by rw [List.head?_reverse]; exact h.2), List.reverse_reverse]

theorem dropWhile_head {p : Char → Bool} (s : Str) : ∀ c ∈ (s.dropWhile p).head?, p c = false := by
  intro c hc
  induction s with
  | nil => simp at hc
  | cons d s ih =>
    rw [List.dropWhile_cons] at hc
    split at hc
    · exact ih hc
    · rename_i h
      simp at hc; subst hc; simpa using h

theorem dropWhile_suffix_getLast {p : Char → Bool} (s : Str) (h : s.dropWhile p ≠ []) :
    (s.dropWhile p).getLast? = s.getLast? := by
  obtain ⟨t, ht⟩ := List.dropWhile_suffix (l := s) p
  conv => rhs; rw [← ht]
  rw [List.getLast?_append]
  cases hl : (s.dropWhile p).getLast? with
  | none => rw [List.getLast?_eq_none_iff] at hl; exact absurd hl h
  | some a => simp

theorem trimmed_trim (s : Str) : Trimmed s.trim := by
  unfold Str.trim Str.trimEnd
  constructor
  · intro c hc
    rw [List.head?_reverse] at hc
    by_cases h : (s.trimStart.reverse.dropWhile Str.isWs) = []
    · rw [h] at hc; cases hc
    · rw [dropWhile_suffix_getLast _ h, List.getLast?_reverse] at hc
      exact dropWhile_head s c hc
  · intro c hc
    rw [List.getLast?_reverse] at hc
    exact dropWhile_head _ c hc

theorem trim_trim (s : Str) : s.trim.trim = s.trim := trim_trimmed (trimmed_trim s)

theorem mem_trim {s : Str} {c : Char} (h : c ∈ s.trim) : c ∈ s := by
  unfold Str.trim Str.trimEnd Str.trimStart at h
  rw [List.mem_reverse] at h
  have h1 := (List.dropWhile_sublist _).subset h
  rw [List.mem_reverse] at h1
  exact (List.dropWhile_sublist _).subset h1

theorem trim_space {l : Str} (h : Trimmed l) : Str.trim (' ' :: l) = l := by
  have : Str.trim (' ' :: l) = Str.trim l := by
    unfold Str.trim Str.trimStart
    rw [List.dropWhile_cons, if_pos (by decide)]
  rw [this, trim_trimmed h]

namespace Comment
open Rx

theorem word_iff {w : Str} : Word w ↔ IsWord w := isWord_iff.symm

/-! ### Recognising parts of a line -/

theorem findFlags_none_iff {l : Str} : findFlags l = none ↔ ¬ HasFlags l := by
  constructor
  · rintro h ⟨a, w, b, rfl, hw⟩
    have hw' := word_iff.1 hw
    induction a with
    | nil =>
      rw [List.nil_append, findFlags, pieces_some (piece?_append hw'.1 hw'.2), if_pos ⟨rfl, by simp⟩] at h
      cases h
    | cons c a ih =>
      rw [List.cons_append, findFlags] at h
      split at h
      · cases h
      · rw [Option.map_eq_none_iff] at h; exact ih h
  · intro h
    cases hf : findFlags l with
    | none => rfl
    | some q =>
      obtain ⟨b, ws, r⟩ := q
      obtain ⟨h1, h2, h3⟩ := findFlags_spec hf
      exfalso
      apply h
      match ws, h2 with
      | w :: ws, _ =>
        refine ⟨b, w, group ws ++ r, ?_, word_iff.2 (h3 w (by simp))⟩
        rw [h1]
        simp [group]

theorem spaceVal_isSome {t : Str} : (spaceVal t).isSome ↔ t ≠ [] := by
  unfold spaceVal
  split
  · simp_all
  · split <;> simp_all

theorem takeWhile_word {w r : Str} {c : Char} (hw : IsWord w) (hc : notColonSpace c = false) :
    (w ++ c :: r).takeWhile notColonSpace = w ∧ (w ++ c :: r).dropWhile notColonSpace = c :: r := by
  constructor
  · rw [List.takeWhile_append_of_pos hw.2, List.takeWhile_cons, hc]; simp
  · rw [List.dropWhile_append_of_pos hw.2, List.dropWhile_cons, hc]; simp

theorem dropWhile_spaces {n : Nat} {r : Str} (hr : ∀ c ∈ r.head?, c ≠ ' ') :
    (List.replicate n ' ' ++ r).dropWhile (· == ' ') = r := by
  rw [List.dropWhile_append_of_pos (by intro c hc; rw [List.mem_replicate] at hc; simp [hc.2])]
  exact dropWhile_eq_self (fun c hc => by simpa using hr c hc)

theorem head_word {w r : Str} (hw : IsWord w) : ∀ c ∈ (w ++ r).head?, c ≠ ' ' := by
  intro c hc
  match w, hw with
  | d :: w, hw =>
    simp at hc
    subst hc
    rintro rfl
    exact hw.space (by simp)

theorem valueTag?_isSome {l : Str} : (valueTag? l).isSome ↔ IsValueLine l := by
  constructor
  · intro h
    unfold valueTag? at h
    simp only at h
    split at h
    · cases h
    · rename_i hk
      refine ⟨(l.takeWhile (· == ' ')).length, (l.dropWhile (· == ' ')).takeWhile notColonSpace,
        ((l.dropWhile (· == ' ')).dropWhile notColonSpace).tail, ?_, word_iff.2 ⟨hk, fun c hc => List.mem_takeWhile_imp hc⟩, ?_⟩
      · have h1 : List.replicate (l.takeWhile (· == ' ')).length ' ' = l.takeWhile (· == ' ') := by
          symm
          rw [List.eq_replicate_iff]
          exact ⟨rfl, fun c hc => by simpa using List.mem_takeWhile_imp hc⟩
        have h2 : ((l.dropWhile (· == ' ')).dropWhile notColonSpace) = ':' :: ((l.dropWhile (· == ' ')).dropWhile notColonSpace).tail := by
          split at h
          · rename_i h'; rw [h']; rfl
          · rename_i h'; rw [h']; rfl
          · cases h
        rw [h1, ← h2, List.append_assoc, List.takeWhile_append_dropWhile, List.takeWhile_append_dropWhile]
      · split at h
        · rename_i h'; rw [h']; left; rfl
        · rename_i t h'; rw [h']; right
          rw [Option.isSome_map, spaceVal_isSome] at h
          exact ⟨t, h, rfl⟩
        · cases h
  · rintro ⟨n, k, tail, rfl, hk, ht⟩
    have hk' := word_iff.1 hk
    unfold valueTag?
    simp only
    rw [List.append_assoc, dropWhile_spaces (head_word hk'), (takeWhile_word hk' (by decide)).1, (takeWhile_word hk' (by decide)).2,
      if_neg hk'.1]
    rcases ht with rfl | ⟨v, hv, rfl⟩
    · rfl
    · show (Option.map _ (spaceVal v)).isSome
      rw [Option.isSome_map, spaceVal_isSome]; exact hv

theorem valueTag?_none {l : Str} (h : ¬ IsValueLine l) : valueTag? l = none := by
  rw [← valueTag?_isSome] at h
  cases hv : valueTag? l with
  | none => rfl
  | some q => rw [hv] at h; exact absurd rfl h

theorem valueTag?_some {l k v : Str} (h : valueTag? l = some (k, v)) :
    IsWord k ∧ (∀ c ∈ k, c ∈ l) ∧ (∀ c ∈ v, c ∈ l) := by
  unfold valueTag? at h
  simp only at h
  have hsub : ∀ c ∈ (l.dropWhile (· == ' ')), c ∈ l := fun c hc => (List.dropWhile_sublist _).subset hc
  split at h
  · cases h
  · rename_i hk
    split at h
    · cases h
      exact ⟨⟨hk, fun c hc => List.mem_takeWhile_imp hc⟩, fun c hc => hsub c ((List.takeWhile_sublist _).subset hc), by simp⟩
    · rename_i t ht
      rw [Option.map_eq_some_iff] at h
      obtain ⟨v', hv, he⟩ := h
      cases he
      refine ⟨⟨hk, fun c hc => List.mem_takeWhile_imp hc⟩, fun c hc => hsub c ((List.takeWhile_sublist _).subset hc), ?_⟩
      have hmem : ∀ c, c = ' ' ∨ c ∈ t → c ∈ l := by
        intro c hc
        apply hsub
        apply (List.dropWhile_sublist notColonSpace).subset
        rw [ht]; rcases hc with rfl | hc <;> simp [*]
      unfold spaceVal at hv
      split at hv
      · cases hv
      · split at hv
        · cases hv; intro c hc; exact hmem c (Or.inl (by simpa using hc))
        · cases hv; intro c hc; exact hmem c (Or.inr ((List.dropWhile_sublist _).subset hc))
    · cases h

/-- The line that is written for a value. -/
theorem valueTag?_written {k v : Str} (hk : Word k) (hv : v ≠ []) (ht : Trimmed v) : valueTag? (k ++ [':', ' '] ++ v) = some (k, v) := by
  have hk' := word_iff.1 hk
  have h1 : (k ++ [':', ' '] ++ v).dropWhile (· == ' ') = k ++ ':' :: (' ' :: v) := by
    rw [List.append_assoc]
    exact dropWhile_eq_self (fun c hc => by simpa using head_word hk' c hc)
  unfold valueTag?
  simp only
  rw [h1, (takeWhile_word hk' (by decide)).1, (takeWhile_word hk' (by decide)).2, if_neg hk'.1]
  show Option.map _ (spaceVal v) = _
  have h2 : v.dropWhile (· == ' ') = v := by
    refine dropWhile_eq_self (fun c hc => ?_)
    have := ht.1 c hc
    rw [beq_eq_false_iff_ne]
    rintro rfl
    exact absurd this (by decide)
  unfold spaceVal
  rw [h2, if_neg hv, if_neg hv]
  rfl

theorem not_valueLine_colon (l : Str) : valueTag? (':' :: l) = none := by
  unfold valueTag?
  have h1 : (':' :: l).dropWhile (· == ' ') = ':' :: l := by rw [List.dropWhile_cons, if_neg (by decide)]
  have h2 : (':' :: l).takeWhile notColonSpace = [] := by rw [List.takeWhile_cons]; rfl
  simp only
  rw [h1, if_pos h2]

theorem pieces_group {ws : List Str} (hw : ∀ w ∈ ws, IsWord w) {r : Str} (hr : ∀ c ∈ r.head?, notColonSpace c = false) :
    pieces (group ws ++ r) = (ws, r) := by
  induction ws with
  | nil =>
    have : piece? r = none := by
      unfold piece?
      rw [if_pos]
      cases r with
      | nil => rfl
      | cons c r => rw [List.takeWhile_cons, hr c (by simp)]; simp
    exact pieces_none this
  | cons w ws ih =>
    have hw0 := hw w (by simp)
    have : group (w :: ws) ++ r = w ++ ':' :: (group ws ++ r) := by simp [group]
    rw [this, pieces_some (piece?_append hw0.1 hw0.2), ih (fun x hx => hw x (by simp [hx]))]

/-- A line that is written for tags, possibly with text. -/
theorem parse_tags (c : Comment) {ws : List Str} (hne : ws ≠ []) (hw : ∀ w ∈ ws, Word w ∧ '\n' ∉ w) {text : Str}
    (ht : text = [] ∨ ∃ l, text = ' ' :: l ∧ l ≠ [] ∧ Trimmed l ∧ '\n' ∉ l ∧ ¬ HasFlags l) :
    parseLine c (':' :: (group ws ++ text)) =
      { addTags c ws with lines := c.lines ++ (if text = [] then [] else [text.tail]) } := by
  have hnl : '\n' ∉ ':' :: (group ws ++ text) := by
    rw [List.mem_cons, List.mem_append]
    rintro (h | h | h)
    · exact absurd h (by decide)
    · unfold group at h
      rw [List.mem_flatMap] at h
      obtain ⟨w, hwm, h⟩ := h
      rw [List.mem_append] at h
      rcases h with h | h
      · exact (hw w hwm).2 h
      · exact absurd (List.mem_singleton.1 h) (by decide)
    · rcases ht with rfl | ⟨l, rfl, _, _, hl, _⟩
      · cases h
      · rw [List.mem_cons] at h
        rcases h with h | h
        · exact absurd h (by decide)
        · exact hl h
  have hp : pieces (group ws ++ text) = (ws, text) := by
    apply pieces_group (fun w hwm => word_iff.1 (hw w hwm).1)
    intro d hd
    rcases ht with rfl | ⟨l, rfl, _⟩
    · cases hd
    · simp at hd; subst hd; decide
  have hf : findFlags (':' :: (group ws ++ text)) = some ([], ws, text) := by
    rw [findFlags, hp, if_pos ⟨rfl, hne⟩]
  rw [parseLine_eq _ _ hnl, not_valueLine_colon]
  simp only
  rw [addLine_some hf, pushText_nil]
  rcases ht with rfl | ⟨l, rfl, h1, h2, h3, h4⟩
  · rw [addLine_none rfl, pushText_nil, if_pos rfl, List.append_nil]
    rfl
  · have : findFlags (' ' :: l) = none := by
      rw [findFlags, if_neg (by simp), findFlags_none_iff.2 h4]; rfl
    rw [addLine_none this]
    unfold pushText
    simp only [trim_space h2, if_neg (by simp : ¬ (' ' :: l) = []), List.tail_cons]
    rw [if_neg (by simpa using h1)]
    rfl

/-- A line that is written for text. -/
theorem parse_text (c : Comment) {l : Str} (h1 : l ≠ []) (h2 : Trimmed l) (h3 : '\n' ∉ l) (h4 : ¬ HasFlags l) (h5 : ¬ IsValueLine l) :
    parseLine c l = { c with lines := c.lines ++ [l] } := by
  rw [parseLine_eq _ _ h3, valueTag?_none h5]
  simp only
  rw [addLine_none (findFlags_none_iff.2 h4)]
  unfold pushText
  simp only [trim_trimmed h2]
  rw [if_neg (by simpa using h1)]

/-- A line that is written for a value. -/
theorem parse_value (c : Comment) {k v : Str} (hk : Word k) (hkn : '\n' ∉ k) (hv : v ≠ []) (ht : Trimmed v) (hvn : '\n' ∉ v) :
    parseLine c (k ++ [':', ' '] ++ v) = { c with valueTags := c.valueTags.insert k v } := by
  rw [parseLine_eq, valueTag?_written hk hv ht]
  simp only [List.mem_append, List.mem_cons, List.not_mem_nil, or_false]
  rintro ((h | h | h) | h)
  · exact hkn h
  · exact absurd h (by decide)
  · exact absurd h (by decide)
  · exact hvn h

end Comment
end Verif
