import Verif.Proofs.CommentFormat
import Verif.Proofs.Posting
import Mathlib.Tactic.Tauto
import Mathlib.Data.List.Induction

/-!
# C26 – C30: comments and their text
-/

namespace Verif
open Spec Comment

/-- Parse a comment and write it again. -/
def reformat (h : HashOrder) (t : Option Str) : Option Str := intoOptComment h (fromOptComment t)

/-! ## C30 -/

/-- C30: the text of a comment is its `layout`, whatever the iteration orders. -/
theorem C30_layout (h : HashOrder) (c : Comment) :
    intoOptComment h c = if layout c = [] then none else some (sepBy "\n".toList (layout c)) := intoOptComment_eq h c

theorem tagText_nil_iff {c : Comment} : tagText c = [] ↔ c.tags = ∅ := by
  constructor
  · intro h
    unfold tagText at h
    simp only [List.append_eq_nil_iff, List.map_eq_nil_iff] at h
    obtain ⟨h1, h2⟩ := h
    have h1' : c.tags.toList.filter (fun t => decide (bytes t ≤ 12)) = [] := by
      by_contra hn
      rw [if_neg hn] at h1; cases h1
    apply Std.ExtTreeSet.ext_mem
    intro t
    rw [← Std.ExtTreeSet.mem_toList]
    constructor
    · intro ht
      exfalso
      by_cases hb : bytes t ≤ 12
      · exact List.filter_eq_nil_iff.1 h1' t ht (by simpa using hb)
      · exact List.filter_eq_nil_iff.1 h2 t ht (by simpa using hb)
    · intro ht; simp at ht
  · intro h
    unfold tagText
    rw [h]; rfl

theorem layout_nil_iff {c : Comment} : layout c = [] ↔ c = Comment.empty := by
  constructor
  · intro h
    rw [layout_eq, List.append_eq_nil_iff, List.map_eq_nil_iff] at h
    obtain ⟨h1, h2⟩ := h
    have h3 : tagText c = [] ∧ c.lines.map Str.trim = [] := by
      split at h1
      · cases h1
      · exact List.append_eq_nil_iff.1 h1
    have h4 : c.tags = ∅ := tagText_nil_iff.1 h3.1
    have h5 : c.lines = [] := List.map_eq_nil_iff.1 h3.2
    have h6 : c.valueTags = ∅ := Std.ExtTreeMap.toList_eq_nil_iff.1 h2
    cases c
    simp only at h4 h5 h6
    subst h4 h5 h6
    rfl
  · rintro rfl; rfl

/-- C30: there is no text exactly for the empty comment. -/
theorem C30_absent_iff_empty (h : HashOrder) (c : Comment) : intoOptComment h c = none ↔ c = Comment.empty := by
  rw [C30_layout, ← layout_nil_iff]
  split <;> simp_all

/-- C30: the tags and keys in the layout are in strictly ascending order. -/
theorem C30_sorted (c : Comment) : c.tags.toList.Pairwise (fun a b => compare a b = .lt) ∧
    c.valueTags.toList.Pairwise (fun a b => compare a.1 b.1 = .lt) :=
  ⟨Std.ExtTreeSet.ordered_toList, Std.ExtTreeMap.ordered_keys_toList⟩

/-- A comment with short and long tags, text and values. -/
def sample : Comment :=
  ⟨["a : b".toList, "more".toList],
   (((∅ : TagSet).insert "zz".toList).insert "a".toList).insert "a-rather-long-tag".toList,
   ((∅ : StrMap).insert "n".toList "v w".toList).insert "k".toList "1".toList⟩

set_option maxRecDepth 100000 in
example : intoOptComment HashOrder.rev sample =
    some ":a:zz: a : b\n:a-rather-long-tag:\nmore\nk: 1\nn: v w".toList := by
  rw [C30_layout]; decide +kernel

/-! ## C28 -/

/-- What the parser makes of any text. -/
structure Parsed (c : Comment) : Prop where
  tags : ∀ t ∈ c.tags, Word t ∧ '\n' ∉ t
  keys : ∀ (k v : Str), c.valueTags[k]? = some v → Word k ∧ '\n' ∉ k ∧ '\n' ∉ v
  lines : ∀ l ∈ c.lines, l ≠ [] ∧ Trimmed l ∧ '\n' ∉ l ∧ ¬ HasFlags l

theorem mem_addTags {c : Comment} {ws : List Str} {t : Str} : t ∈ (addTags c ws).tags ↔ t ∈ c.tags ∨ t ∈ ws := by
  unfold addTags
  simp only
  generalize c.tags = s
  induction ws generalizing s with
  | nil => simp
  | cons w ws ih =>
    rw [List.foldl_cons, ih, Std.ExtTreeSet.mem_insert, Std.LawfulEqOrd.compare_eq_iff_eq, List.mem_cons]
    constructor
    · rintro ((h | h) | h)
      · exact Or.inr (Or.inl h.symm)
      · exact Or.inl h
      · exact Or.inr (Or.inr h)
    · rintro (h | h | h)
      · exact Or.inl (Or.inr h)
      · exact Or.inl (Or.inl h.symm)
      · exact Or.inr h

theorem hasFlags_append_left {a b : Str} (h : HasFlags a) : HasFlags (a ++ b) := by
  obtain ⟨x, w, y, rfl, hw⟩ := h
  exact ⟨x, w, y ++ b, by simp, hw⟩

theorem hasFlags_append_right {a b : Str} (h : HasFlags b) : HasFlags (a ++ b) := by
  obtain ⟨x, w, y, rfl, hw⟩ := h
  exact ⟨a ++ x, w, y, by simp, hw⟩

theorem hasFlags_trim {s : Str} (h : HasFlags s.trim) : HasFlags s := by
  have h1 : s = s.takeWhile Str.isWs ++ s.trimStart := by
    unfold Str.trimStart; rw [List.takeWhile_append_dropWhile]
  have h2 : s.trimStart = s.trim ++ (s.trimStart.reverse.takeWhile Str.isWs).reverse := by
    unfold Str.trim Str.trimEnd
    rw [← List.reverse_append, List.takeWhile_append_dropWhile, List.reverse_reverse]
  rw [h1]
  apply hasFlags_append_right
  rw [h2]
  exact hasFlags_append_left h

/-- No group of flags starts before the one that is found. -/
theorem findFlags_before {t b r : Str} {ws : List Str} (h : findFlags t = some (b, ws, r)) : ¬ HasFlags b := by
  induction t generalizing b with
  | nil => cases h
  | cons c cs ih =>
    unfold findFlags at h
    split at h
    · cases h
      rintro ⟨a, w, b, he, _⟩
      have := congrArg List.length he
      simp at this
    · rename_i hc
      rw [Option.map_eq_some_iff] at h
      obtain ⟨⟨b', ws', r'⟩, hq, he⟩ := h
      cases he
      rintro ⟨a, w, y, he, hw⟩
      cases a with
      | nil =>
        rw [List.nil_append, List.cons.injEq] at he
        apply hc
        refine ⟨he.1, ?_⟩
        have hs := (findFlags_spec hq).1
        have he2 : b' = w ++ ':' :: y := he.2
        rw [hs, he2]
        have hw' := word_iff.1 hw
        have : w ++ ':' :: y ++ ':' :: (group ws ++ r) = w ++ ':' :: (y ++ ':' :: (group ws ++ r)) := by simp
        rw [this, pieces_some (piece?_append hw'.1 hw'.2)]
        simp
      | cons d a =>
        rw [List.cons_append, List.cons.injEq] at he
        exact ih hq ⟨a, w, y, he.2, hw⟩

theorem Parsed.pushText {c : Comment} (hc : Parsed c) {t : Str} (hn : '\n' ∉ t) (hf : ¬ HasFlags t) : Parsed (pushText c t) := by
  unfold Comment.pushText
  simp only
  split
  · exact hc
  · rename_i hne
    refine ⟨hc.tags, hc.keys, ?_⟩
    intro l hl
    rcases List.mem_append.1 hl with hl | hl
    · exact hc.lines l hl
    · rw [List.mem_singleton] at hl
      subst hl
      exact ⟨by simpa using hne, trimmed_trim t, fun h => hn (mem_trim h), fun h => hf (hasFlags_trim h)⟩

theorem Parsed.addLine {c : Comment} (hc : Parsed c) {t : Str} (hn : '\n' ∉ t) : Parsed (addLine c t) := by
  induction hl : t.length using Nat.strong_induction_on generalizing t c with
  | _ n ih =>
    cases h : findFlags t with
    | none => rw [addLine_none h]; exact hc.pushText hn (findFlags_none_iff.1 h)
    | some q =>
      obtain ⟨b, ws, r⟩ := q
      obtain ⟨h1, h2, h3⟩ := findFlags_spec h
      rw [addLine_some h]
      have hb : '\n' ∉ b := fun hx => hn (by rw [h1]; simp [hx])
      have hr : '\n' ∉ r := fun hx => hn (by rw [h1]; simp [hx])
      have hws : ∀ w ∈ ws, '\n' ∉ w := by
        intro w hw hx
        apply hn
        rw [h1]
        simp only [List.mem_append, List.mem_cons]
        right; right; left
        unfold group
        rw [List.mem_flatMap]
        exact ⟨w, hw, by simp [hx]⟩
      have hp := hc.pushText hb (findFlags_before h)
      refine ih r.length (by rw [← hl, h1]; simp; omega) ?_ hr rfl
      refine ⟨?_, hp.keys, hp.lines⟩
      intro t ht
      rcases mem_addTags.1 ht with ht | ht
      · exact hp.tags t ht
      · exact ⟨word_iff.2 (h3 t ht), hws t ht⟩

theorem Parsed.parseLine {c : Comment} (hc : Parsed c) {t : Str} (hn : '\n' ∉ t) : Parsed (parseLine c t) := by
  rw [parseLine_eq c t hn]
  cases h : valueTag? t with
  | none => exact hc.addLine hn
  | some q =>
    obtain ⟨k, v⟩ := q
    obtain ⟨h1, h2, h3⟩ := valueTag?_some h
    refine ⟨hc.tags, ?_, hc.lines⟩
    intro k' v' hv
    rw [Std.ExtTreeMap.getElem?_insert] at hv
    split at hv
    · rename_i he
      have := Std.LawfulEqOrd.eq_of_compare he
      subst this
      cases hv
      exact ⟨word_iff.2 h1, fun hx => hn (h2 _ hx), fun hx => hn (h3 _ hx)⟩
    · exact hc.keys k' v' hv

theorem splitOn_no_sep (sep : Char) (s : Str) : ∀ p ∈ Str.splitOn sep s, sep ∉ p := by
  induction s with
  | nil => intro p hp; simp [Str.splitOn] at hp; subst hp; simp
  | cons c cs ih =>
    intro p hp
    rw [Str.splitOn] at hp
    split at hp
    · rcases List.mem_cons.1 hp with rfl | hp
      · simp
      · exact ih p hp
    · rename_i hc
      split at hp
      · rename_i h0
        simp at hp; subst hp; simpa using fun h => hc h.symm
      · rename_i q qs hq
        rcases List.mem_cons.1 hp with rfl | hp
        · have := ih q (by rw [hq]; simp)
          simp only [List.mem_cons, not_or]
          exact ⟨fun h => hc h.symm, this⟩
        · exact ih p (by rw [hq]; simp [hp])

theorem parsed_empty : Parsed Comment.empty :=
  ⟨by intro t ht; simp [Comment.empty] at ht, by intro k v h; simp [Comment.empty] at h, by intro l hl; cases hl⟩

/-- C28: whatever the text, the parts of the parsed comment are well formed: tags and keys are non-empty words without
colon, space and newline, lines of text are trimmed, not empty, on one line and without flag groups, and values are
on one line. -/
theorem C28_parts (t : Option Str) : Parsed (fromOptComment t) := by
  cases t with
  | none => exact parsed_empty
  | some s =>
    show Parsed ((Str.splitOn '\n' s).foldl Comment.parseLine Comment.empty)
    have hs := splitOn_no_sep '\n' s
    generalize Str.splitOn '\n' s = ls at hs
    have : ∀ (c : Comment), Parsed c → Parsed (ls.foldl parseLine c) := by
      induction ls with
      | nil => intro c hc; exact hc
      | cons l ls ih =>
        intro c hc
        exact ih (fun p hp => hs p (by simp [hp])) _ (hc.parseLine (hs l (by simp)))
    exact this _ parsed_empty

/-- C28: no comment parses to the empty comment. -/
theorem C28_none : fromOptComment none = Comment.empty := rfl

/-- A text with all kinds of parts. -/
def messy : Str := "start text :TAG1:TAG2: end : text : with : colons\nk:\n k2:  v \n:x: y: z".toList

set_option maxRecDepth 100000 in
example : fromOptComment (some messy) =
    ⟨["start text".toList, "end : text : with : colons".toList, "y: z".toList],
     (((∅ : TagSet).insert "TAG1".toList).insert "TAG2".toList).insert "x".toList,
     ((∅ : StrMap).insert "k".toList []).insert "k2".toList "v ".toList⟩ := by decide +kernel

/-! ## C26 -/

theorem foldl_insert_values (l : List (Str × Str)) (hd : l.Pairwise (fun a b => ¬ compare a.1 b.1 = .eq)) (m : StrMap) (k : Str) :
    (l.foldl (fun m e => m.insert e.1 e.2) m)[k]? = ((l.find? (fun e => e.1 = k)).map (·.2)).or m[k]? := by
  induction l generalizing m with
  | nil => simp
  | cons e l ih =>
    rw [List.pairwise_cons] at hd
    rw [List.foldl_cons, ih hd.2, Std.ExtTreeMap.getElem?_insert]
    by_cases he : e.1 = k
    · have hn : l.find? (fun e => e.1 = k) = none := by
        rw [List.find?_eq_none]
        intro x hx
        have := hd.1 x hx
        rw [Std.LawfulEqOrd.compare_eq_iff_eq, he] at this
        simpa using fun h => this h.symm
      rw [hn, List.find?_cons_of_pos (by simpa using he), if_pos (Std.LawfulEqOrd.compare_eq_iff_eq.2 he)]
      simp
    · rw [List.find?_cons_of_neg (by simpa using he), if_neg (fun h => he (Std.LawfulEqOrd.compare_eq_iff_eq.1 h))]

theorem foldl_insert_toList (vt : StrMap) : vt.toList.foldl (fun m e => m.insert e.1 e.2) (∅ : StrMap) = vt := by
  apply Std.ExtTreeMap.ext_getElem?
  intro k
  rw [foldl_insert_values _ Std.ExtTreeMap.distinct_keys_toList]
  cases hf : vt.toList.find? (fun e => e.1 = k) with
  | none =>
    rw [List.find?_eq_none] at hf
    cases hv : vt[k]? with
    | none => simp
    | some v => exact absurd (decide_eq_true rfl) (hf (k, v) (Std.ExtTreeMap.mem_toList_iff_getElem?_eq_some.2 hv))
  | some e =>
    have hm := List.mem_of_find?_eq_some hf
    have he : e.1 = k := by simpa using List.find?_some hf
    have : vt[k]? = some e.2 := by
      rw [← he]; exact Std.ExtTreeMap.mem_toList_iff_getElem?_eq_some.1 hm
    rw [this]; rfl

/-- The groups of tags that are written on one line each. -/
def groups (c : Comment) : List (List Str) :=
  let short := c.tags.toList.filter (fun t => bytes t ≤ 12)
  let long := c.tags.toList.filter (fun t => 12 < bytes t)
  (if short = [] then [] else [short]) ++ long.map (fun t => [t])

theorem tagText_groups (c : Comment) : tagText c = (groups c).map (fun ws => ':' :: group ws) := by
  unfold tagText groups
  simp only [List.map_append, List.map_map]
  congr 1
  · split
    · rfl
    · rename_i h
      rw [List.map_cons, List.map_nil, group_eq_join h, join_eq]
      rfl
  · apply List.map_congr_left
    intro t _
    simp [group]

theorem groups_ne {c : Comment} : ∀ ws ∈ groups c, ws ≠ [] := by
  intro ws hws
  unfold groups at hws
  simp only [List.mem_append, List.mem_map] at hws
  rcases hws with h | ⟨t, _, rfl⟩
  · split at h
    · cases h
    · rename_i hn; rw [List.mem_singleton] at h; subst h; exact hn
  · simp

theorem mem_groups {c : Comment} {t : Str} : (∃ ws ∈ groups c, t ∈ ws) ↔ t ∈ c.tags := by
  rw [← Std.ExtTreeSet.mem_toList]
  unfold groups
  simp only [List.mem_append, List.mem_map]
  constructor
  · rintro ⟨ws, (h | ⟨t', h, rfl⟩), ht⟩
    · split at h
      · cases h
      · rw [List.mem_singleton] at h; subst h; exact (List.mem_filter.1 ht).1
    · rw [List.mem_singleton] at ht; subst ht; exact (List.mem_filter.1 h).1
  · intro ht
    by_cases hb : bytes t ≤ 12
    · have hm : t ∈ c.tags.toList.filter (fun t => decide (bytes t ≤ 12)) := List.mem_filter.2 ⟨ht, by simpa using hb⟩
      refine ⟨_, Or.inl ?_, hm⟩
      rw [if_neg (List.ne_nil_of_mem hm)]; simp
    · exact ⟨[t], Or.inr ⟨t, List.mem_filter.2 ⟨ht, by simpa using hb⟩, rfl⟩, by simp⟩

theorem fold_tag_lines (gs : List (List Str)) (hne : ∀ ws ∈ gs, ws ≠ []) (hw : ∀ ws ∈ gs, ∀ w ∈ ws, Word w ∧ '\n' ∉ w) (c : Comment) :
    (gs.map (fun ws => ':' :: group ws)).foldl parseLine c = addTags c gs.flatten := by
  induction gs generalizing c with
  | nil => rfl
  | cons ws gs ih =>
    rw [List.map_cons, List.foldl_cons]
    have h1 := parse_tags c (hne ws (by simp)) (hw ws (by simp)) (text := []) (Or.inl rfl)
    rw [List.append_nil, if_pos rfl, List.append_nil] at h1
    rw [h1, ih (fun x hx => hne x (by simp [hx])) (fun x hx => hw x (by simp [hx]))]
    unfold addTags
    rw [List.flatten_cons, List.foldl_append]

theorem fold_text_lines (ls : List Str) (hl : ∀ l ∈ ls, l ≠ [] ∧ Trimmed l ∧ '\n' ∉ l ∧ ¬ HasFlags l) (hv : ∀ l ∈ ls, ¬ IsValueLine l)
    (c : Comment) : ls.foldl parseLine c = { c with lines := c.lines ++ ls } := by
  induction ls generalizing c with
  | nil => simp
  | cons l ls ih =>
    obtain ⟨h1, h2, h3, h4⟩ := hl l (by simp)
    rw [List.foldl_cons, parse_text c h1 h2 h3 h4 (hv l (by simp)), ih (fun x hx => hl x (by simp [hx])) (fun x hx => hv x (by simp [hx]))]
    simp

theorem fold_value_lines (es : List (Str × Str))
    (he : ∀ e ∈ es, Word e.1 ∧ '\n' ∉ e.1 ∧ e.2 ≠ [] ∧ Trimmed e.2 ∧ '\n' ∉ e.2) (c : Comment) :
    (es.map (fun e => e.1 ++ [':', ' '] ++ e.2)).foldl parseLine c =
      { c with valueTags := es.foldl (fun m e => m.insert e.1 e.2) c.valueTags } := by
  induction es generalizing c with
  | nil => rfl
  | cons e es ih =>
    obtain ⟨h1, h2, h3, h4, h5⟩ := he e (by simp)
    rw [List.map_cons, List.foldl_cons, parse_value c h1 h2 h3 h4 h5, ih (fun x hx => he x (by simp [hx]))]
    rfl

theorem no_newline_group {ws : List Str} (hw : ∀ w ∈ ws, '\n' ∉ w) : '\n' ∉ group ws := by
  unfold group
  rw [List.mem_flatMap]
  rintro ⟨w, hwm, h⟩
  rw [List.mem_append] at h
  rcases h with h | h
  · exact hw w hwm h
  · exact absurd (List.mem_singleton.1 h) (by decide)

theorem fold_first (c : Comment) (hc : Normal c) :
    (match tagText c, c.lines with
      | t :: ts, l :: ls => (t ++ [' '] ++ l) :: (ts ++ ls)
      | ts, ls => ts ++ ls).foldl parseLine Comment.empty = { c with valueTags := ∅ } := by
  have hgw : ∀ ws ∈ groups c, ∀ w ∈ ws, Word w ∧ '\n' ∉ w := fun ws hws w hw => hc.tags w (mem_groups.1 ⟨ws, hws, hw⟩)
  have htags : ∀ d : Comment, d.tags = ∅ → (addTags d (groups c).flatten).tags = c.tags := by
    intro d hd
    apply Std.ExtTreeSet.ext_mem
    intro t
    rw [mem_addTags, hd, List.mem_flatten, ← mem_groups (c := c)]
    simp
  have hnv := hc.notValue
  rw [tagText_groups]
  match hg : groups c, hl : c.lines with
  | [], ls =>
    have hte : c.tags = ∅ := tagText_nil_iff.1 (by rw [tagText_groups, hg]; rfl)
    rw [hte] at hnv
    simp only [List.map_nil, List.nil_append]
    rw [fold_text_lines ls (fun l h => hc.lines l (by rw [hl]; exact h)) (fun l h => hnv l (by simpa [hl] using h))]
    cases c
    simp only at hte hl
    subst hte hl
    rfl
  | g :: gs, [] =>
    simp only [List.map_cons, List.append_nil]
    have := fold_tag_lines (groups c) groups_ne hgw Comment.empty
    rw [hg, List.map_cons] at this
    rw [this]
    have h1 := htags Comment.empty rfl
    rw [hg] at h1
    have h2 : (addTags Comment.empty (g :: gs).flatten) = ⟨[], (addTags Comment.empty (g :: gs).flatten).tags, ∅⟩ := rfl
    rw [h2, h1]
  | g :: gs, l :: ls =>
    have hte : ¬ c.tags.isEmpty = true := by
      intro h
      have : c.tags = ∅ := by simpa using h
      have := tagText_nil_iff.2 this
      rw [tagText_groups, hg] at this; cases this
    rw [if_neg hte, hl, List.tail_cons] at hnv
    obtain ⟨h1, h2, h3, h4⟩ := hc.lines l (by rw [hl]; simp)
    simp only [List.map_cons]
    rw [List.foldl_cons, List.foldl_append]
    have e1 : ':' :: group g ++ [' '] ++ l = ':' :: (group g ++ ' ' :: l) := by simp
    rw [e1, parse_tags Comment.empty (groups_ne g (by rw [hg]; simp)) (hgw g (by rw [hg]; simp))
      (Or.inr ⟨l, rfl, h1, h2, h3, h4⟩), fold_tag_lines gs (fun x hx => groups_ne x (by rw [hg]; simp [hx]))
      (fun x hx => hgw x (by rw [hg]; simp [hx])),
      fold_text_lines ls (fun x hx => hc.lines x (by rw [hl]; simp [hx])) hnv]
    have h5 := htags ⟨[l], ∅, ∅⟩ rfl
    rw [hg] at h5
    have e2 : (addTags { (addTags Comment.empty g) with lines := Comment.empty.lines ++ if ' ' :: l = [] then [] else [(' ' :: l).tail] } gs.flatten) =
        ⟨[l], (addTags ⟨[l], ∅, ∅⟩ (g :: gs).flatten).tags, ∅⟩ := by
      unfold addTags
      rw [List.flatten_cons, List.foldl_append]
      rfl
    rw [e2, h5]
    cases c
    simp only at hl
    subst hl
    rfl

theorem layout_normal {c : Comment} (hc : Normal c) : layout c =
    (match tagText c, c.lines with
      | t :: ts, l :: ls => (t ++ [' '] ++ l) :: (ts ++ ls)
      | ts, ls => ts ++ ls) ++ c.valueTags.toList.map (fun e => e.1 ++ [':', ' '] ++ e.2) := by
  rw [layout_eq]
  have h1 : c.lines.map Str.trim = c.lines := by
    have : c.lines.map Str.trim = c.lines.map id :=
      List.map_congr_left (fun l hl => trim_trimmed (hc.lines l hl).2.1)
    rw [this, List.map_id]
  rw [h1]
  congr 1
  apply List.map_congr_left
  intro e he
  have hv := Std.ExtTreeMap.mem_toList_iff_getElem?_eq_some.1 he
  rw [trim_trimmed (hc.keys _ _ hv).2.1, trim_trimmed (hc.values _ _ hv).2.1]
  rfl

theorem layout_no_newline {c : Comment} (hc : Normal c) : ∀ l ∈ layout c, '\n' ∉ l := by
  have htext : ∀ t ∈ tagText c, '\n' ∉ t := by
    rw [tagText_groups]
    intro t ht
    obtain ⟨ws, hws, rfl⟩ := List.mem_map.1 ht
    rw [List.mem_cons, not_or]
    exact ⟨by decide, no_newline_group (fun w hw => (hc.tags w (mem_groups.1 ⟨ws, hws, hw⟩)).2)⟩
  rw [layout_normal hc]
  intro l hl
  rcases List.mem_append.1 hl with hl | hl
  · split at hl
    · rename_i t ts k ks h1 h2
      rcases List.mem_cons.1 hl with rfl | hl
      · simp only [List.mem_append, List.mem_singleton, not_or]
        exact ⟨⟨htext t (by rw [h1]; simp), by decide⟩, (hc.lines k (by rw [h2]; simp)).2.2.1⟩
      · rcases List.mem_append.1 hl with hl | hl
        · exact htext l (by rw [h1]; simp [hl])
        · exact (hc.lines l (by rw [h2]; simp [hl])).2.2.1
    · rcases List.mem_append.1 hl with hl | hl
      · exact htext l hl
      · exact (hc.lines l hl).2.2.1
  · obtain ⟨e, he, rfl⟩ := List.mem_map.1 hl
    have hv := Std.ExtTreeMap.mem_toList_iff_getElem?_eq_some.1 he
    simp only [List.mem_append, List.mem_cons, List.not_mem_nil, or_false, not_or]
    exact ⟨⟨(hc.keys _ _ hv).2.2, by decide, by decide⟩, (hc.values _ _ hv).2.2⟩

/-- C26: a comment in normal form is read back from its text. -/
theorem C26_round_trip (h : HashOrder) (c : Comment) (hc : Normal c) : fromOptComment (intoOptComment h c) = c := by
  rw [intoOptComment_eq]
  split
  · rename_i he
    rw [layout_nil_iff.1 he]; rfl
  · rename_i he
    unfold fromOptComment
    simp only
    rw [← join_eq, splitOn_join he (layout_no_newline hc), layout_normal hc, List.foldl_append, fold_first c hc,
      fold_value_lines _ (fun e hem => by
        have hv := Std.ExtTreeMap.mem_toList_iff_getElem?_eq_some.1 hem
        exact ⟨(hc.keys _ _ hv).1, (hc.keys _ _ hv).2.2, hc.values _ _ hv⟩)]
    simp only [foldl_insert_toList]

/-! `sample` is in normal form, so that C26 applies to it. -/

theorem not_hasFlags_eval {l : Str} (h : findFlags l = none) : ¬ HasFlags l := findFlags_none_iff.1 h

set_option maxRecDepth 100000 in
theorem sample_normal : Normal sample where
  tags := by
    have : ∀ t ∈ sample.tags.toList, Word t ∧ '\n' ∉ t := by decide +kernel
    intro t ht
    exact this t (Std.ExtTreeSet.mem_toList.2 ht)
  keys := by
    have : ∀ e ∈ sample.valueTags.toList, Word e.1 ∧ Trimmed e.1 ∧ '\n' ∉ e.1 := by decide +kernel
    intro k v h
    exact this (k, v) (Std.ExtTreeMap.mem_toList_iff_getElem?_eq_some.2 h)
  values := by
    have : ∀ e ∈ sample.valueTags.toList, e.2 ≠ [] ∧ Trimmed e.2 ∧ '\n' ∉ e.2 := by decide +kernel
    intro k v h
    exact this (k, v) (Std.ExtTreeMap.mem_toList_iff_getElem?_eq_some.2 h)
  lines := by
    have : ∀ l ∈ sample.lines, l ≠ [] ∧ Trimmed l ∧ '\n' ∉ l ∧ findFlags l = none := by decide +kernel
    intro l hl
    obtain ⟨h1, h2, h3, h4⟩ := this l hl
    exact ⟨h1, h2, h3, not_hasFlags_eval h4⟩
  notValue := by
    have : ∀ l ∈ (if sample.tags.isEmpty then sample.lines else sample.lines.tail), valueTag? l = none := by decide +kernel
    intro l hl
    exact fun h => by have h2 := valueTag?_isSome.2 h; rw [this l hl] at h2; cases h2

example (h : HashOrder) : fromOptComment (intoOptComment h sample) = sample := C26_round_trip h sample sample_normal

/-! ## C27

The claim fails: see `C27_counterexample`. -/

set_option maxRecDepth 100000 in
/-- C27 does not hold: a key without value becomes, in turn, a line of text and a key again; the text never settles. And
a line of text that looks like a value moves behind the other text. -/
theorem C27_counterexample (h : HashOrder) :
    (reformat h (some "k:".toList) = some "k: ".toList ∧ reformat h (some "k: ".toList) = some "k:".toList) ∧
    (reformat h (some "a\n:x: k: v\nb".toList) = some ":x: a\nk: v\nb".toList ∧
      reformat h (some ":x: a\nk: v\nb".toList) = some ":x: a\nb\nk: v".toList) := by
  unfold reformat
  rw [C30_layout, C30_layout, C30_layout, C30_layout]
  decide +kernel

/-- The comment with all values trimmed. -/
def trimValues (c : Comment) : Comment := { c with valueTags := c.valueTags.map (fun _ v => Str.trim v) }

theorem layout_trimValues (c : Comment) : layout (trimValues c) = layout c := by
  rw [layout_eq, layout_eq]
  have : tagText (trimValues c) = tagText c := rfl
  rw [this]
  have : (trimValues c).lines = c.lines := rfl
  rw [this]
  congr 1
  unfold trimValues
  simp only
  rw [Std.ExtTreeMap.toList_map, List.map_map]
  apply List.map_congr_left
  intro e _
  simp [trim_trim]

/-- C27, as far as it holds: writing a parsed comment again changes nothing any more if all its values have text, its keys
have no white space at their ends, and none of its lines of text that is written on a line of its own looks like a value.
Missing: the texts for which the claim fails. -/
theorem C27_partial (h : HashOrder) (t : Option Str)
    (hv : ∀ (k v : Str), (fromOptComment t).valueTags[k]? = some v → Trimmed k ∧ v.trim ≠ [])
    (hl : ∀ l ∈ (if (fromOptComment t).tags.isEmpty then (fromOptComment t).lines else (fromOptComment t).lines.tail),
      ¬ IsValueLine l) :
    reformat h (reformat h t) = reformat h t := by
  have hp := C28_parts t
  unfold reformat
  generalize fromOptComment t = c at *
  have hn : Normal (trimValues c) := by
    have hm : ∀ (k v : Str), (trimValues c).valueTags[k]? = some v → ∃ w, c.valueTags[k]? = some w ∧ v = w.trim := by
      intro k v h
      unfold trimValues at h
      simp only [Std.ExtTreeMap.getElem?_map, Option.map_eq_some_iff] at h
      obtain ⟨w, h1, h2⟩ := h
      exact ⟨w, h1, h2.symm⟩
    refine ⟨hp.tags, ?_, ?_, hp.lines, hl⟩
    · intro k v h
      obtain ⟨w, h1, _⟩ := hm k v h
      exact ⟨(hp.keys k w h1).1, (hv k w h1).1, (hp.keys k w h1).2.1⟩
    · intro k v h
      obtain ⟨w, h1, rfl⟩ := hm k v h
      exact ⟨(hv k w h1).2, trimmed_trim w, fun hx => (hp.keys k w h1).2.2 (mem_trim hx)⟩
  have he : intoOptComment h c = intoOptComment h (trimValues c) := by
    rw [C30_layout, C30_layout, layout_trimValues]
  rw [he, C26_round_trip h _ hn]

theorem mem_of_mem_splitOn {sep : Char} {s p : Str} {c : Char} (hp : p ∈ Str.splitOn sep s) (hc : c ∈ p) : c ∈ s := by
  induction s generalizing p with
  | nil => simp [Str.splitOn] at hp; subst hp; exact hc
  | cons d cs ih =>
    rw [Str.splitOn] at hp
    split at hp
    · rcases List.mem_cons.1 hp with rfl | hp
      · cases hc
      · exact List.mem_cons_of_mem _ (ih hp hc)
    · split at hp
      · simp at hp; subst hp
        simp at hc; subst hc; simp
      · rename_i q qs hq
        rcases List.mem_cons.1 hp with rfl | hp
        · rcases List.mem_cons.1 hc with rfl | hc
          · simp
          · exact List.mem_cons_of_mem _ (ih (by rw [hq]; simp) hc)
        · exact List.mem_cons_of_mem _ (ih (by rw [hq]; simp [hp]) hc)

/-- C27 for texts in which no colon occurs. -/
theorem C27_plain_partial (h : HashOrder) (t : Str) (ht : ':' ∉ t) : reformat h (reformat h (some t)) = reformat h (some t) := by
  have hmem : ∀ p ∈ Str.splitOn '\n' t, ':' ∉ p := by
    intro p hp hc
    exact ht (mem_of_mem_splitOn hp hc)
  have key : ∀ (ls : List Str) (c : Comment), (∀ p ∈ ls, ':' ∉ p ∧ '\n' ∉ p) → c.valueTags = ∅ → (∀ l ∈ c.lines, ':' ∉ l) →
      (ls.foldl parseLine c).valueTags = ∅ ∧ ∀ l ∈ (ls.foldl parseLine c).lines, ':' ∉ l := by
    intro ls
    induction ls with
    | nil => intro c _ h1 h2; exact ⟨h1, h2⟩
    | cons p ls ih =>
      intro c h0 h1 h2
      rw [List.foldl_cons]
      apply ih _ (fun q hq => h0 q (by simp [hq]))
      all_goals
        obtain ⟨hp, hn⟩ := h0 p (by simp)
        have hq : valueTag? p = none := by
          apply valueTag?_none
          rintro ⟨n, k, tl, he, _⟩
          exact hp (by rw [he]; simp)
        have hf : findFlags p = none := by
          apply findFlags_none_iff.2
          rintro ⟨a, w, b, he, _⟩
          exact hp (by rw [he]; simp)
        rw [parseLine_eq c p hn, hq]
        simp only
        rw [addLine_none hf]
        unfold Comment.pushText
        simp only
        split
      · exact h1
      · exact h1
      · exact h2
      · intro l hl
        rcases List.mem_append.1 hl with hl | hl
        · exact h2 l hl
        · rw [List.mem_singleton] at hl
          subst hl
          exact fun hx => hp (mem_trim hx)
  obtain ⟨h1, h2⟩ := key (Str.splitOn '\n' t) Comment.empty (fun p hp => ⟨hmem p hp, splitOn_no_sep _ _ p hp⟩) rfl
    (by intro l hl; cases hl)
  apply C27_partial
  · intro k v hv
    rw [show (fromOptComment (some t)).valueTags = ∅ from h1] at hv
    simp at hv
  · intro l hl
    have hl' : l ∈ (fromOptComment (some t)).lines := by
      split at hl
      · exact hl
      · exact List.mem_of_mem_tail hl
    rintro ⟨n, k, tl, he, _⟩
    exact h2 l hl' (by rw [he]; simp)

/-- A text with tags, text and a value, not in the form in which it is written. -/
def untidy : Str := " k:  v \nsome :tag: text".toList

set_option maxRecDepth 100000 in
example (h : HashOrder) : reformat h (some untidy) = some ":tag: some\ntext\nk: v".toList ∧
    reformat h (reformat h (some untidy)) = reformat h (some untidy) := by
  refine ⟨?_, C27_partial h _ ?_ ?_⟩
  · unfold reformat
    rw [C30_layout]; decide +kernel
  · have : ∀ e ∈ (fromOptComment (some untidy)).valueTags.toList, Trimmed e.1 ∧ e.2.trim ≠ [] := by decide +kernel
    intro k v h
    exact this (k, v) (Std.ExtTreeMap.mem_toList_iff_getElem?_eq_some.2 h)
  · have : ∀ l ∈ (if (fromOptComment (some untidy)).tags.isEmpty then (fromOptComment (some untidy)).lines
        else (fromOptComment (some untidy)).lines.tail), valueTag? l = none := by decide +kernel
    intro l hl hv
    have h2 := valueTag?_isSome.2 hv
    rw [this l hl] at h2; cases h2

/-! ## C29 -/

/-- C29: the tags are united. -/
theorem C29_tags (a b : Comment) (t : Str) : t ∈ (a.mergeFrom b).tags ↔ t ∈ a.tags ∨ t ∈ b.tags := by
  unfold mergeFrom; exact Std.ExtTreeSet.mem_union_iff

/-- C29: the values of the other comment win. -/
theorem C29_values (a b : Comment) (k : Str) : (a.mergeFrom b).valueTags[k]? = b.valueTags[k]?.or a.valueTags[k]? := by
  unfold mergeFrom; exact Std.ExtTreeMap.getElem?_union

/-- C29: the lines stay in place, and the new lines are appended once each, in order. -/
theorem C29_lines (a b : Comment) : (a.mergeFrom b).lines = a.lines ++ (b.lines.filter (fun l => l ∉ a.lines)).eraseDups := by
  unfold mergeFrom; exact mergeLines_eq _ _

theorem mem_mergeLines {a b : List Str} {l : Str} : l ∈ mergeLines a b ↔ l ∈ a ∨ l ∈ b := by
  rw [mergeLines_eq]
  simp only [List.mem_append, List.mem_eraseDups, List.mem_filter, decide_eq_true_iff]
  constructor
  · rintro (h | h)
    · exact Or.inl h
    · exact Or.inr h.1
  · intro h
    by_cases ha : l ∈ a
    · exact Or.inl ha
    · exact Or.inr ⟨h.resolve_left ha, ha⟩

theorem mergeLines_of_subset {a b : List Str} (h : ∀ l ∈ b, l ∈ a) : mergeLines a b = a := by
  rw [mergeLines_eq, List.filter_eq_nil_iff.2]
  · simp
  · intro l hl; simpa using h l hl

theorem mergeLines_snoc (a b : List Str) (l : Str) : mergeLines a (b ++ [l]) =
    if l ∈ mergeLines a b then mergeLines a b else mergeLines a b ++ [l] := by
  induction b generalizing a with
  | nil =>
    show (if (a.any fun s => s == l) = true then a else a ++ [l]) = if l ∈ a then a else a ++ [l]
    by_cases h : l ∈ a
    · rw [if_pos h, if_pos (by simpa using h)]
    · rw [if_neg h, if_neg (by simpa using h)]
  | cons x b ih =>
    rw [List.cons_append]
    unfold mergeLines
    split <;> exact ih _

theorem mergeLines_assoc (a b c : List Str) : mergeLines (mergeLines a b) c = mergeLines a (mergeLines b c) := by
  induction c using List.reverseRecOn with
  | nil => simp [mergeLines]
  | append_singleton c l ih =>
    rw [mergeLines_snoc, ih, mergeLines_snoc]
    by_cases h : l ∈ mergeLines b c
    · rw [if_pos h, if_pos (mem_mergeLines.2 (Or.inr h))]
    · rw [if_neg h, mergeLines_snoc]

/-- C29: merging the same comment again, or a comment with itself, changes nothing. -/
theorem C29_idempotent (a b : Comment) : (a.mergeFrom b).mergeFrom b = a.mergeFrom b ∧ a.mergeFrom a = a := by
  constructor
  · rw [Comment.mk.injEq]
    refine ⟨mergeLines_of_subset (fun l hl => mem_mergeLines.2 (Or.inr hl)), ?_, ?_⟩
    · apply Std.ExtTreeSet.ext_mem
      intro t
      change t ∈ ((a.mergeFrom b).mergeFrom b).tags ↔ t ∈ (a.mergeFrom b).tags
      rw [C29_tags, C29_tags]; tauto
    · apply Std.ExtTreeMap.ext_getElem?
      intro k
      change ((a.mergeFrom b).mergeFrom b).valueTags[k]? = (a.mergeFrom b).valueTags[k]?
      rw [C29_values, C29_values]
      cases b.valueTags[k]? <;> rfl
  · cases a with
    | mk ls ts vs =>
    unfold mergeFrom
    rw [Comment.mk.injEq]
    refine ⟨mergeLines_of_subset (fun l hl => hl), ?_, ?_⟩
    · apply Std.ExtTreeSet.ext_mem
      intro t
      rw [Std.ExtTreeSet.mem_union_iff]; simp
    · apply Std.ExtTreeMap.ext_getElem?
      intro k
      rw [Std.ExtTreeMap.getElem?_union]
      cases vs[k]? <;> rfl

/-- C29: merging is associative. -/
theorem C29_associative (a b c : Comment) : (a.mergeFrom b).mergeFrom c = a.mergeFrom (b.mergeFrom c) := by
  rw [Comment.mk.injEq]
  refine ⟨mergeLines_assoc _ _ _, ?_, ?_⟩
  · apply Std.ExtTreeSet.ext_mem
    intro t
    change t ∈ ((a.mergeFrom b).mergeFrom c).tags ↔ t ∈ (a.mergeFrom (b.mergeFrom c)).tags
    simp only [C29_tags]; tauto
  · apply Std.ExtTreeMap.ext_getElem?
    intro k
    change ((a.mergeFrom b).mergeFrom c).valueTags[k]? = (a.mergeFrom (b.mergeFrom c)).valueTags[k]?
    simp only [C29_values]
    cases c.valueTags[k]? <;> cases b.valueTags[k]? <;> rfl

/-- Another comment to merge with `sample`. -/
def other : Comment :=
  ⟨["more".toList, "new".toList, "new".toList], (∅ : TagSet).insert "b".toList, (∅ : StrMap).insert "k".toList "2".toList⟩

set_option maxRecDepth 100000 in
example : (sample.mergeFrom other).lines = ["a : b".toList, "more".toList, "new".toList] ∧
    (sample.mergeFrom other).valueTags["k".toList]? = some "2".toList ∧
    (other.mergeFrom sample).valueTags["k".toList]? = some "1".toList ∧ "b".toList ∈ (sample.mergeFrom other).tags := by
  decide +kernel

end Verif
