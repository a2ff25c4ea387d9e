import Verif.Props.KeepTags

/-!
# What is read from a written comment

`readBack c` is the comment that is read from the text of `c`, in closed form.
-/

namespace Verif
open Spec Comment

/-! ### Filling maps -/

abbrev insAll (m : StrMap) (es : List (Str × Str)) : StrMap := es.foldl (fun m e => m.insert e.1 e.2) m

theorem insAll_some {m : StrMap} {es : List (Str × Str)} {k v : Str} (h : (insAll m es)[k]? = some v) :
    (k, v) ∈ es ∨ m[k]? = some v := by
  induction es generalizing m with
  | nil => exact .inr h
  | cons e es ih =>
    rcases ih h with h | h
    · exact .inl (List.mem_cons_of_mem _ h)
    · rw [Std.ExtTreeMap.getElem?_insert] at h
      split at h
      · rename_i he
        have he := Std.LawfulEqOrd.compare_eq_iff_eq.1 he
        cases h
        exact .inl (by rw [← he]; exact List.mem_cons_self)
      · exact .inr h

theorem insAll_empties {es : List (Str × Str)} (hv : ∀ e ∈ es, e.2 = []) (m : StrMap) (k : Str) :
    (insAll m es)[k]? = if (k, []) ∈ es then some [] else m[k]? := by
  induction es generalizing m with
  | nil => simp
  | cons e es ih =>
    rw [show insAll m (e :: es) = insAll (m.insert e.1 e.2) es from rfl, ih (fun x hx => hv x (List.mem_cons_of_mem _ hx)),
      Std.ExtTreeMap.getElem?_insert]
    have hev := hv e List.mem_cons_self
    obtain ⟨a, b⟩ := e
    simp only at hev
    subst hev
    by_cases h1 : (k, []) ∈ es
    · rw [if_pos h1, if_pos (List.mem_cons_of_mem _ h1)]
    · rw [if_neg h1]
      by_cases h2 : a = k
      · subst h2
        rw [if_pos Std.ReflCmp.compare_self, if_pos List.mem_cons_self]
      · rw [if_neg (fun h => h2 (Std.LawfulEqOrd.compare_eq_iff_eq.1 h)), if_neg]
        intro h
        rcases List.mem_cons.1 h with h | h
        · exact h2 (Prod.mk.inj h).1.symm
        · exact h1 h

theorem insAll_filtered (p : Str × Str → Bool) (vt m : StrMap) (k : Str) :
    (insAll m (vt.toList.filter p))[k]? = (vt[k]?.filter (fun v => p (k, v))).or m[k]? := by
  rw [foldl_insert_values _ (Std.ExtTreeMap.distinct_keys_toList.filter _)]
  congr 1
  cases hv : vt[k]? with
  | none =>
    have : (vt.toList.filter p).find? (fun e => e.1 = k) = none := by
      rw [List.find?_eq_none]
      intro e he
      rw [decide_eq_true_iff]
      rintro rfl
      have := Std.ExtTreeMap.mem_toList_iff_getElem?_eq_some.1 (List.mem_filter.1 he).1
      rw [hv] at this; cases this
    rw [this]; rfl
  | some v =>
    have hm : (k, v) ∈ vt.toList := Std.ExtTreeMap.mem_toList_iff_getElem?_eq_some.2 hv
    have hu : ∀ e ∈ vt.toList, e.1 = k → e = (k, v) := by
      rintro ⟨a, b⟩ he rfl
      have := Std.ExtTreeMap.mem_toList_iff_getElem?_eq_some.1 he
      rw [hv] at this; cases this; rfl
    cases hf : (vt.toList.filter p).find? (fun e => e.1 = k) with
    | none =>
      rw [List.find?_eq_none] at hf
      have hp : p (k, v) = false := by
        cases hp : p (k, v) with
        | false => rfl
        | true => exact absurd (decide_eq_true rfl) (hf _ (List.mem_filter.2 ⟨hm, hp⟩))
      simp [Option.filter, hp]
    | some e =>
      have hme := List.mem_filter.1 (List.mem_of_find?_eq_some hf)
      have he := hu e hme.1 (by simpa using List.find?_some hf)
      subst he
      simp [Option.filter, hme.2]

/-! ### The comment that is read from the text of a comment -/

/-- The line of text that shares the line of the tags. -/
def glued (c : Comment) : List Str := if c.tags.isEmpty then [] else c.lines.take 1

/-- The lines of text that have a line of their own. -/
def alone (c : Comment) : List Str := if c.tags.isEmpty then c.lines else c.lines.tail

/-- The lines that are read where empty values are written. -/
def empties (c : Comment) : List Str :=
  (c.valueTags.toList.filter (fun e => Str.trim e.2 = [])).map (fun e => Str.trim e.1 ++ [':'])

/-- The values that are written. -/
def filled (c : Comment) : List (Str × Str) :=
  (c.valueTags.toList.filter (fun e => Str.trim e.2 ≠ [])).map (fun e => (Str.trim e.1, Str.trim e.2))

/-- What is read from the text. -/
def readBack (c : Comment) : Comment :=
  { lines := glued c ++ (alone c).filter (fun l => (valueTag? l).isNone) ++ empties c
    tags := c.tags
    valueTags := insAll (insAll ∅ ((alone c).filterMap valueTag?)) (filled c) }

theorem glued_alone (c : Comment) : glued c ++ alone c = c.lines := by
  unfold glued alone
  split
  · rfl
  · cases c.lines <;> rfl

theorem fold_alone (ls : List Str) (hl : ∀ l ∈ ls, l ≠ [] ∧ Trimmed l ∧ '\n' ∉ l ∧ ¬ HasFlags l) (c : Comment) :
    ls.foldl parseLine c = { c with
      lines := c.lines ++ ls.filter (fun l => (valueTag? l).isNone)
      valueTags := insAll c.valueTags (ls.filterMap valueTag?) } := by
  induction ls generalizing c with
  | nil => simp
  | cons l ls ih =>
    obtain ⟨h1, h2, h3, h4⟩ := hl l List.mem_cons_self
    rw [List.foldl_cons, ih (fun x hx => hl x (List.mem_cons_of_mem _ hx))]
    cases hv : valueTag? l with
    | none =>
      have : ¬ IsValueLine l := fun h => by have := valueTag?_isSome.2 h; rw [hv] at this; cases this
      rw [parse_text c h1 h2 h3 h4 this, List.filter_cons_of_pos (by rw [hv]; rfl), List.filterMap_cons_none hv]
      simp
    | some e =>
      rw [parseLine_eq _ _ h3, hv, List.filter_cons_of_neg (by rw [hv]; simp), List.filterMap_cons_some hv]
      rfl

theorem valueTag?_blank {k : Str} (hk : Word k) : valueTag? (k ++ [':', ' ']) = none := by
  have hk' := word_iff.1 hk
  have h1 : (k ++ [':', ' ']).dropWhile (· == ' ') = k ++ ':' :: [' '] := by
    exact dropWhile_eq_self (fun c hc => by simpa using head_word (r := [':', ' ']) hk' c hc)
  unfold valueTag?
  simp only
  rw [h1, (takeWhile_word hk' (by decide)).1, (takeWhile_word hk' (by decide)).2, if_neg hk'.1]
  rfl

theorem valueTag?_empty {k : Str} (hk : Word k) : valueTag? (k ++ [':']) = some (k, []) := by
  have hk' := word_iff.1 hk
  have h1 : (k ++ [':']).dropWhile (· == ' ') = k ++ ':' :: [] := by
    exact dropWhile_eq_self (fun c hc => by simpa using head_word (r := [':']) hk' c hc)
  unfold valueTag?
  simp only
  rw [h1, (takeWhile_word hk' (by decide)).1, (takeWhile_word hk' (by decide)).2, if_neg hk'.1]
  rfl

theorem trimmed_key {k : Str} (hw : Word k) (hk : Trimmed k) : Trimmed (k ++ [':']) := by
  refine ⟨?_, ?_⟩
  · cases k with
    | nil => exact absurd rfl hw.1
    | cons a k => exact hk.1
  · intro c hc
    rw [List.getLast?_append] at hc
    simp at hc
    subst hc
    decide

theorem trim_key_blank {k : Str} (hw : Word k) (hk : Trimmed k) : Str.trim (k ++ [':', ' ']) = k ++ [':'] := by
  have ht := trimmed_key hw hk
  have h1 : (k ++ [':', ' ']).dropWhile Str.isWs = k ++ [':', ' '] := by
    refine dropWhile_eq_self ?_
    cases k with
    | nil => exact absurd rfl hw.1
    | cons a k => exact hk.1
  have h2 : (k ++ [':']).reverse.dropWhile Str.isWs = (k ++ [':']).reverse := by
    refine dropWhile_eq_self ?_
    rw [List.head?_reverse]
    exact ht.2
  have h3 : (k ++ [':', ' ']).reverse = ' ' :: (k ++ [':']).reverse := by simp
  unfold Str.trim Str.trimEnd Str.trimStart
  rw [h1, h3, List.dropWhile_cons, if_pos (by decide), h2, List.reverse_reverse]

theorem parse_blank (c : Comment) {k : Str} (hk : Word k) (ht : Trimmed k) (hn : '\n' ∉ k) :
    parseLine c (k ++ [':', ' ']) = { c with lines := c.lines ++ [k ++ [':']] } := by
  have hn' : '\n' ∉ k ++ [':', ' '] := by
    rw [List.mem_append, not_or]; exact ⟨hn, by decide⟩
  rw [parseLine_eq _ _ hn', valueTag?_blank hk]
  simp only
  rw [addLine_none (findFlags_none_iff.2 (no_flags_one_colon (v := [' ']) hk.2.1 (by decide)))]
  unfold pushText
  simp only [trim_key_blank hk ht]
  rw [if_neg (by simp)]

theorem fold_written (es : List (Str × Str)) (he : ∀ e ∈ es, Word (Str.trim e.1) ∧ '\n' ∉ e.1 ∧ '\n' ∉ e.2) (c : Comment) :
    (es.map (fun e => Str.trim e.1 ++ ": ".toList ++ Str.trim e.2)).foldl parseLine c = { c with
      lines := c.lines ++ (es.filter (fun e => Str.trim e.2 = [])).map (fun e => Str.trim e.1 ++ [':'])
      valueTags := insAll c.valueTags ((es.filter (fun e => Str.trim e.2 ≠ [])).map (fun e => (Str.trim e.1, Str.trim e.2))) } := by
  induction es generalizing c with
  | nil => simp
  | cons e es ih =>
    obtain ⟨h1, h2, h3⟩ := he e List.mem_cons_self
    rw [List.map_cons, List.foldl_cons, ih (fun x hx => he x (List.mem_cons_of_mem _ hx))]
    have e1 : (": ".toList : Str) = [':', ' '] := rfl
    by_cases hv : Str.trim e.2 = []
    · rw [hv, List.append_nil, e1, parse_blank c h1 (trimmed_trim _) (fun h => h2 (mem_trim h)),
        List.filter_cons_of_pos (by simpa using hv), List.filter_cons_of_neg (by simpa using hv)]
      simp
    · rw [e1, parse_value c h1 (fun h => h2 (mem_trim h)) hv (trimmed_trim _) (fun h => h3 (mem_trim h)),
        List.filter_cons_of_neg (by simpa using hv), List.filter_cons_of_pos (by simpa using hv)]
      rfl

theorem fold_firstLines {c : Comment} (hc : Parsed c) : (firstLines c).foldl parseLine Comment.empty =
    { lines := glued c ++ (alone c).filter (fun l => (valueTag? l).isNone)
      tags := c.tags
      valueTags := insAll ∅ ((alone c).filterMap valueTag?) } := by
  have ht := first_tags hc
  have hgw : ∀ ws ∈ groups c, ∀ w ∈ ws, Word w ∧ '\n' ∉ w := fun ws hws w hw => hc.tags w (mem_groups.1 ⟨ws, hws, hw⟩)
  suffices hs : ((firstLines c).foldl parseLine Comment.empty).lines = glued c ++ (alone c).filter (fun l => (valueTag? l).isNone) ∧
      ((firstLines c).foldl parseLine Comment.empty).valueTags = insAll ∅ ((alone c).filterMap valueTag?) by
    generalize (firstLines c).foldl parseLine Comment.empty = d at *
    cases d
    obtain ⟨h1, h2⟩ := hs
    simp only at h1 h2 ht
    rw [h1, h2, ht]
  clear ht
  unfold firstLines
  rw [tagText_groups]
  match hg : groups c, hl : c.lines with
  | [], ls =>
    have hte : c.tags = ∅ := tagText_nil_iff.1 (by rw [tagText_groups, hg]; rfl)
    have h1 : glued c = [] := by unfold glued; rw [hte]; rfl
    have h2 : alone c = ls := by unfold alone; rw [hte, hl]; rfl
    rw [h1, h2]
    simp only [List.map_nil, List.nil_append]
    rw [fold_alone ls (fun l h => hc.lines l (by rw [hl]; exact h))]
    exact ⟨rfl, rfl⟩
  | g :: gs, [] =>
    have h1 : glued c = [] := by unfold glued; rw [hl]; split <;> rfl
    have h2 : alone c = [] := by unfold alone; rw [hl]; split <;> rfl
    rw [h1, h2]
    simp only [List.map_cons, List.append_nil]
    have := fold_tag_lines (groups c) groups_ne hgw Comment.empty
    rw [hg, List.map_cons] at this
    rw [this]
    exact ⟨rfl, rfl⟩
  | g :: gs, l :: ls =>
    have hte : ¬ c.tags.isEmpty = true := by
      intro h
      have : c.tags = ∅ := by simpa using h
      have := tagText_nil_iff.2 this
      rw [tagText_groups, hg] at this; cases this
    have ha : glued c = [l] := by unfold glued; rw [if_neg hte, hl]; rfl
    have hb : alone c = ls := by unfold alone; rw [if_neg hte, hl]; rfl
    rw [ha, hb]
    obtain ⟨h1, h2, h3, h4⟩ := hc.lines l (by rw [hl]; simp)
    simp only [List.map_cons]
    rw [List.foldl_cons, List.foldl_append]
    have e1 : ':' :: group g ++ [' '] ++ l = ':' :: (group g ++ ' ' :: l) := by simp
    rw [e1, parse_tags Comment.empty (groups_ne g (by rw [hg]; simp)) (hgw g (by rw [hg]; simp))
      (Or.inr ⟨l, rfl, h1, h2, h3, h4⟩), fold_tag_lines gs (fun x hx => groups_ne x (by rw [hg]; simp [hx]))
      (fun x hx => hgw x (by rw [hg]; simp [hx])),
      fold_alone ls (fun x hx => hc.lines x (by rw [hl]; simp [hx]))]
    exact ⟨rfl, rfl⟩

/-- A comment as it can be read, none of whose keys is blank. -/
structure Readable (c : Comment) : Prop where
  parsed : Parsed c
  keys : ∀ (k v : Str), c.valueTags[k]? = some v → k.trim ≠ []

theorem Readable.back {c : Comment} (hc : Readable c) (h : HashOrder) : fromOptComment (intoOptComment h c) = readBack c := by
  rw [read_layout hc.parsed, layout_parsed hc.parsed, List.foldl_append, fold_firstLines hc.parsed, fold_written]
  · rfl
  · intro e he
    have he := Std.ExtTreeMap.mem_toList_iff_getElem?_eq_some.1 he
    obtain ⟨h1, h2, h3⟩ := hc.parsed.keys _ _ he
    exact ⟨word_trim h1 (hc.keys _ _ he), h2, h3⟩

end Verif
