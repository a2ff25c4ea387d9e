import Verif.Props.Fingerprint
import Verif.Spec.Import

/-!
# Tags of a comment without text, when it is read again
-/

namespace Verif
open Spec Comment

theorem pushText_tags (c : Comment) (s : Str) : (c.pushText s).tags = c.tags := by
  unfold Comment.pushText; simp only; split <;> rfl

theorem no_flags_one_colon {k v : Str} (hk : ':' ∉ k) (hv : ':' ∉ v) : ¬ HasFlags (k ++ ':' :: v) := by
  rintro ⟨x, w, y, h, hw⟩
  have h1 := congrArg (List.count ':') h
  simp only [List.count_append, List.count_cons_self, List.count_eq_zero_of_not_mem hk, List.count_eq_zero_of_not_mem hv] at h1
  omega

/-- A line with a key and a value adds no tag. -/
theorem parse_value_tags (c : Comment) {k v : Str} (hk : Word k) (hkn : '\n' ∉ k) (hvn : '\n' ∉ v) :
    (parseLine c (k ++ ": ".toList ++ v)).tags = c.tags := by
  have hn : '\n' ∉ k ++ ": ".toList ++ v := by
    simp only [List.mem_append, not_or]
    exact ⟨⟨hkn, by decide⟩, hvn⟩
  rw [parseLine_eq c _ hn]
  split
  · rfl
  · rename_i h
    by_cases hv : v = []
    · subst hv
      rw [addLine_none (findFlags_none_iff.2 (by
        rw [List.append_nil]; exact no_flags_one_colon (v := [' ']) hk.2.1 (by decide)))]
      exact pushText_tags ..
    · have : (valueTag? (k ++ ": ".toList ++ v)).isSome = true :=
        valueTag?_isSome.2 ⟨0, k, ' ' :: v, by simp, hk, Or.inr ⟨v, hv, rfl⟩⟩
      rw [h] at this
      cases this

theorem fold_value_tags (es : List (Str × Str)) (he : ∀ e ∈ es, Word e.1 ∧ '\n' ∉ e.1 ∧ '\n' ∉ e.2) (c : Comment) :
    ((es.map (fun e => e.1 ++ ": ".toList ++ e.2)).foldl parseLine c).tags = c.tags := by
  induction es generalizing c with
  | nil => rfl
  | cons e es ih =>
    obtain ⟨h1, h2, h3⟩ := he e List.mem_cons_self
    rw [List.map_cons, List.foldl_cons, ih (fun x hx => he x (List.mem_cons_of_mem _ hx)), parse_value_tags c h1 h2 h3]

/-- The tags of a comment without text, when it is read again: the same if no value has a newline. -/
theorem read_tags (h : HashOrder) (c : Comment) (hl : c.lines = []) (hw : ∀ t ∈ c.tags, Word t ∧ '\n' ∉ t)
    (hv : ∀ k v, c.valueTags[k]? = some v → Word k ∧ Trimmed k ∧ '\n' ∉ k ∧ '\n' ∉ v) :
    (Comment.fromOptComment (c.intoOptComment h)).tags = c.tags := by
  have hgw : ∀ ws ∈ groups c, ∀ w ∈ ws, Word w ∧ '\n' ∉ w := fun ws hws w hwm => hw w (mem_groups.1 ⟨ws, hws, hwm⟩)
  have hes : ∀ e ∈ c.valueTags.toList.map (fun e => (Str.trim e.1, Str.trim e.2)), Word e.1 ∧ '\n' ∉ e.1 ∧ '\n' ∉ e.2 := by
    intro e he
    obtain ⟨e', he', rfl⟩ := List.mem_map.1 he
    obtain ⟨h1, h2, h3, h4⟩ := hv _ _ (Std.ExtTreeMap.mem_toList_iff_getElem?_eq_some.1 he')
    simp only
    rw [trim_trimmed h2]
    exact ⟨h1, h3, fun h => h4 (mem_trim h)⟩
  have hlay : layout c = (groups c).map (fun ws => ':' :: group ws) ++
      (c.valueTags.toList.map (fun e => (Str.trim e.1, Str.trim e.2))).map (fun e => e.1 ++ ": ".toList ++ e.2) := by
    rw [layout_eq, hl, tagText_groups, List.map_map]
    generalize (groups c).map (fun ws => ':' :: group ws) = x
    cases x <;> simp [Function.comp_def]
  have hnn : ∀ a ∈ layout c, '\n' ∉ a := by
    rw [hlay]
    intro a ha
    rcases List.mem_append.1 ha with ha | ha
    · obtain ⟨ws, hws, rfl⟩ := List.mem_map.1 ha
      rw [List.mem_cons, not_or]
      exact ⟨by decide, no_newline_group fun w hwm => (hgw ws hws w hwm).2⟩
    · obtain ⟨e, he, rfl⟩ := List.mem_map.1 ha
      obtain ⟨_, h2, h3⟩ := hes e he
      simp only [List.mem_append, not_or]
      exact ⟨⟨h2, by decide⟩, h3⟩
  have htags : ((layout c).foldl parseLine Comment.empty).tags = c.tags := by
    rw [hlay, List.foldl_append, fold_tag_lines _ groups_ne hgw, fold_value_tags _ hes]
    apply Std.ExtTreeSet.ext_mem
    intro t
    rw [mem_addTags, List.mem_flatten, ← mem_groups (c := c)]
    exact or_iff_right Std.ExtTreeSet.not_mem_empty
  rw [intoOptComment_eq]
  split
  · rename_i he
    rw [he] at htags
    rw [← htags]
    rfl
  · rename_i hne
    show ((Str.splitOn '\n' _).foldl Comment.parseLine Comment.empty).tags = _
    rw [← join_eq, splitOn_join hne hnn, htags]

/-- What a posting with such a comment says is read again. -/
theorem Spec.Says.read_mem {h : HashOrder} {p : Posting} {account : Str} {amount : Amount} {balance : Option Amount} {status : Option Status}
    {tags : List Str} {values : List (Str × Str)} (hs : Says h p account amount balance status tags values)
    (hw : ∀ t ∈ tags, Word t ∧ '\n' ∉ t) {t : Str} (ht : t ∈ tags) : t ∈ (Comment.fromOptComment p.comment).tags := by
  obtain ⟨c, hc, e⟩ := hs.comment
  rw [e]
  exact C42_read_back h c hc.lines (fun t ht => hw t ((hc.tags t).1 ht)) ((hc.tags t).2 ht)

theorem lookup_mem {values : List (Str × Str)} {k v : Str} (h : values.lookup k = some v) : (k, v) ∈ values := by
  induction values with
  | nil => cases h
  | cons e es ih =>
    obtain ⟨a, b⟩ := e
    rw [List.lookup_cons] at h
    split at h
    · rename_i hb
      rw [beq_iff_eq] at hb
      subst hb
      cases h
      exact List.mem_cons_self
    · exact List.mem_cons_of_mem _ (ih h)

/-- Without newlines in the values, it is exactly what is read again. -/
theorem Spec.Says.read_iff {h : HashOrder} {p : Posting} {account : Str} {amount : Amount} {balance : Option Amount} {status : Option Status}
    {tags : List Str} {values : List (Str × Str)} (hs : Says h p account amount balance status tags values)
    (hw : ∀ t ∈ tags, Word t ∧ '\n' ∉ t) (hv : ∀ e ∈ values, Word e.1 ∧ Trimmed e.1 ∧ '\n' ∉ e.1 ∧ '\n' ∉ e.2) (t : Str) :
    t ∈ (Comment.fromOptComment p.comment).tags ↔ t ∈ tags := by
  obtain ⟨c, hc, e⟩ := hs.comment
  rw [e, read_tags h c hc.lines (fun t ht => hw t ((hc.tags t).1 ht)) (fun k v hkv => by
    rw [hc.values] at hkv
    exact hv _ (lookup_mem hkv)), hc.tags]

end Verif
