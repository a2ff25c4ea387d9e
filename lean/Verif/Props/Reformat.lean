import Verif.Proofs.Reread
import Mathlib.Logic.Function.Iterate

/-!
# C27: which texts are stable, and what becomes of the others
-/

namespace Verif
open Spec Comment

/-! ### The keys that are read from a written comment -/

theorem trim_ne_nil {s : Str} {a : Char} (h : s.head? = some a) (ha : Str.isWs a = false) : s.trim ≠ [] := by
  cases s with
  | nil => cases h
  | cons b s =>
    cases h
    intro ht
    unfold Str.trim Str.trimEnd Str.trimStart at ht
    rw [List.dropWhile_cons, if_neg (by rw [ha]; decide), List.reverse_eq_nil_iff, List.dropWhile_eq_nil_iff] at ht
    have := ht a (by simp)
    rw [ha] at this
    cases this

theorem valueTag?_head {l k v : Str} {a : Char} (h : valueTag? l = some (k, v)) (hl : l.head? = some a) (ha : Str.isWs a = false) :
    k.trim ≠ [] := by
  have hne := (valueTag?_some h).1.1
  have hd : l.dropWhile (· == ' ') = l := by
    refine dropWhile_eq_self ?_
    intro c hc
    rw [hl] at hc
    cases hc
    rw [beq_eq_false_iff_ne]
    rintro rfl
    exact absurd ha (by decide)
  have hk : k = l.takeWhile notColonSpace := by
    unfold valueTag? at h
    simp only at h
    rw [hd] at h
    split at h
    · cases h
    · split at h
      · cases h; rfl
      · rw [Option.map_eq_some_iff] at h
        obtain ⟨_, _, he⟩ := h
        cases he; rfl
      · cases h
  refine trim_ne_nil (a := a) ?_ ha
  cases l with
  | nil => cases hl
  | cons b l =>
    cases hl
    rw [hk] at hne ⊢
    rw [List.takeWhile_cons] at hne ⊢
    split at hne
    · rename_i hb; rw [if_pos hb]; rfl
    · exact absurd rfl hne

theorem fold_keys {ls : List Str} (hn : ∀ l ∈ ls, '\n' ∉ l) {d : Comment} {k v : Str}
    (h : (ls.foldl parseLine d).valueTags[k]? = some v) : d.valueTags[k]? = some v ∨ ∃ l ∈ ls, ∃ w, valueTag? l = some (k, w) := by
  induction ls generalizing d with
  | nil => exact .inl h
  | cons l ls ih =>
    rcases ih (fun x hx => hn x (List.mem_cons_of_mem _ hx)) h with h | ⟨l', hl', h⟩
    · by_cases hw : ∃ w, valueTag? l = some (k, w)
      · exact .inr ⟨l, List.mem_cons_self, hw⟩
      · rw [parseLine_other d (hn l List.mem_cons_self) (fun w hw' => hw ⟨w, hw'⟩)] at h
        exact .inl h
    · exact .inr ⟨l', List.mem_cons_of_mem _ hl', h⟩

theorem layout_head {c : Comment} (hc : Parsed c) : ∀ l ∈ layout c, ∃ a, l.head? = some a ∧ Str.isWs a = false := by
  have htext : ∀ t ∈ tagText c, t.head? = some ':' := by
    rw [tagText_groups]
    intro t ht
    obtain ⟨ws, hws, rfl⟩ := List.mem_map.1 ht
    rfl
  have hline : ∀ l ∈ c.lines, ∃ a, l.head? = some a ∧ Str.isWs a = false := by
    intro l hl
    obtain ⟨h1, h2, _⟩ := hc.lines l hl
    cases l with
    | nil => exact absurd rfl h1
    | cons a l => exact ⟨a, rfl, h2.1 a rfl⟩
  rw [layout_parsed hc]
  intro l hl
  rcases List.mem_append.1 hl with hl | hl
  · unfold firstLines at hl
    split at hl
    · rename_i t ts k ks h1 h2
      rcases List.mem_cons.1 hl with rfl | hl
      · refine ⟨':', ?_, by decide⟩
        have := htext t (by rw [h1]; simp)
        cases t with
        | nil => cases this
        | cons b t => exact this
      · rcases List.mem_append.1 hl with hl | hl
        · exact ⟨':', htext l (by rw [h1]; simp [hl]), by decide⟩
        · exact hline l (by rw [h2]; simp [hl])
    · rcases List.mem_append.1 hl with hl | hl
      · exact ⟨':', htext l hl, by decide⟩
      · exact hline l hl
  · obtain ⟨e, he, rfl⟩ := List.mem_map.1 hl
    cases hk : e.1.trim with
    | nil => exact ⟨':', rfl, by decide⟩
    | cons a k =>
      refine ⟨a, rfl, ?_⟩
      have := trimmed_trim e.1
      rw [hk] at this
      exact this.1 a rfl

/-- What is read from a written comment has no blank keys. -/
theorem Parsed.readable {c : Comment} (hc : Parsed c) (h : HashOrder) : Readable (fromOptComment (intoOptComment h c)) := by
  refine ⟨C28_parts _, ?_⟩
  intro k v hv
  rw [read_layout hc] at hv
  rcases fold_keys (layout_parsed_no_newline hc) hv with hv | ⟨l, hl, w, hw⟩
  · have : (Comment.empty).valueTags[k]? = none := Std.ExtTreeMap.getElem?_empty
    rw [this] at hv; cases hv
  · obtain ⟨a, h1, h2⟩ := layout_head hc l hl
    exact valueTag?_head hw h1 h2

theorem Readable.again {c : Comment} (hc : Readable c) : Readable (readBack c) := by
  rw [← hc.back HashOrder.sorted]
  exact Parsed.readable hc.parsed _

/-! ### Lines on their own -/

/-- The first line of text, if there is one and there are tags, stays where it is. -/
def Placed (c : Comment) : Prop := c.tags.isEmpty = true ∨ c.lines ≠ []

theorem Placed.split {c : Comment} (hp : Placed c) : glued (readBack c) = glued c ∧
    alone (readBack c) = (alone c).filter (fun l => (valueTag? l).isNone) ++ empties c := by
  have ht : (readBack c).tags = c.tags := rfl
  have hl : (readBack c).lines = glued c ++ ((alone c).filter (fun l => (valueTag? l).isNone) ++ empties c) := List.append_assoc ..
  by_cases he : c.tags.isEmpty = true
  · have hg : glued c = [] := if_pos he
    refine ⟨by rw [hg]; exact if_pos he, ?_⟩
    rw [show alone (readBack c) = (readBack c).lines from if_pos he, hl, hg]
    rfl
  · obtain ⟨a, as, ha⟩ : ∃ a as, c.lines = a :: as := by
      rcases hp with hp | hp
      · exact absurd hp he
      · exact List.exists_cons_of_ne_nil hp
    have hg : glued c = [a] := by unfold glued; rw [if_neg he, ha]; rfl
    rw [hg] at hl ⊢
    unfold glued alone
    rw [ht, if_neg he, if_neg he, hl]
    exact ⟨rfl, rfl⟩

theorem Placed.again {c : Comment} (hp : Placed c) : Placed (readBack c) := by
  rcases hp with hp | hp
  · exact .inl hp
  · by_cases he : c.tags.isEmpty = true
    · exact .inl he
    · right
      obtain ⟨a, as, ha⟩ := List.exists_cons_of_ne_nil hp
      have hg : glued c = [a] := by unfold glued; rw [if_neg he, ha]; rfl
      show glued c ++ _ ++ _ ≠ []
      rw [hg]
      simp

theorem mem_alone_back {c : Comment} {l : Str} (h : l ∈ alone (readBack c)) :
    valueTag? l = none ∨ l ∈ empties c := by
  by_cases hp : Placed c
  · rw [hp.split.2, List.mem_append, List.mem_filter] at h
    rcases h with ⟨_, h⟩ | h
    · exact .inl (Option.isNone_iff_eq_none.1 h)
    · exact .inr h
  · have hl : c.lines = [] := by
      by_contra hl
      exact hp (.inr hl)
    have hm : l ∈ (readBack c).lines := by rw [← glued_alone]; exact List.mem_append_right _ h
    have hg := glued_alone c
    rw [hl, List.append_eq_nil_iff] at hg
    have hr : (readBack c).lines = empties c := by
      show glued c ++ _ ++ _ = _
      rw [hg.1, hg.2]
      rfl
    rw [hr] at hm
    exact .inr hm

theorem filterMap_text (ls : List Str) : (ls.filter (fun l => (valueTag? l).isNone)).filterMap valueTag? = [] := by
  rw [List.filterMap_eq_nil_iff]
  intro l hl
  exact Option.isNone_iff_eq_none.1 (List.mem_filter.1 hl).2

theorem filterMap_empties {c : Comment} (hc : Readable c) : (empties c).filterMap valueTag? =
    (c.valueTags.toList.filter (fun e => Str.trim e.2 = [])).map (fun e => (Str.trim e.1, [])) := by
  unfold empties
  rw [List.filterMap_map, ← List.filterMap_eq_map]
  apply List.filterMap_congr
  intro e he
  have he := Std.ExtTreeMap.mem_toList_iff_getElem?_eq_some.1 (List.mem_filter.1 he).1
  exact valueTag?_empty (word_trim (hc.parsed.keys _ _ he).1 (hc.keys _ _ he))

/-- The values among the lines of text are empty. -/
structure Half (c : Comment) : Prop extends Readable c where
  own : ∀ e ∈ (alone c).filterMap valueTag?, Trimmed e.1 ∧ e.2 = []

theorem Readable.half {c : Comment} (hc : Readable c) : Half (readBack c) := by
  refine ⟨hc.again, ?_⟩
  intro e he
  obtain ⟨l, hl, hv⟩ := List.mem_filterMap.1 he
  rcases mem_alone_back hl with h | h
  · rw [h] at hv; cases hv
  · have : e ∈ (empties c).filterMap valueTag? := List.mem_filterMap.2 ⟨l, h, hv⟩
    rw [filterMap_empties hc, List.mem_map] at this
    obtain ⟨x, _, rfl⟩ := this
    exact ⟨trimmed_trim _, rfl⟩

/-- Nothing has white space at its ends. -/
structure Clean (c : Comment) : Prop extends Half c where
  values : ∀ (k v : Str), c.valueTags[k]? = some v → Trimmed k ∧ Trimmed v

theorem trimmed_nil : Trimmed [] := ⟨by simp, by simp⟩

theorem Half.clean {c : Comment} (hc : Half c) : Clean (readBack c) := by
  refine ⟨hc.toReadable.half, ?_⟩
  intro k v hv
  rcases insAll_some hv with h | h
  · obtain ⟨e, _, he⟩ := List.mem_map.1 h
    cases he
    exact ⟨trimmed_trim _, trimmed_trim _⟩
  · rcases insAll_some h with h | h
    · obtain ⟨h1, h2⟩ := hc.own _ h
      simp only at h1 h2
      rw [h2]
      exact ⟨h1, trimmed_nil⟩
    · rw [Std.ExtTreeMap.getElem?_empty] at h; cases h

theorem Clean.entry {c : Comment} (hc : Clean c) {e : Str × Str} (he : e ∈ c.valueTags.toList) : Str.trim e.1 = e.1 ∧ Str.trim e.2 = e.2 := by
  obtain ⟨h1, h2⟩ := hc.values _ _ (Std.ExtTreeMap.mem_toList_iff_getElem?_eq_some.1 he)
  exact ⟨trim_trimmed h1, trim_trimmed h2⟩

theorem Clean.filled {c : Comment} (hc : Clean c) : filled c = c.valueTags.toList.filter (fun e => e.2 ≠ []) := by
  unfold Verif.filled
  rw [List.filter_congr (q := fun e => decide (e.2 ≠ [])) (fun e he => by rw [(hc.entry he).2])]
  conv => rhs; rw [← List.map_id (List.filter _ _)]
  apply List.map_congr_left
  intro e he
  obtain ⟨h1, h2⟩ := hc.entry (List.mem_filter.1 he).1
  rw [h1, h2]
  rfl

theorem Clean.emptyKeys {c : Comment} (hc : Clean c) : (c.valueTags.toList.filter (fun e => Str.trim e.2 = [])).map (fun e => (Str.trim e.1, ([] : Str))) =
    c.valueTags.toList.filter (fun e => e.2 = []) := by
  rw [List.filter_congr (q := fun e => decide (e.2 = [])) (fun e he => by rw [(hc.entry he).2])]
  conv => rhs; rw [← List.map_id (List.filter _ _)]
  apply List.map_congr_left
  intro e he
  obtain ⟨h1, h2⟩ := List.mem_filter.1 he
  obtain ⟨h3, _⟩ := hc.entry h1
  obtain ⟨a, b⟩ := e
  simp only [decide_eq_true_eq] at h2 h3
  rw [h3, h2]
  rfl

/-- The values that are read from a clean comment. -/
theorem Clean.lookup {c : Comment} (hc : Clean c) (k : Str) : (readBack c).valueTags[k]? =
    (c.valueTags[k]?.filter (fun v => v ≠ [])).or (if (k, []) ∈ (alone c).filterMap valueTag? then some [] else none) := by
  show (insAll (insAll ∅ _) (Verif.filled c))[k]? = _
  rw [hc.filled, insAll_filtered, insAll_empties (fun e he => (hc.own e he).2), Std.ExtTreeMap.getElem?_empty]

/-- After two more times, the values are back. -/
theorem Clean.values_back {c : Comment} (hc : Clean c) (hp : Placed c) : (readBack (readBack c)).valueTags = c.valueTags := by
  have hc' : Clean (readBack c) := hc.toHalf.clean
  apply Std.ExtTreeMap.ext_getElem?
  intro k
  have hk : ((k, []) ∈ (alone (readBack c)).filterMap valueTag?) ↔ c.valueTags[k]? = some [] := by
    rw [hp.split.2, List.filterMap_append, filterMap_text, List.nil_append, filterMap_empties hc.toReadable, hc.emptyKeys,
      List.mem_filter, Std.ExtTreeMap.mem_toList_iff_getElem?_eq_some]
    simp
  rw [hc'.lookup k, hc.lookup k]
  by_cases h1 : c.valueTags[k]? = some []
  · rw [if_pos (hk.2 h1), h1]
    split <;> simp [Option.filter]
  · rw [if_neg (fun h => h1 (hk.1 h))]
    cases hv : c.valueTags[k]? with
    | none => split <;> simp [Option.filter]
    | some v =>
      have hne : v ≠ [] := by rintro rfl; exact h1 hv
      simp [Option.filter, hne]

theorem Clean.period {c : Comment} (hc : Clean c) (hp : Placed c) : readBack (readBack (readBack c)) = readBack c := by
  have h1 := Clean.values_back hc.toHalf.clean hp.again
  have h2 : (readBack (readBack (readBack c))).lines = (readBack c).lines := by
    obtain ⟨a1, a2⟩ := hp.split
    obtain ⟨b1, b2⟩ := hp.again.split
    have hf : ∀ (c : Comment) (ls : List Str), Readable c →
        (ls.filter (fun l => (valueTag? l).isNone) ++ empties c).filter (fun l => (valueTag? l).isNone) =
          ls.filter (fun l => (valueTag? l).isNone) := by
      intro c ls hc
      rw [List.filter_append, List.filter_filter]
      simp only [Bool.and_self]
      rw [(List.filter_eq_nil_iff (l := empties c)).2, List.append_nil]
      intro l hl
      obtain ⟨e, he, rfl⟩ := List.mem_map.1 hl
      have he := Std.ExtTreeMap.mem_toList_iff_getElem?_eq_some.1 (List.mem_filter.1 he).1
      rw [valueTag?_empty (word_trim (hc.parsed.keys _ _ he).1 (hc.keys _ _ he))]
      simp
    show glued (readBack (readBack c)) ++ (alone (readBack (readBack c))).filter _ ++ empties (readBack (readBack c)) =
      glued c ++ (alone c).filter _ ++ empties c
    have he : empties (readBack (readBack c)) = empties c := by
      unfold empties
      rw [hc.values_back hp]
    rw [b1, a1, b2, a2, hf _ _ hc.toReadable, hf _ _ hc.toReadable.again, he]
  have h3 : (readBack (readBack (readBack c))).tags = (readBack c).tags := rfl
  generalize readBack (readBack (readBack c)) = x at *
  generalize readBack c = y at *
  cases x; cases y
  simp only at h1 h2 h3
  rw [h1, h2, h3]

/-! ### Texts that stay as they are -/

theorem Spec.Stable.readable {c : Comment} (hc : Stable c) : Readable c := by
  refine ⟨⟨hc.tags, ?_, hc.lines⟩, ?_⟩
  · intro k v hv
    obtain ⟨h1, _, h2, _, h3⟩ := hc.values k v hv
    exact ⟨h1, h2, h3⟩
  · intro k v hv
    obtain ⟨h1, h2, _⟩ := hc.values k v hv
    rw [trim_trimmed h2]
    exact h1.1

theorem Spec.Stable.fixed {c : Comment} (hc : Stable c) : readBack c = c := by
  obtain ⟨text, ht, hn⟩ := hc.own
  have ha : alone c = text ++ (c.valueTags.toList.filter (fun e => e.2 = [])).map (fun e => e.1 ++ ":".toList) := ht
  have hr := hc.readable
  have htext : text.filter (fun l => (valueTag? l).isNone) = text := by
    rw [List.filter_eq_self]
    intro l hl
    rw [valueTag?_none (hn l hl)]
    rfl
  have hentry : ∀ e ∈ c.valueTags.toList, Str.trim e.1 = e.1 ∧ Str.trim e.2 = e.2 ∧ Word e.1 := by
    intro e he
    obtain ⟨h1, h2, _, h3, _⟩ := hc.values _ _ (Std.ExtTreeMap.mem_toList_iff_getElem?_eq_some.1 he)
    exact ⟨trim_trimmed h2, trim_trimmed h3, h1⟩
  have hemp : empties c = (c.valueTags.toList.filter (fun e => e.2 = [])).map (fun e => e.1 ++ ":".toList) := by
    unfold empties
    rw [List.filter_congr (q := fun e => decide (e.2 = [])) (fun e he => by rw [(hentry e he).2.1])]
    apply List.map_congr_left
    intro e he
    rw [(hentry e (List.mem_filter.1 he).1).1]
    rfl
  rw [← hemp] at ha
  have hvals : (empties c).filterMap valueTag? = c.valueTags.toList.filter (fun e => e.2 = []) := by
    rw [hemp, List.filterMap_map]
    conv => rhs; rw [← List.filterMap_some (l := List.filter _ _)]
    apply List.filterMap_congr
    intro e he
    obtain ⟨h1, h2⟩ := List.mem_filter.1 he
    simp only [decide_eq_true_eq] at h2
    show valueTag? (e.1 ++ [':']) = _
    rw [valueTag?_empty (hentry e h1).2.2, ← h2]
  have hfil : filled c = c.valueTags.toList.filter (fun e => e.2 ≠ []) := by
    unfold filled
    rw [List.filter_congr (q := fun e => decide (e.2 ≠ [])) (fun e he => by rw [(hentry e he).2.1])]
    conv => rhs; rw [← List.map_id (List.filter _ _)]
    apply List.map_congr_left
    intro e he
    obtain ⟨h1, h2, _⟩ := hentry e (List.mem_filter.1 he).1
    rw [h1, h2]
    rfl
  have hlines : (readBack c).lines = c.lines := by
    show glued c ++ (alone c).filter _ ++ empties c = _
    conv => rhs; rw [← glued_alone, ha]
    rw [ha, List.filter_append, htext, (List.filter_eq_nil_iff (l := empties c)).2, List.append_nil, List.append_assoc]
    intro l hl
    rw [hemp] at hl
    obtain ⟨e, he, rfl⟩ := List.mem_map.1 hl
    show ¬ ((valueTag? (e.1 ++ [':'])).isNone = true)
    rw [valueTag?_empty (hentry e (List.mem_filter.1 he).1).2.2]
    simp
  have hvt : (readBack c).valueTags = c.valueTags := by
    apply Std.ExtTreeMap.ext_getElem?
    intro k
    show (insAll (insAll ∅ ((alone c).filterMap valueTag?)) (filled c))[k]? = _
    have hnone : text.filterMap valueTag? = [] := by rw [← htext]; exact filterMap_text _
    rw [ha, List.filterMap_append, hnone, List.nil_append, hvals, hfil, insAll_filtered, insAll_filtered, Std.ExtTreeMap.getElem?_empty]
    cases hv : c.valueTags[k]? with
    | none => rfl
    | some v => by_cases h0 : v = [] <;> simp [Option.filter, h0]
  have htags : (readBack c).tags = c.tags := rfl
  generalize readBack c = x at *
  cases x; cases c
  simp only at hlines hvt htags
  rw [hlines, hvt, htags]

theorem Readable.stable {c : Comment} (hc : Readable c) (hf : readBack c = c) : Stable c := by
  have hcl : Clean c := by
    have h1 : Half c := by rw [← hf]; exact hc.half
    rw [← hf]
    exact h1.clean
  refine ⟨hc.parsed.tags, ?_, hc.parsed.lines, ?_⟩
  · intro k v hv
    obtain ⟨h1, h2, h3⟩ := hc.parsed.keys k v hv
    obtain ⟨h4, h5⟩ := hcl.values k v hv
    exact ⟨h1, h4, h2, h5, h3⟩
  · have hemp : empties c = (c.valueTags.toList.filter (fun e => e.2 = [])).map (fun e => e.1 ++ ":".toList) := by
      unfold empties
      rw [List.filter_congr (q := fun e => decide (e.2 = [])) (fun e he => by rw [(hcl.entry he).2])]
      apply List.map_congr_left
      intro e he
      rw [(hcl.entry (List.mem_filter.1 he).1).1]
      rfl
    refine ⟨(alone c).filter (fun l => (valueTag? l).isNone), ?_, ?_⟩
    · show alone c = _
      rw [← hemp]
      by_cases hp : Placed c
      · have := hp.split.2
        rw [hf] at this
        exact this
      · have hl : c.lines = [] := by
          by_contra hl
          exact hp (.inr hl)
        have hg := glued_alone c
        rw [hl, List.append_eq_nil_iff] at hg
        have : (readBack c).lines = c.lines := by rw [hf]
        rw [hl] at this
        have he : empties c = [] := (List.append_eq_nil_iff.1 this).2
        rw [hg.2, he]
        rfl
    · intro l hl hv
      have := valueTag?_isSome.2 hv
      rw [Option.isNone_iff_eq_none.1 (List.mem_filter.1 hl).2] at this
      cases this

/-- C27, exactly: the texts that are not changed by reading and writing them are the texts of stable comments. -/
theorem C27_fixed (h : HashOrder) (u : Option Str) : reformat h u = u ↔ ∃ c, Stable c ∧ u = intoOptComment h c := by
  constructor
  · intro hu
    have hr : Readable (fromOptComment u) := by
      have := Parsed.readable (C28_parts u) h
      rwa [show fromOptComment (intoOptComment h (fromOptComment u)) = fromOptComment u from congrArg fromOptComment hu] at this
    refine ⟨fromOptComment u, hr.stable ?_, hu.symm⟩
    rw [← hr.back h]
    exact congrArg fromOptComment hu
  · rintro ⟨c, hc, rfl⟩
    show intoOptComment h (fromOptComment (intoOptComment h c)) = _
    rw [hc.readable.back h, hc.fixed]

/-- C27 for a text: writing it a second time changes nothing if and only if what was written the first time is the text of a
stable comment. -/
theorem C27_exact (h : HashOrder) (t : Option Str) :
    reformat h (reformat h t) = reformat h t ↔ ∃ c, Stable c ∧ reformat h t = intoOptComment h c := C27_fixed h _

/-! ### Texts that do not stay as they are -/

theorem reformat_iterate (h : HashOrder) {c : Comment} (hc : Readable c) (n : Nat) :
    (reformat h)^[n] (intoOptComment h c) = intoOptComment h (readBack^[n] c) := by
  induction n generalizing c with
  | zero => rfl
  | succ n ih =>
    rw [Function.iterate_succ_apply, Function.iterate_succ_apply, ← ih hc.again]
    congr 1
    show intoOptComment h (fromOptComment (intoOptComment h c)) = _
    rw [hc.back h]

/-- A comment without text that can be first has no empty values either. -/
theorem Half.unplaced {c : Comment} (hc : Half c) (hp : ¬ Placed (readBack c)) : readBack (readBack c) = readBack c := by
  have hcl := hc.clean
  have hl : (readBack c).lines = [] := by
    by_contra hl
    exact hp (.inr hl)
  have hl' : c.lines = [] := by
    by_contra hl'
    exact hp (Placed.again (.inr hl'))
  have hg := glued_alone c
  rw [hl', List.append_eq_nil_iff] at hg
  refine Stable.fixed ⟨hcl.parsed.tags, ?_, hcl.parsed.lines, [], ?_, by simp⟩
  · intro k v hv
    obtain ⟨h1, h2, h3⟩ := hcl.parsed.keys k v hv
    obtain ⟨h4, h5⟩ := hcl.values k v hv
    exact ⟨h1, h4, h2, h5, h3⟩
  · have he : (readBack c).valueTags.toList.filter (fun e => e.2 = []) = [] := by
      rw [List.filter_eq_nil_iff]
      intro e he hv
      have he := Std.ExtTreeMap.mem_toList_iff_getElem?_eq_some.1 he
      rcases insAll_some he with h | h
      · obtain ⟨x, hx, hxe⟩ := List.mem_map.1 h
        have := (List.mem_filter.1 hx).2
        simp only [ne_eq, decide_not, Bool.not_eq_true', decide_eq_false_iff_not, decide_eq_true_eq] at this hv
        exact this ((Prod.mk.inj hxe).2.trans hv)
      · rw [hg.2] at h
        have : (insAll ∅ (([] : List Str).filterMap valueTag?))[e.1]? = none := Std.ExtTreeMap.getElem?_empty
        rw [this] at h
        cases h
    rw [he, hl]
    split <;> rfl

/-- C27, what does hold of every text: when it was written five times, it alternates between two texts (or stays the
same). -/
theorem C27_settles (h : HashOrder) (t : Option Str) (n : Nat) (hn : 5 ≤ n) : (reformat h)^[n + 2] t = (reformat h)^[n] t := by
  obtain ⟨m, rfl⟩ : ∃ m, n = m + 5 := ⟨n - 5, by omega⟩
  suffices hs : (reformat h)^[7] t = (reformat h)^[5] t by
    rw [show m + 5 + 2 = m + 7 from rfl, Function.iterate_add_apply, hs, ← Function.iterate_add_apply]
  have h0 := C28_parts t
  have h1 : Readable (fromOptComment (reformat h t)) := Parsed.readable h0 h
  have key : ∀ n, (reformat h)^[n + 2] t = intoOptComment h (readBack^[n] (fromOptComment (reformat h t))) := by
    intro n
    rw [← reformat_iterate h h1, Function.iterate_add_apply]
    rfl
  rw [key 5, key 3]
  generalize fromOptComment (reformat h t) = c at *
  show intoOptComment h (readBack (readBack (readBack (readBack (readBack c))))) = intoOptComment h (readBack (readBack (readBack c)))
  have h2 := h1.half
  by_cases hp : Placed (readBack (readBack c))
  · rw [h2.clean.period hp]
  · have := h2.unplaced hp
    rw [this, this, this]

set_option maxRecDepth 100000 in
/-- Four times are not enough: a key of a tab, tags within its value and an empty value. -/
example (h : HashOrder) : (reformat h)^[6] (some "\t: ::x: a: a:x: a\t: \n\n:x: ".toList) ≠
    (reformat h)^[4] (some "\t: ::x: a: a:x: a\t: \n\n:x: ".toList) := by
  have e : reformat h = fun t => if layout (fromOptComment t) = [] then none else some (sepBy "\n".toList (layout (fromOptComment t))) := by
    funext t
    exact C30_layout h _
  rw [e]
  decide +kernel

set_option maxRecDepth 100000 in
/-- Not every stable text is in normal form: an empty value next to a line with the same key. -/
example (h : HashOrder) : reformat h (some "b\na:\na: ".toList) = some "b\na:\na: ".toList := by
  unfold reformat
  rw [C30_layout]
  decide +kernel

set_option maxRecDepth 100000 in
/-- Stable as `C27_fixed` says. -/
example (h : HashOrder) : ∃ c, Stable c ∧ some "b\na:\na: ".toList = intoOptComment h c := by
  rw [← C27_fixed]
  unfold reformat
  rw [C30_layout]
  decide +kernel

end Verif
