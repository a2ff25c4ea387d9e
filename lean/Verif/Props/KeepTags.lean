import Verif.Proofs.ReadTags
import Verif.Props.Convert

/-!
# C73: tags and values survive reformatting, for every text
-/

namespace Verif
open Spec Comment

/-! ### Lines and tags -/

theorem addLine_grows (c : Comment) (t : Str) : ∀ x ∈ c.tags, x ∈ (addLine c t).tags := by
  induction hn : t.length using Nat.strongRecOn generalizing c t with
  | ind n ih =>
    intro x hx
    cases hf : findFlags t with
    | none => rw [addLine_none hf, pushText_tags]; exact hx
    | some q =>
      obtain ⟨b, ws, r⟩ := q
      rw [addLine_some hf]
      refine ih r.length ?_ _ r rfl x (mem_addTags.2 (.inl (by rw [pushText_tags]; exact hx)))
      have := congrArg List.length (findFlags_spec hf).1
      simp at this
      omega

/-- No line removes a tag. -/
theorem parseLine_grows (c : Comment) {l : Str} (hn : '\n' ∉ l) : ∀ x ∈ c.tags, x ∈ (parseLine c l).tags := by
  intro x hx
  rw [parseLine_eq _ _ hn]
  split
  · exact hx
  · exact addLine_grows c l x hx

theorem fold_grows (ls : List Str) (hn : ∀ l ∈ ls, '\n' ∉ l) (c : Comment) : ∀ x ∈ c.tags, x ∈ (ls.foldl parseLine c).tags := by
  induction ls generalizing c with
  | nil => exact fun x hx => hx
  | cons l ls ih =>
    intro x hx
    exact ih (fun l' hl => hn l' (List.mem_cons_of_mem _ hl)) _ x (parseLine_grows c (hn l (by simp)) x hx)

theorem fold_no_tags (ls : List Str) (h : ∀ l ∈ ls, ∀ c, (parseLine c l).tags = c.tags) (c : Comment) :
    (ls.foldl parseLine c).tags = c.tags := by
  induction ls generalizing c with
  | nil => rfl
  | cons l ls ih =>
    rw [List.foldl_cons, ih (fun l' hl => h l' (List.mem_cons_of_mem _ hl)), h l (by simp)]

/-- A line without flags adds no tag, whether it looks like a value or not. -/
theorem text_no_tags {l : Str} (hn : '\n' ∉ l) (hf : ¬ HasFlags l) (c : Comment) : (parseLine c l).tags = c.tags := by
  rw [parseLine_eq _ _ hn]
  split
  · rfl
  · rw [addLine_none (findFlags_none_iff.2 hf), pushText_tags]

theorem word_trim {k : Str} (hk : Word k) (hne : k.trim ≠ []) : Word k.trim :=
  ⟨hne, fun h => hk.2.1 (mem_trim h), fun h => hk.2.2 (mem_trim h)⟩

/-! ### What is written first: tags and text -/

/-- The lines for tags and text. -/
def firstLines (c : Comment) : List Str :=
  match tagText c, c.lines with
  | t :: ts, l :: ls => (t ++ [' '] ++ l) :: (ts ++ ls)
  | ts, ls => ts ++ ls

theorem layout_parsed {c : Comment} (hc : Parsed c) : layout c =
    firstLines c ++ c.valueTags.toList.map (fun e => Str.trim e.1 ++ ": ".toList ++ Str.trim e.2) := by
  rw [layout_eq]
  have h1 : c.lines.map Str.trim = c.lines := by
    have : c.lines.map Str.trim = c.lines.map id :=
      List.map_congr_left (fun l hl => trim_trimmed (hc.lines l hl).2.1)
    rw [this, List.map_id]
  rw [h1]
  rfl

theorem first_no_newline {c : Comment} (hc : Parsed c) : ∀ l ∈ firstLines c, '\n' ∉ l := by
  have htext : ∀ t ∈ tagText c, '\n' ∉ t := by
    rw [tagText_groups]
    intro t ht
    obtain ⟨ws, hws, rfl⟩ := List.mem_map.1 ht
    rw [List.mem_cons, not_or]
    exact ⟨by decide, no_newline_group (fun w hw => (hc.tags w (mem_groups.1 ⟨ws, hws, hw⟩)).2)⟩
  intro l hl
  unfold firstLines at hl
  split at hl
  · rename_i t ts k ks h1 h2
    rcases List.mem_cons.1 hl with rfl | hl
    · simp only [List.mem_append, List.mem_singleton, not_or]
      exact ⟨⟨htext t (by rw [h1]; simp), by decide⟩, (hc.lines k (by rw [h2]; simp)).2.2.1⟩
    · rcases List.mem_append.1 hl with hl | hl
      · exact htext l (by rw [h1]; simp [hl])
      · exact (hc.lines l (by rw [h2]; simp [hl])).2.2.1
  · rcases List.mem_append.1 hl with hl | hl
    · exact htext l hl
    · exact (hc.lines l hl).2.2.1

theorem layout_parsed_no_newline {c : Comment} (hc : Parsed c) : ∀ l ∈ layout c, '\n' ∉ l := by
  rw [layout_parsed hc]
  intro l hl
  rcases List.mem_append.1 hl with hl | hl
  · exact first_no_newline hc l hl
  · obtain ⟨e, he, rfl⟩ := List.mem_map.1 hl
    obtain ⟨_, h2, h3⟩ := hc.keys _ _ (Std.ExtTreeMap.mem_toList_iff_getElem?_eq_some.1 he)
    simp only [List.mem_append, not_or]
    exact ⟨⟨fun h => h2 (mem_trim h), by decide⟩, fun h => h3 (mem_trim h)⟩

theorem first_tags {c : Comment} (hc : Parsed c) : ((firstLines c).foldl parseLine Comment.empty).tags = c.tags := by
  have hgw : ∀ ws ∈ groups c, ∀ w ∈ ws, Word w ∧ '\n' ∉ w := fun ws hws w hw => hc.tags w (mem_groups.1 ⟨ws, hws, hw⟩)
  have htags : ∀ d : Comment, d.tags = ∅ → (addTags d (groups c).flatten).tags = c.tags := by
    intro d hd
    apply Std.ExtTreeSet.ext_mem
    intro t
    rw [mem_addTags, hd, List.mem_flatten, ← mem_groups (c := c)]
    simp
  have htext : ∀ l ∈ c.lines, ∀ d : Comment, (parseLine d l).tags = d.tags :=
    fun l hl d => text_no_tags (hc.lines l hl).2.2.1 (hc.lines l hl).2.2.2 d
  unfold firstLines
  rw [tagText_groups]
  match hg : groups c, hl : c.lines with
  | [], ls =>
    rw [hl] at htext
    have hte : c.tags = ∅ := tagText_nil_iff.1 (by rw [tagText_groups, hg]; rfl)
    simp only [List.map_nil, List.nil_append]
    rw [fold_no_tags _ htext, hte]
    rfl
  | g :: gs, [] =>
    simp only [List.map_cons, List.append_nil]
    have := fold_tag_lines (groups c) groups_ne hgw Comment.empty
    rw [hg, List.map_cons] at this
    rw [this, ← hg]
    exact htags _ rfl
  | g :: gs, l :: ls =>
    rw [hl] at htext
    obtain ⟨h1, h2, h3, h4⟩ := hc.lines l (by rw [hl]; simp)
    simp only [List.map_cons]
    rw [List.foldl_cons, List.foldl_append]
    have e1 : ':' :: group g ++ [' '] ++ l = ':' :: (group g ++ ' ' :: l) := by simp
    rw [e1, parse_tags Comment.empty (groups_ne g (by rw [hg]; simp)) (hgw g (by rw [hg]; simp))
      (Or.inr ⟨l, rfl, h1, h2, h3, h4⟩), fold_tag_lines gs (fun x hx => groups_ne x (by rw [hg]; simp [hx]))
      (fun x hx => hgw x (by rw [hg]; simp [hx])), fold_no_tags ls (fun x hx => htext x (List.mem_cons_of_mem _ hx))]
    have h5 := htags Comment.empty rfl
    rw [hg] at h5
    rw [← h5]
    unfold addTags
    rw [List.flatten_cons, List.foldl_append]

theorem read_layout {c : Comment} (hc : Parsed c) (h : HashOrder) :
    fromOptComment (intoOptComment h c) = (layout c).foldl parseLine Comment.empty := by
  rw [intoOptComment_eq]
  split
  · rename_i he; rw [he]; rfl
  · rename_i he
    show (Str.splitOn '\n' _).foldl parseLine Comment.empty = _
    rw [← join_eq, splitOn_join he (layout_parsed_no_newline hc)]

theorem Parsed.keeps {c : Comment} (hc : Parsed c) (h : HashOrder) : ∀ t ∈ c.tags, t ∈ (fromOptComment (intoOptComment h c)).tags := by
  intro t ht
  rw [read_layout hc, layout_parsed hc, List.foldl_append]
  refine fold_grows _ (fun l hl => layout_parsed_no_newline hc l ?_) _ t (by rw [first_tags hc]; exact ht)
  rw [layout_parsed hc]
  exact List.mem_append_right _ hl

theorem Parsed.keeps_iff {c : Comment} (hc : Parsed c) (hk : ∀ (k v : Str), c.valueTags[k]? = some v → k.trim ≠ []) (h : HashOrder) :
    (fromOptComment (intoOptComment h c)).tags = c.tags := by
  rw [read_layout hc, layout_parsed hc, List.foldl_append, fold_no_tags, first_tags hc]
  intro l hl d
  obtain ⟨e, he, rfl⟩ := List.mem_map.1 hl
  have he := Std.ExtTreeMap.mem_toList_iff_getElem?_eq_some.1 he
  obtain ⟨h1, h2, h3⟩ := hc.keys _ _ he
  exact parse_value_tags d (word_trim h1 (hk _ _ he)) (fun h => h2 (mem_trim h)) (fun h => h3 (mem_trim h))

/-! ## C73 -/

/-- C73: whatever the text of a comment, no tag is lost when it is read, written and read again. -/
theorem C73_no_tag_lost (h : HashOrder) (t : Option Str) :
    ∀ tag ∈ (fromOptComment t).tags, tag ∈ (fromOptComment (reformat h t)).tags := (C28_parts t).keeps h

/-- C73: and no tag is new, unless a key consists of nothing but white space (tabs, say). -/
theorem C73_same_tags (h : HashOrder) (t : Option Str)
    (hk : ∀ (k v : Str), (fromOptComment t).valueTags[k]? = some v → k.trim ≠ []) :
    (fromOptComment (reformat h t)).tags = (fromOptComment t).tags := (C28_parts t).keeps_iff hk h

set_option maxRecDepth 100000 in
/-- C73: with such a key a tag can appear that was part of a value. -/
theorem C73_tag_from_value (h : HashOrder) :
    "x".toList ∉ (fromOptComment (some "\t: :x: y".toList)).tags ∧
    "x".toList ∈ (fromOptComment (reformat h (some "\t: :x: y".toList))).tags := by
  unfold reformat
  rw [C30_layout]
  decide +kernel

/-- Later values of the same key win; a line that is not a value changes no value. -/
theorem parseLine_other (c : Comment) {l k : Str} (hn : '\n' ∉ l) (h : ∀ v, valueTag? l ≠ some (k, v)) :
    (parseLine c l).valueTags[k]? = c.valueTags[k]? := by
  have hp : ∀ (d : Comment) s, (pushText d s).valueTags = d.valueTags := by
    intro d s; unfold pushText; simp only; split <;> rfl
  have ha : ∀ (n : Nat) (d : Comment) (s : Str), s.length = n → (addLine d s).valueTags = d.valueTags := by
    intro n
    induction n using Nat.strongRecOn with
    | ind n ih =>
      intro d s hs
      cases hf : findFlags s with
      | none => rw [addLine_none hf, hp]
      | some q =>
        obtain ⟨b, ws, r⟩ := q
        rw [addLine_some hf, ih r.length ?_ _ r rfl]
        · exact hp d b
        · have := congrArg List.length (findFlags_spec hf).1
          simp at this
          omega
  rw [parseLine_eq _ _ hn]
  split
  · rename_i k' v' he
    simp only
    rw [Std.ExtTreeMap.getElem?_insert, if_neg]
    rw [Std.LawfulEqOrd.compare_eq_iff_eq]
    rintro rfl
    exact h v' he
  · rw [ha _ c l rfl]

/-- The line that is written for a key changes no value of another key. -/
theorem valueLine_other (d : Comment) {e : Str × Str} {k : Str} (hall : Word e.1 ∧ Trimmed e.1 ∧ '\n' ∉ e.1 ∧ '\n' ∉ e.2) (hek : e.1 ≠ k) :
    (parseLine d (Str.trim e.1 ++ ": ".toList ++ Str.trim e.2)).valueTags[k]? = d.valueTags[k]? := by
  obtain ⟨h1, h2, h3, h4⟩ := hall
  apply parseLine_other
  · simp only [List.mem_append, not_or]
    exact ⟨⟨fun h => h3 (mem_trim h), by decide⟩, fun h => h4 (mem_trim h)⟩
  · intro x hx
    by_cases hv : e.2.trim = []
    · have hsome : (valueTag? (Str.trim e.1 ++ ": ".toList ++ Str.trim e.2)).isSome := by rw [hx]; rfl
      rw [hv, List.append_nil, trim_trimmed h2] at hsome
      obtain ⟨n, k', tail, he', hw', ht'⟩ := valueTag?_isSome.1 hsome
      have h5 := takeWhile_word (r := [' ']) (c := ':') (word_iff.1 h1) (by decide)
      have hn : n = 0 := by
        cases n with
        | zero => rfl
        | succ n =>
          rw [List.replicate_succ] at he'
          have := head_word (r := ": ".toList) (word_iff.1 h1)
          rw [he'] at this
          exact absurd rfl (this ' ' (by simp))
      subst hn
      have he'' : e.1 ++ ':' :: [' '] = k' ++ ':' :: tail := by simpa using he'
      have h6 := takeWhile_word (r := tail) (c := ':') (word_iff.1 hw') (by decide)
      rw [he''] at h5
      have h6 := h5.1.symm.trans h6.1
      subst h6
      have := List.append_cancel_left he''
      simp only [List.cons.injEq, true_and] at this
      rcases ht' with rfl | ⟨v', hv', rfl⟩
      · cases this
      · simp only [List.cons.injEq, true_and] at this
        exact hv' this.symm
    · have e' : (": ".toList : Str) = [':', ' '] := rfl
      rw [e', trim_trimmed h2, valueTag?_written h1 hv (trimmed_trim _)] at hx
      simp only [Option.some.injEq, Prod.mk.injEq] at hx
      exact hek hx.1

/-- Reading a comment without lines of text again gives no new keys. -/
theorem no_new_key {c : Comment} (hc : Parsed c) (hl : c.lines = []) (hk : ∀ (k v : Str), c.valueTags[k]? = some v → Trimmed k)
    (h : HashOrder) {k : Str} (hn : c.valueTags[k]? = none) : (fromOptComment (intoOptComment h c)).valueTags[k]? = none := by
  have hfold : ∀ (ls : List Str) (d : Comment), (∀ l ∈ ls, ∀ d : Comment, (parseLine d l).valueTags[k]? = d.valueTags[k]?) →
      (ls.foldl parseLine d).valueTags[k]? = d.valueTags[k]? := by
    intro ls
    induction ls with
    | nil => intro d _; rfl
    | cons l ls ih =>
      intro d h
      rw [List.foldl_cons, ih _ (fun l' hl' => h l' (List.mem_cons_of_mem _ hl')), h l (by simp)]
  rw [read_layout hc, layout_parsed hc, hfold]
  · rfl
  · intro l hlm d
    rcases List.mem_append.1 hlm with hlm | hlm
    · have hnl := first_no_newline hc l hlm
      unfold firstLines at hlm
      rw [hl] at hlm
      have hm : l ∈ tagText c := by
        cases ht : tagText c with
        | nil => rw [ht] at hlm; simp at hlm
        | cons a b => rw [ht] at hlm; simpa using hlm
      rw [tagText_groups] at hm
      obtain ⟨ws, _, rfl⟩ := List.mem_map.1 hm
      apply parseLine_other d hnl
      intro v hv
      rw [not_valueLine_colon] at hv
      cases hv
    · obtain ⟨e, he, rfl⟩ := List.mem_map.1 hlm
      have he := Std.ExtTreeMap.mem_toList_iff_getElem?_eq_some.1 he
      obtain ⟨h1, h2, h3⟩ := hc.keys _ _ he
      refine valueLine_other d ⟨h1, hk _ _ he, h2, h3⟩ ?_
      rintro rfl
      rw [hn] at he
      cases he

/-- C73: a value is kept, without the white space around it, unless there is nothing else in it or keys have white space
at their ends. -/
theorem C73_values_kept (h : HashOrder) (t : Option Str)
    (hk : ∀ (k v : Str), (fromOptComment t).valueTags[k]? = some v → Trimmed k) (k v : Str)
    (hv : (fromOptComment t).valueTags[k]? = some v) (hne : v.trim ≠ []) :
    (fromOptComment (reformat h t)).valueTags[k]? = some v.trim := by
  have hc := C28_parts t
  unfold reformat
  generalize fromOptComment t = c at *
  rw [read_layout hc, layout_parsed hc, List.foldl_append]
  generalize (firstLines c).foldl parseLine Comment.empty = d
  have hmem : (k, v) ∈ c.valueTags.toList := Std.ExtTreeMap.mem_toList_iff_getElem?_eq_some.2 hv
  have hall : ∀ e ∈ c.valueTags.toList, Word e.1 ∧ Trimmed e.1 ∧ '\n' ∉ e.1 ∧ '\n' ∉ e.2 := by
    intro e he
    have he := Std.ExtTreeMap.mem_toList_iff_getElem?_eq_some.1 he
    obtain ⟨h1, h2, h3⟩ := hc.keys _ _ he
    exact ⟨h1, hk _ _ he, h2, h3⟩
  have hd : c.valueTags.toList.Pairwise (fun a b => a.1 ≠ b.1) := by
    refine Std.ExtTreeMap.distinct_keys_toList.imp ?_
    intro a b hab he
    exact hab (by rw [he]; exact Std.ReflCmp.compare_self)
  generalize c.valueTags.toList = es at hmem hall hd
  clear hv hc hk
  -- the line of the key itself, and the other lines
  have hself : ∀ d : Comment, (parseLine d (Str.trim k ++ ": ".toList ++ Str.trim v)).valueTags[k]? = some v.trim := by
    intro d
    obtain ⟨h1, h2, h3, h4⟩ := hall _ hmem
    simp only at h1 h2 h3 h4
    have e : (": ".toList : Str) = [':', ' '] := rfl
    rw [trim_trimmed h2, e, parse_value d h1 h3 hne (trimmed_trim v) (fun h => h4 (mem_trim h))]
    simp only [Std.ExtTreeMap.getElem?_insert_self]
  have hother : ∀ e ∈ es, e.1 ≠ k → ∀ d : Comment,
      (parseLine d (Str.trim e.1 ++ ": ".toList ++ Str.trim e.2)).valueTags[k]? = d.valueTags[k]? :=
    fun e he hek d => valueLine_other d (hall e he) hek
  induction es generalizing d with
  | nil => cases hmem
  | cons e es ih =>
    rw [List.pairwise_cons] at hd
    rw [List.map_cons, List.foldl_cons]
    rcases List.mem_cons.1 hmem with rfl | hm
    · have rest : ∀ (fs : List (Str × Str)) (d : Comment), (∀ f ∈ fs, f ∈ es) →
          ((fs.map (fun e => Str.trim e.1 ++ ": ".toList ++ Str.trim e.2)).foldl parseLine d).valueTags[k]? = d.valueTags[k]? := by
        intro fs
        induction fs with
        | nil => intro d _; rfl
        | cons f fs ihf =>
          intro d hfs
          rw [List.map_cons, List.foldl_cons, ihf _ (fun g hg => hfs g (List.mem_cons_of_mem _ hg)),
            hother f (List.mem_cons_of_mem _ (hfs f (by simp))) (fun he => hd.1 f (hfs f (by simp)) he.symm)]
      rw [rest es _ (fun f hf => hf)]
      exact hself d
    · exact ih _ hm (fun e he => hall e (List.mem_cons_of_mem _ he)) hd.2 (fun e he => hother e (List.mem_cons_of_mem _ he))

set_option maxRecDepth 100000 in
/-- A text that never settles (see C27) keeps its tags and the value that has text. -/
example (h : HashOrder) : reformat h (reformat h (some "k:\nv: w\n:a: :b:".toList)) ≠ reformat h (some "k:\nv: w\n:a: :b:".toList) ∧
    (fromOptComment (some "k:\nv: w\n:a: :b:".toList)).tags.toList = ["a".toList, "b".toList] ∧
    (∀ e ∈ (fromOptComment (some "k:\nv: w\n:a: :b:".toList)).valueTags.toList, Trimmed e.1) ∧
    (fromOptComment (some "k:\nv: w\n:a: :b:".toList)).valueTags["v".toList]? = some "w".toList := by
  unfold reformat
  rw [C30_layout, C30_layout]
  decide +kernel

end Verif
