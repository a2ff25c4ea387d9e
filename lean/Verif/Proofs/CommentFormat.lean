import Verif.Proofs.CommentText

/-!
# The comment formatter in closed form
-/

namespace Verif
open Spec

theorem str_le_trans (a b c : Str) : Comment.strLe a b = true → Comment.strLe b c = true → Comment.strLe a c = true :=
  fun h1 h2 => Std.TransCmp.isLE_trans h1 h2

theorem str_le_total (a b : Str) : (Comment.strLe a b || Comment.strLe b a) = true := by
  unfold Comment.strLe
  rw [Std.OrientedCmp.eq_swap (cmp := compare) (a := b) (b := a)]
  cases compare a b <;> rfl

theorem str_le_antisymm {a b : Str} (h1 : Comment.strLe a b = true) (h2 : Comment.strLe b a = true) : a = b := by
  unfold Comment.strLe at h1 h2
  exact Std.LawfulEqOrd.eq_of_compare (Std.OrientedCmp.isLE_antisymm h1 h2)

theorem insertBy_perm {α : Type} (le : α → α → Bool) (a : α) (l : List α) : (insertBy le a l).Perm (a :: l) := by
  induction l with
  | nil => exact List.Perm.refl _
  | cons b l ih =>
    unfold insertBy
    split
    · exact List.Perm.refl _
    · exact (ih.cons b).trans (List.Perm.swap a b l)

theorem sortBy_perm {α : Type} (le : α → α → Bool) (l : List α) : (sortBy le l).Perm l := by
  induction l with
  | nil => exact List.Perm.refl _
  | cons a l ih => exact (insertBy_perm le a _).trans (ih.cons a)

theorem pairwise_insertBy {α : Type} {le : α → α → Bool} (htr : ∀ a b c, le a b = true → le b c = true → le a c = true)
    (hto : ∀ a b, (le a b || le b a) = true) (a : α) {l : List α} (h : l.Pairwise (fun a b => le a b = true)) :
    (insertBy le a l).Pairwise (fun a b => le a b = true) := by
  induction l with
  | nil => exact List.pairwise_singleton _ _
  | cons b l ih =>
    have hb := List.pairwise_cons.1 h
    unfold insertBy
    split
    · rename_i hab
      refine List.pairwise_cons.2 ⟨fun c hc => ?_, h⟩
      rcases List.mem_cons.1 hc with rfl | hc
      · exact hab
      · exact htr _ _ _ hab (hb.1 c hc)
    · rename_i hab
      refine List.pairwise_cons.2 ⟨fun c hc => ?_, ih hb.2⟩
      rcases List.mem_cons.1 ((insertBy_perm le a l).mem_iff.1 hc) with rfl | hc
      · have := hto c b
        rw [Bool.or_eq_true] at this
        exact this.resolve_left hab
      · exact hb.1 c hc

theorem pairwise_sortBy {α : Type} {le : α → α → Bool} (htr : ∀ a b c, le a b = true → le b c = true → le a c = true)
    (hto : ∀ a b, (le a b || le b a) = true) (l : List α) : (sortBy le l).Pairwise (fun a b => le a b = true) := by
  induction l with
  | nil => exact List.Pairwise.nil
  | cons a l ih => exact pairwise_insertBy htr hto a ih

theorem sort_unique {α : Type} {le : α → α → Bool} (htr : ∀ a b c, le a b = true → le b c = true → le a c = true)
    (hto : ∀ a b, (le a b || le b a) = true) {l s : List α} (hp : l.Perm s) (hs : s.Pairwise (fun a b => le a b = true))
    (ha : ∀ a ∈ s, ∀ b ∈ s, le a b = true → le b a = true → a = b) : sortBy le l = s := by
  refine List.Perm.eq_of_pairwise ?_ (pairwise_sortBy htr hto l) hs ((sortBy_perm le l).trans hp)
  intro a b hma hmb h1 h2
  exact ha a (hp.mem_iff.1 ((sortBy_perm le l).mem_iff.1 hma)) b hmb h1 h2

namespace Comment

theorem tags_sorted (tags : TagSet) : tags.toList.Pairwise (fun a b => strLe a b = true) := by
  have := Std.ExtTreeSet.ordered_toList (t := tags)
  refine this.imp ?_
  intro a b h
  unfold strLe; rw [h]; rfl

theorem sort_tags (h : HashOrder) (tags : TagSet) (P : Str → Bool) :
    sortBy strLe ((h.iter .fmtTags tags.toList).filter P) = tags.toList.filter P :=
  sort_unique str_le_trans str_le_total ((h.iter_perm .fmtTags tags.toList).filter P)
    ((tags_sorted tags).sublist List.filter_sublist) (fun _ _ _ _ h1 h2 => str_le_antisymm h1 h2)

theorem pair_le_trans (a b c : Str × Str) : pairLe a b = true → pairLe b c = true → pairLe a c = true := by
  unfold pairLe
  simp only [Ordering.isLE_then_iff_and]
  rintro ⟨h1, h2⟩ ⟨h3, h4⟩
  refine ⟨Std.TransCmp.isLE_trans h1 h3, ?_⟩
  by_cases hab : compare a.1 b.1 = .lt
  · left
    exact Std.TransCmp.lt_of_lt_of_isLE hab h3
  · have hab' : compare a.1 b.1 = .eq := by
      cases hc : compare a.1 b.1 with
      | lt => exact absurd hc hab
      | eq => rfl
      | gt => rw [hc] at h1; cases h1
    have he : a.1 = b.1 := Std.LawfulEqOrd.eq_of_compare hab'
    rw [he]
    rcases h4 with h4 | h4
    · left; exact h4
    · right
      rcases h2 with h2 | h2
      · exact absurd h2 hab
      · exact Std.TransCmp.isLE_trans h2 h4

theorem pair_le_total (a b : Str × Str) : (pairLe a b || pairLe b a) = true := by
  unfold pairLe
  rw [Std.OrientedCmp.eq_swap (cmp := compare) (a := b.1) (b := a.1), Std.OrientedCmp.eq_swap (cmp := compare) (a := b.2) (b := a.2)]
  cases compare a.1 b.1 <;> cases compare a.2 b.2 <;> rfl

theorem pair_le_antisymm {a b : Str × Str} (h1 : pairLe a b = true) (h2 : pairLe b a = true) : a = b := by
  unfold pairLe at h1 h2
  rw [Std.OrientedCmp.eq_swap (cmp := compare) (a := b.1) (b := a.1), Std.OrientedCmp.eq_swap (cmp := compare) (a := b.2) (b := a.2)] at h2
  cases hx : compare a.1 b.1 <;> cases hy : compare a.2 b.2 <;> rw [hx, hy] at h1 h2 <;> simp [Ordering.then, Ordering.swap] at h1 h2
  exact Prod.ext (Std.LawfulEqOrd.eq_of_compare hx) (Std.LawfulEqOrd.eq_of_compare hy)

theorem sort_values (h : HashOrder) (vt : StrMap) : sortBy pairLe (h.iter .fmtValueTags vt.toList) = vt.toList := by
  refine sort_unique pair_le_trans pair_le_total (h.iter_perm .fmtValueTags vt.toList) ?_ (fun _ _ _ _ h1 h2 => pair_le_antisymm h1 h2)
  refine (Std.ExtTreeMap.ordered_keys_toList (t := vt)).imp ?_
  intro a b h
  unfold pairLe; rw [h]; rfl

theorem join_eq (sep : Str) (l : List Str) : Str.join sep l = sepBy sep l := by
  induction l with
  | nil => rfl
  | cons a l ih =>
    cases l with
    | nil => simp [Str.join, sepBy]
    | cons b l => rw [Str.join, ih, sepBy, sepBy, List.flatMap_cons]; simp

theorem byteLen_eq (s : Str) : s.byteLen = bytes s := rfl

theorem textLoop_succ (out : List Str) (i : Nat) (ls : List Str) : textLoop out (i + 1) ls = out ++ ls.map Str.trim := by
  induction ls generalizing out i with
  | nil => simp [textLoop]
  | cons l ls ih =>
    have : textLoop out (i + 1) (l :: ls) = textLoop (out ++ [l.trim]) (i + 2) ls := by
      rw [textLoop]
      simp
    rw [this, ih]; simp

theorem textLoop_zero (out ls : List Str) : textLoop out 0 ls =
    match out, ls.map Str.trim with
    | t :: ts, l :: ls => (t ++ [' '] ++ l) :: (ts ++ ls)
    | ts, ls => ts ++ ls := by
  cases ls with
  | nil => cases out <;> simp [textLoop]
  | cons l ls =>
    cases out with
    | nil =>
      have : textLoop [] 0 (l :: ls) = textLoop [l.trim] 1 ls := rfl
      rw [this, textLoop_succ]; simp
    | cons o os =>
      have : textLoop (o :: os) 0 (l :: ls) = textLoop ((o ++ [' '] ++ l.trim) :: os) 1 ls := rfl
      rw [this, textLoop_succ]; simp

/-- The lines for tags, without hash order. -/
def tagText (c : Comment) : List Str :=
  let short := c.tags.toList.filter (fun t => bytes t ≤ 12)
  let long := c.tags.toList.filter (fun t => 12 < bytes t)
  (if short = [] then [] else [":".toList ++ sepBy ":".toList short ++ ":".toList]) ++
    long.map (fun t => ":".toList ++ t ++ ":".toList)

theorem tagLines_eq (h : HashOrder) (c : Comment) : tagLines h c.tags = tagText c := by
  unfold tagLines tagText
  by_cases he : c.tags.isEmpty = true
  · rw [if_pos he]
    have : c.tags.toList = [] := by simpa using he
    rw [this]; rfl
  · rw [if_neg he]
    have hl : (fun t : Str => decide (12 < bytes t)) = fun t => decide (¬ t.byteLen ≤ maxInlineTagLen) := by
      funext t; rw [decide_eq_decide, byteLen_eq]; unfold maxInlineTagLen; omega
    simp only
    rw [sort_tags, sort_tags, hl, join_eq]
    have h2 : ((h.iter .fmtTags c.tags.toList).filter (fun t => decide (t.byteLen ≤ maxInlineTagLen))).isEmpty = true ↔
        c.tags.toList.filter (fun t => decide (bytes t ≤ 12)) = [] := by
      rw [List.isEmpty_iff]
      constructor
      · intro h'
        have hp := (h.iter_perm .fmtTags c.tags.toList).filter (fun t => decide (t.byteLen ≤ maxInlineTagLen))
        rw [h'] at hp
        exact hp.symm.eq_nil
      · intro h'
        have hp := (h.iter_perm .fmtTags c.tags.toList).filter (fun t => decide (t.byteLen ≤ maxInlineTagLen))
        have h'' : c.tags.toList.filter (fun t => decide (t.byteLen ≤ maxInlineTagLen)) = [] := h'
        rw [h''] at hp
        exact hp.eq_nil
    by_cases h3 : c.tags.toList.filter (fun t => decide (bytes t ≤ 12)) = []
    · rw [if_pos (h2.2 h3), if_pos h3]; rfl
    · rw [if_neg (fun h' => h3 (h2.1 h')), if_neg h3]; rfl

theorem layout_eq (c : Comment) : layout c = (match tagText c, c.lines.map Str.trim with
    | t :: ts, l :: ls => (t ++ " ".toList ++ l) :: (ts ++ ls)
    | ts, ls => ts ++ ls) ++ c.valueTags.toList.map (fun e => Str.trim e.1 ++ ": ".toList ++ Str.trim e.2) := rfl

/-- The formatter writes the layout. -/
theorem intoOptComment_eq (h : HashOrder) (c : Comment) :
    intoOptComment h c = if layout c = [] then none else some (sepBy ['\n'] (layout c)) := by
  have : textLoop (tagLines h c.tags) 0 c.lines ++ valueLines h c.valueTags = layout c := by
    rw [layout_eq, tagLines_eq, textLoop_zero]
    unfold valueLines
    rw [sort_values]
    rfl
  unfold intoOptComment
  simp only [this, join_eq, List.isEmpty_iff]

end Comment
end Verif
