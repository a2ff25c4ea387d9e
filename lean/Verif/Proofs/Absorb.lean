import Verif.Proofs.After

/-!
# Algebra of merging one posting into another
-/

namespace Verif
open Spec Spec.Book

theorem mem_tags_absorb {d s : PostingInternal} {t : Str} : t ∈ tagsOf (absorb d s) ↔
    if t = unknownTag then t ∈ tagsOf d ∧ t ∈ tagsOf s else t ∈ tagsOf d ∨ t ∈ tagsOf s := by
  have : t ∈ tagsOf (absorb d s) ↔ t ∈ mergedTags d.comment.tags s.comment.tags := by
    unfold tagsOf absorb; rfl
  rw [this, mem_mergedTags]

theorem unknown_absorb {d s : PostingInternal} : UnknownAccount (absorb d s) ↔ UnknownAccount d ∧ UnknownAccount s := by
  have := mem_tags_absorb (d := d) (s := s) (t := unknownTag)
  rw [if_pos rfl] at this
  exact this

theorem grown_refl (p : PostingInternal) : Grown p p :=
  ⟨rfl, rfl, Or.inr rfl, Or.inl rfl, Or.inl rfl, id, fun _ h => h, fun _ h => Or.inr h, List.prefix_refl _, fun _ h => h⟩

theorem Spec.Grown.trans {p q r : PostingInternal} (h1 : Grown p q) (h2 : Grown q r) : Grown p r where
  amount := h2.amount.trans h1.amount
  reality := h2.reality.trans h1.reality
  balance := by
    rcases h1.balance with h | h
    · exact Or.inl h
    · rcases h2.balance with h' | h'
      · left; rw [← h, h']
      · right; rw [h', h]
  status := by
    rcases h1.status with h | h | ⟨h, h'⟩
    · rcases h2.status with g | g | ⟨g, g'⟩
      · left; rw [g, h]
      · right; left; rw [← h, g]
      · right; right; exact ⟨by rw [← h, g], g'⟩
    · right; left; exact h
    · rcases h2.status with g | g | ⟨g, g'⟩
      · right; right; exact ⟨h, by rw [g, h']⟩
      · rw [h'] at g; cases g
      · rw [h'] at g; cases g
  account := by
    rcases h1.account with h | h
    · rcases h2.account with g | g
      · left; rw [g, h]
      · right; exact h1.unknown g
    · right; exact h
  unknown := fun h => h1.unknown (h2.unknown h)
  fingerprints := fun f hf => h2.fingerprints f (h1.fingerprints f hf)
  tags := fun t ht => by
    rcases h1.tags t ht with h | h
    · exact Or.inl h
    · exact h2.tags t h
  lines := h1.lines.trans h2.lines
  keys := fun k hk => h2.keys k (h1.keys k hk)

theorem grown_absorb (d s : PostingInternal) : Grown d (absorb d s) where
  amount := rfl
  reality := rfl
  balance := by
    cases h : d.raw.balance with
    | none => exact Or.inl rfl
    | some b => right; simp [absorb, h]
  status := by
    simp only [absorb]
    rcases d.raw.status with _ | _ | _ <;> rcases s.raw.status with _ | _ | _ <;> simp [strongest]
  account := by
    by_cases h : UnknownAccount d
    · exact Or.inr h
    · left; simp [absorb, h]
  unknown := fun h => (unknown_absorb.1 h).1
  fingerprints := fun f hf => mem_fps_absorb.2 (Or.inl hf)
  tags := fun t ht => by
    by_cases h : t = unknownTag
    · exact Or.inl h
    · right; rw [mem_tags_absorb, if_neg h]; exact Or.inl ht
  lines := List.prefix_append _ _
  keys := fun k hk => by
    simp only [absorb]
    exact Std.ExtTreeMap.mem_union_of_left hk

theorem grown_foldl (d : PostingInternal) (l : List PostingInternal) : Grown d (l.foldl absorb d) := by
  induction l generalizing d with
  | nil => exact grown_refl d
  | cons p l ih => exact (grown_absorb d p).trans (ih _)

/-- `d` already has everything `s` could add, except for the values of value tags. -/
structure Covers (d s : PostingInternal) : Prop where
  lines : ∀ l ∈ s.comment.lines, l ∈ d.comment.lines
  tags : ∀ t ∈ tagsOf s, t = unknownTag ∨ t ∈ tagsOf d
  unknown : UnknownAccount d → UnknownAccount s
  balance : d.raw.balance = none → s.raw.balance = none
  status : strongest d.raw.status s.raw.status = d.raw.status

theorem Covers.absorb_eq {d s : PostingInternal} (h : Covers d s) :
    absorb d s = { d with comment := { d.comment with valueTags := d.comment.valueTags ∪ s.comment.valueTags } } := by
  unfold absorb
  congr 1
  · rcases d with ⟨⟨a, b, c, e, f, g⟩, dc⟩
    congr 1
    · rw [if_neg]; rintro ⟨h1, h2⟩; exact h2 (h.unknown h1)
    · cases hb : e with
      | none => have := h.balance hb; simp only at this ⊢; rw [this]; rfl
      | some b => rfl
    · exact h.status
  · congr 1
    · have : s.comment.lines.filter (fun l => l ∉ d.comment.lines) = [] := by
        rw [List.filter_eq_nil_iff]; intro l hl; simpa using h.lines l hl
      rw [this]; simp
    · apply Std.ExtTreeSet.ext_mem
      intro t
      rw [mem_mergedTags]
      split
      · rename_i ht; subst ht
        exact ⟨fun h => h.1, fun h' => ⟨h', h.unknown h'⟩⟩
      · rename_i ht
        constructor
        · rintro (h' | h')
          · exact h'
          · rcases h.tags t h' with e | e
            · exact absurd e ht
            · exact e
        · exact Or.inl

theorem covers_absorb (d s : PostingInternal) : Covers (absorb d s) s where
  lines := fun l hl => by
    simp only [absorb, List.mem_append, List.mem_eraseDups, List.mem_filter, decide_eq_true_eq]
    by_cases h : l ∈ d.comment.lines
    · exact Or.inl h
    · exact Or.inr ⟨hl, h⟩
  tags := fun t ht => by
    by_cases h : t = unknownTag
    · exact Or.inl h
    · right; rw [mem_tags_absorb, if_neg h]; exact Or.inr ht
  unknown := fun h => (unknown_absorb.1 h).2
  balance := by
    simp only [absorb]
    cases d.raw.balance <;> simp
  status := by
    simp only [absorb]
    rcases d.raw.status with _ | _ | _ <;> rcases s.raw.status with _ | _ | _ <;> rfl

theorem covers_self (d : PostingInternal) : Covers d d where
  lines := fun _ h => h
  tags := fun _ h => Or.inr h
  unknown := id
  balance := id
  status := by rcases d.raw.status with _ | _ | _ <;> rfl

theorem Covers.absorb {d x : PostingInternal} (h : Covers d x) (s : PostingInternal) : Covers (absorb d s) x where
  lines := fun l hl => (grown_absorb d s).lines.subset (h.lines l hl)
  tags := fun t ht => by
    by_cases hu : t = unknownTag
    · exact Or.inl hu
    · rcases h.tags t ht with e | e
      · exact absurd e hu
      · right; rw [mem_tags_absorb, if_neg hu]; exact Or.inl e
  unknown := fun hu => h.unknown (unknown_absorb.1 hu).1
  balance := by
    intro hb
    apply h.balance
    simp only [Spec.absorb] at hb
    cases hd : d.raw.balance with
    | none => rfl
    | some b => rw [hd] at hb; simp at hb
  status := by
    have := h.status
    simp only [Spec.absorb]
    revert this
    rcases d.raw.status with _ | _ | _ <;> rcases s.raw.status with _ | _ | _ <;> rcases x.raw.status with _ | _ | _ <;>
      decide

theorem Covers.foldl {d x : PostingInternal} (h : Covers d x) (l : List PostingInternal) : Covers (l.foldl Spec.absorb d) x := by
  induction l generalizing d with
  | nil => exact h
  | cons p l ih => exact ih (h.absorb p)

theorem covers_foldl {d : PostingInternal} {l : List PostingInternal} {x : PostingInternal} (hx : x ∈ l) :
    Covers (l.foldl absorb d) x := by
  induction l generalizing d with
  | nil => cases hx
  | cons p l ih =>
    rcases List.mem_cons.1 hx with rfl | hx
    · exact (covers_absorb d x).foldl l
    · exact ih hx

theorem union_union_self (a b : StrMap) : (a ∪ b) ∪ b = a ∪ b := by
  apply Std.ExtTreeMap.ext_getElem?
  intro k
  simp only [Std.ExtTreeMap.getElem?_union]
  cases b[k]? <;> simp

theorem union_self (a : StrMap) : a ∪ a = a := by
  apply Std.ExtTreeMap.ext_getElem?
  intro k
  simp only [Std.ExtTreeMap.getElem?_union]
  cases a[k]? <;> simp

theorem absorb_absorb (d s : PostingInternal) : absorb (absorb d s) s = absorb d s := by
  rw [(covers_absorb d s).absorb_eq]
  have : (absorb d s).comment.valueTags ∪ s.comment.valueTags = (absorb d s).comment.valueTags := union_union_self _ _
  rw [this]

theorem absorb_self (d : PostingInternal) : absorb d d = d := by
  rw [(covers_self d).absorb_eq, union_self]

/-- Merging the same sources again, in the same order, changes nothing. -/
theorem absorb_replay (d : PostingInternal) (l : List PostingInternal) :
    l.foldl absorb (l.foldl absorb d) = l.foldl absorb d := by
  have h1 : ∀ (l' : List PostingInternal) (e : PostingInternal), (∀ x ∈ l', Covers e x) → l'.foldl absorb e =
      { e with comment := { e.comment with
          valueTags := l'.foldl (fun v x => v ∪ x.comment.valueTags) e.comment.valueTags } } := by
    intro l'
    induction l' with
    | nil => intro e _; rfl
    | cons x l' ih =>
      intro e he
      rw [List.foldl_cons, ih _ (fun y hy => (he y (by simp [hy])).absorb x), (he x (by simp)).absorb_eq]
      rfl
  have h2 : ∀ (l' : List PostingInternal) (e : PostingInternal), (l'.foldl absorb e).comment.valueTags =
      l'.foldl (fun v x => v ∪ x.comment.valueTags) e.comment.valueTags := by
    intro l'
    induction l' with
    | nil => intro e; rfl
    | cons x l' ih => intro e; rw [List.foldl_cons, ih]; rfl
  have h3 : ∀ (l' : List PostingInternal) (v : StrMap) (k : Str),
      (l'.foldl (fun v x => v ∪ x.comment.valueTags) v)[k]? =
        (l'.reverse.findSome? (fun x => x.comment.valueTags[k]?)).or v[k]? := by
    intro l'
    induction l' with
    | nil => intro v k; simp
    | cons x l' ih =>
      intro v k
      rw [List.foldl_cons, ih, Std.ExtTreeMap.getElem?_union, List.reverse_cons, List.findSome?_append]
      cases l'.reverse.findSome? (fun x => x.comment.valueTags[k]?) <;> simp [List.findSome?]
      cases x.comment.valueTags[k]? <;> simp
  rw [h1 l _ (fun x hx => covers_foldl hx)]
  have : l.foldl (fun v x => v ∪ x.comment.valueTags) (l.foldl absorb d).comment.valueTags =
      (l.foldl absorb d).comment.valueTags := by
    rw [h2]
    apply Std.ExtTreeMap.ext_getElem?
    intro k
    rw [h3, h3]
    cases l.reverse.findSome? (fun x => x.comment.valueTags[k]?) <;> simp
  rw [this]

end Verif
