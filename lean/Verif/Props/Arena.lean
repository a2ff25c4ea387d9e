import Verif.Model.Arena
import Mathlib.Data.List.Perm.Basic
import Mathlib.Data.List.Nodup

/-!
# C111: arena indices are positions, also as keys of hash tables

What the rest of the model takes for granted about the two arenas and about the two hash containers whose keys are indices.
-/

namespace Verif.Spec
open Verif

/-- What can be done to an arena. -/
inductive ArenaStep (α : Type) where
  | insert (more : Nat) (v : α)
  | modify (i : GenIndex) (f : α → α)
  | remove (i : GenIndex)

/-- The arena after it. -/
def ArenaStep.apply {α : Type} : ArenaStep α → GenArena α → GenArena α
  | .insert more v, a => (a.insert more v).2
  | .modify i f, a => a.modify i f
  | .remove i, a => (a.remove i).2

/-- The arenas that a program can have. -/
inductive ArenaReach {α : Type} : GenArena α → Prop
  | new (capacity : Nat) : ArenaReach (.new capacity)
  | step {a : GenArena α} (s : ArenaStep α) : ArenaReach a → ArenaReach (s.apply a)

/-- What `merge` does to an arena before `build`: entries are added and changed, and none are removed. -/
inductive GrowStep (α : Type) where
  | insert (more : Nat) (v : α)
  | modify (position : Nat) (f : α → α)

/-- The same with a list. -/
def GrowStep.list {α : Type} : GrowStep α → List α → List α
  | .insert _ v, l => l ++ [v]
  | .modify i f, l => l.modify i f

/-- What the arena becomes, when positions are taken with the first generation. -/
def GrowStep.arena {α : Type} : GrowStep α → GenArena α → GenArena α
  | .insert more v, a => (a.insert more v).2
  | .modify i f, a => a.modify ⟨i, 1⟩ f

/-- The map after a change of the value at `d`. -/
def putAt {ν : Type} (m : Nat → Option ν) (d : Nat) (f : Option ν → ν) : Nat → Option ν := fun i => if i = d then some (f (m d)) else m i

/-- The table has the entries of the map, each once, with keys of generation `g`. -/
def TableLists {ν : Type} (g : Nat) (es : List (GenIndex × ν)) (m : Nat → Option ν) : Prop :=
  (es.map Prod.fst).Nodup ∧ ∀ k v, (k, v) ∈ es ↔ k.gen = g ∧ m k.arrIdx = some v

end Verif.Spec

namespace Verif
open Spec

/-! ### Arenas -/

namespace GenArena
variable {α : Type}

/-- Free places are free, and no entry is of a later generation. -/
structure Sound (a : GenArena α) : Prop where
  nodup : a.free.Nodup
  free : ∀ i ∈ a.free, a.slots[i]? = some none
  old : ∀ (i g : Nat) (v : α), a.slots[i]? = some (some (g, v)) → g ≤ a.generation

theorem get_eq {a : GenArena α} {i : GenIndex} {v : α} : a.get i = some v ↔ a.slots[i.arrIdx]? = some (some (i.gen, v)) := by
  unfold get
  constructor
  · intro h
    split at h
    · rename_i g w e
      split at h
      · rename_i hg; rw [e, ← hg, Option.some.inj h]
      · cases h
    · cases h
  · intro h
    rw [h]
    exact if_pos rfl

theorem insert_get_slots {a : GenArena α} (hs : ∀ i ∈ a.free, a.slots[i]? = some none) (more : Nat) (v : α) (i : Nat) (g : Nat) (w : α) :
    (a.insert more v).2.slots[i]? = some (some (g, w)) ↔
      (i = (a.insert more v).1.arrIdx ∧ g = a.generation ∧ w = v) ∨ (i ≠ (a.insert more v).1.arrIdx ∧ a.slots[i]? = some (some (g, w))) := by
  unfold insert
  split
  · rename_i j rest hf
    have hj := hs j (by rw [hf]; exact List.mem_cons_self)
    obtain ⟨hj', -⟩ := List.getElem?_eq_some_iff.1 hj
    dsimp only
    rw [List.getElem?_set]
    by_cases e : j = i
    · subst e
      simp [hj']
      constructor <;> (rintro ⟨h1, h2⟩; exact ⟨h1.symm, h2.symm⟩)
    · rw [if_neg e]
      exact ⟨fun h => .inr ⟨fun e' => e e'.symm, h⟩, fun h => h.elim (fun h => absurd h.1.symm e) (·.2)⟩
  · dsimp only
    rcases Nat.lt_trichotomy i a.slots.length with h | h | h
    · rw [List.getElem?_append_left h]
      exact ⟨fun h' => .inr ⟨Nat.ne_of_lt h, h'⟩, fun h' => h'.elim (fun h' => absurd h'.1 (Nat.ne_of_lt h)) (·.2)⟩
    · subst h
      rw [List.getElem?_append_right (Nat.le_refl _), Nat.sub_self]
      simp
      constructor <;> (rintro ⟨h1, h2⟩; exact ⟨h1.symm, h2.symm⟩)
    · rw [List.getElem?_append_right (Nat.le_of_lt h), List.getElem?_eq_none (Nat.le_of_lt h)]
      obtain ⟨k, hk⟩ := Nat.exists_eq_add_of_lt h
      have : i - a.slots.length = k + 1 := by omega
      rw [this, List.getElem?_cons_succ]
      constructor
      · intro h'
        have := List.mem_of_getElem? h'
        have := List.eq_of_mem_replicate this
        cases this
      · rintro (h' | h')
        · omega
        · cases h'.2

theorem insert_generation (a : GenArena α) (more : Nat) (v : α) : (a.insert more v).2.generation = a.generation ∧ (a.insert more v).1.gen = a.generation := by
  unfold insert
  split <;> exact ⟨rfl, rfl⟩

theorem modify_slots {a : GenArena α} (i : GenIndex) (f : α → α) (j g : Nat) (w : α) (h : (a.modify i f).slots[j]? = some (some (g, w))) :
    ∃ v, a.slots[j]? = some (some (g, v)) := by
  unfold modify at h
  split at h
  · rename_i v e
    dsimp only at h
    rw [List.getElem?_set] at h
    split at h
    · rename_i hij
      split at h
      · cases Option.some.inj (Option.some.inj h)
        exact ⟨v, hij ▸ get_eq.1 e⟩
      · cases h
    · exact ⟨w, h⟩
  · exact ⟨w, h⟩

theorem modify_generation (a : GenArena α) (i : GenIndex) (f : α → α) : (a.modify i f).generation = a.generation ∧ (a.modify i f).free = a.free := by
  unfold modify
  split <;> exact ⟨rfl, rfl⟩

theorem remove_slots {a : GenArena α} (i : GenIndex) (j g : Nat) (w : α) (h : (a.remove i).2.slots[j]? = some (some (g, w))) :
    a.slots[j]? = some (some (g, w)) := by
  unfold remove at h
  split at h
  · dsimp only at h
    rw [List.getElem?_set] at h
    split at h
    · split at h <;> cases h
    · exact h
  · exact h

theorem generation_le (a : GenArena α) (s : ArenaStep α) : a.generation ≤ (s.apply a).generation := by
  cases s with
  | insert more v => exact Nat.le_of_eq (insert_generation a more v).1.symm
  | modify i f => exact Nat.le_of_eq (modify_generation a i f).1.symm
  | remove i =>
    show a.generation ≤ (a.remove i).2.generation
    unfold remove
    split
    · exact Nat.le_succ _
    · exact Nat.le_refl _

theorem sound_new (capacity : Nat) : Sound (new capacity : GenArena α) := by
  refine ⟨List.nodup_range, ?_, ?_⟩
  · intro i hi
    have : i < capacity := List.mem_range.1 hi
    show (List.replicate capacity none)[i]? = _
    rw [List.getElem?_replicate, if_pos this]
  · intro i g v h
    have h : (List.replicate capacity (none : Option (Nat × α)))[i]? = some (some (g, v)) := h
    have := List.eq_of_mem_replicate (List.mem_of_getElem? h)
    cases this

theorem Sound.insert {a : GenArena α} (h : Sound a) (more : Nat) (v : α) : Sound (a.insert more v).2 := by
  refine ⟨?_, ?_, ?_⟩
  · unfold GenArena.insert
    split
    · rename_i j rest hf
      have := h.nodup
      rw [hf] at this
      exact (List.nodup_cons.1 this).2
    · exact List.nodup_range'
  · intro i hi
    unfold GenArena.insert at hi ⊢
    split at hi
    · rename_i j rest hf
      have hn := h.nodup
      rw [hf] at hn
      have hne : j ≠ i := fun e => (List.nodup_cons.1 hn).1 (e ▸ hi)
      show (a.slots.set j _)[i]? = _
      rw [List.getElem?_set_ne hne]
      exact h.free i (by rw [hf]; exact List.mem_cons_of_mem _ hi)
    · obtain ⟨h1, h2⟩ := List.mem_range'_1.1 hi
      show (a.slots ++ some (a.generation, v) :: List.replicate more none)[i]? = _
      rw [List.getElem?_append_right (by omega)]
      obtain ⟨k, hk⟩ := Nat.exists_eq_add_of_le h1
      have : i - a.slots.length = k + 1 := by omega
      rw [this, List.getElem?_cons_succ, List.getElem?_replicate, if_pos (by omega)]
  · intro i g w hw
    rw [(insert_generation a more v).1]
    rcases (insert_get_slots h.free more v i g w).1 hw with h' | h'
    · exact Nat.le_of_eq h'.2.1
    · exact h.old i g w h'.2

theorem Sound.modify {a : GenArena α} (h : Sound a) (i : GenIndex) (f : α → α) : Sound (a.modify i f) := by
  refine ⟨by rw [(modify_generation a i f).2]; exact h.nodup, ?_, ?_⟩
  · intro j hj
    rw [(modify_generation a i f).2] at hj
    have hj := h.free j hj
    unfold GenArena.modify
    split
    · rename_i v e
      have hne : i.arrIdx ≠ j := by
        intro e'
        have := get_eq.1 e
        rw [e', hj] at this
        cases this
      show (a.slots.set i.arrIdx _)[j]? = _
      rw [List.getElem?_set_ne hne]
      exact hj
    · exact hj
  · intro j g w hw
    obtain ⟨v, hv⟩ := modify_slots i f j g w hw
    rw [(modify_generation a i f).1]
    exact h.old j g v hv

theorem Sound.remove {a : GenArena α} (h : Sound a) (i : GenIndex) : Sound (a.remove i).2 := by
  have hold := fun j g w hw => h.old j g w (remove_slots i j g w hw)
  have hle := generation_le a (.remove i)
  refine ⟨?_, ?_, fun j g w hw => Nat.le_trans (hold j g w hw) hle⟩
  · unfold GenArena.remove
    split
    · rename_i v e
      refine List.nodup_cons.2 ⟨fun hm => ?_, h.nodup⟩
      have := h.free _ hm
      rw [get_eq.1 e] at this
      cases this
    · exact h.nodup
  · intro j hj
    unfold GenArena.remove at hj ⊢
    split at hj
    · rename_i v e
      obtain ⟨hl, -⟩ := List.getElem?_eq_some_iff.1 (get_eq.1 e)
      show (a.slots.set i.arrIdx none)[j]? = _
      rw [List.getElem?_set]
      split
      · rfl
      · rename_i e'
        exact h.free j ((List.mem_cons.1 hj).resolve_left fun e => e' e.symm)
    · exact h.free j hj

theorem Sound.of_reachable {a : GenArena α} (h : ArenaReach a) : Sound a := by
  induction h with
  | new c => exact sound_new c
  | step s _ ih =>
    cases s with
    | insert more v => exact ih.insert more v
    | modify i f => exact ih.modify i f
    | remove i => exact ih.remove i

/-- **C111: adding.** A new entry takes the place of no other one: it is found with the index that is given for it, which was not in use, and what
was found before is found as before. -/
theorem C111_insert {a : GenArena α} (h : ArenaReach a) (more : Nat) (v : α) :
    a.get (a.insert more v).1 = none ∧ (a.insert more v).2.get (a.insert more v).1 = some v ∧
    ∀ i, i ≠ (a.insert more v).1 → (a.insert more v).2.get i = a.get i := by
  have hs := Sound.of_reachable h
  obtain ⟨-, hg⟩ := insert_generation a more v
  have hnone : ∀ g w, ¬ a.slots[(a.insert more v).1.arrIdx]? = some (some (g, w)) := by
    intro g w hw
    unfold GenArena.insert at hw
    split at hw
    · rename_i j rest hf
      rw [hs.free j (by rw [hf]; exact List.mem_cons_self)] at hw
      cases hw
    · rw [List.getElem?_eq_none (Nat.le_refl _)] at hw
      cases hw
  refine ⟨?_, ?_, ?_⟩
  · exact Option.eq_none_iff_forall_not_mem.2 fun w hw => hnone _ w (get_eq.1 hw)
  · exact get_eq.2 ((insert_get_slots hs.free more v _ _ _).2 (.inl ⟨rfl, hg, rfl⟩))
  · intro i hi
    apply Option.ext
    intro w
    rw [get_eq, get_eq, insert_get_slots hs.free]
    constructor
    · rintro (h' | h')
      · refine absurd ?_ hi
        cases i
        cases hx : (a.insert more v).1
        simp only [hx] at h' hg
        simp [h'.1, h'.2.1, hg]
      · exact h'.2
    · intro h'
      refine .inr ⟨fun e => hnone i.gen w (e ▸ h'), h'⟩

/-- An index that is not in use and that no new entry can get. -/
def Stale (i : GenIndex) (a : GenArena α) : Prop := i.gen < a.generation ∧ ∀ v, a.slots[i.arrIdx]? ≠ some (some (i.gen, v))

theorem Stale.step {i : GenIndex} {a : GenArena α} (hs : Sound a) (h : Stale i a) (s : ArenaStep α) : Stale i (s.apply a) := by
  refine ⟨Nat.lt_of_lt_of_le h.1 (generation_le a s), fun w hw => ?_⟩
  cases s with
  | insert more v =>
    rcases (insert_get_slots hs.free more v _ _ _).1 hw with h' | h'
    · exact Nat.ne_of_lt h.1 h'.2.1
    · exact h.2 w h'.2
  | modify j f =>
    obtain ⟨v, hv⟩ := modify_slots j f _ _ _ hw
    exact h.2 v hv
  | remove j => exact h.2 w (remove_slots j _ _ _ hw)

/-- **C111: removing.** An index is not found any more after its entry was removed, whatever is done then: no later entry is taken for the one that was
removed. -/
theorem C111_stale {a : GenArena α} (h : ArenaReach a) (i : GenIndex) {v : α} (hv : a.get i = some v) (steps : List (ArenaStep α)) :
    (a.remove i).1 = some v ∧ (steps.foldl (fun a s => s.apply a) (a.remove i).2).get i = none := by
  have hs := Sound.of_reachable h
  have hr : (a.remove i) = (some v, ⟨a.slots.set i.arrIdx none, a.generation + 1, i.arrIdx :: a.free⟩) := by
    unfold remove
    rw [hv]
  have h0 : Stale i (a.remove i).2 := by
    rw [hr]
    refine ⟨Nat.lt_succ_of_le (hs.old _ _ _ (get_eq.1 hv)), fun w hw => ?_⟩
    have hw : (a.slots.set i.arrIdx none)[i.arrIdx]? = some (some (i.gen, w)) := hw
    rw [List.getElem?_set, if_pos rfl] at hw
    split at hw <;> cases hw
  refine ⟨by rw [hr], ?_⟩
  suffices hx : ∀ (steps : List (ArenaStep α)) (b : GenArena α), Sound b → Stale i b → (steps.foldl (fun a s => s.apply a) b).get i = none from
    hx steps _ (hs.remove i) h0
  intro steps
  induction steps with
  | nil => exact fun b _ hb => Option.eq_none_iff_forall_not_mem.2 fun w hw => hb.2 w (get_eq.1 hw)
  | cons s ss ih =>
    intro b hb hst
    refine ih _ ?_ (hst.step hb s)
    cases s with
    | insert more v => exact hb.insert more v
    | modify i f => exact hb.modify i f
    | remove i => exact hb.remove i

/-! ### Before and during `build` -/

/-- The arena has the entries of the list, all of the first generation. -/
structure Shows (a : GenArena α) (c : List (Option α)) : Prop where
  slots : ∀ i : Nat, (a.slots[i]?).join = ((c[i]?).join).map (Prod.mk 1)

theorem Shows.get {a : GenArena α} {c : List (Option α)} (h : Shows a c) (i : Nat) : a.get ⟨i, 1⟩ = (c[i]?).join := by
  have := h.slots i
  apply Option.ext
  intro v
  rw [get_eq]
  show a.slots[i]? = _ ↔ _
  rw [← Option.join_eq_some_iff, this, Option.map_eq_some_iff]
  constructor
  · rintro ⟨w, h1, h2⟩
    rw [h1, (Prod.mk.inj h2).2]
  · exact fun h => ⟨v, h, rfl⟩

theorem Shows.set {a : GenArena α} {c : List (Option α)} (h : Shows a c) {i : Nat} {v : α} (hv : (c[i]?).join = some v) (w : Option α) :
    Shows { a with slots := a.slots.set i (w.map (Prod.mk 1)) } (c.set i w) := by
  refine ⟨fun j => ?_⟩
  have h1 := h.slots i
  rw [hv] at h1
  obtain ⟨l1, -⟩ := List.getElem?_eq_some_iff.1 (Option.join_eq_some_iff.1 h1)
  obtain ⟨l2, -⟩ := List.getElem?_eq_some_iff.1 (Option.join_eq_some_iff.1 hv)
  dsimp only
  rw [List.getElem?_set, List.getElem?_set]
  split
  · rfl
  · exact h.slots j

/-- `remove` is `take`. -/
theorem Shows.remove {a : GenArena α} {c : List (Option α)} (h : Shows a c) (i : Nat) :
    (a.remove ⟨i, 1⟩).1 = (c[i]?).join ∧ Shows (a.remove ⟨i, 1⟩).2 (if (c[i]?).join.isSome then c.set i none else c) := by
  have hg := h.get i
  unfold GenArena.remove
  rw [hg]
  cases hv : (c[i]?).join with
  | none => exact ⟨rfl, h⟩
  | some v => exact ⟨rfl, ⟨(h.set hv none).slots⟩⟩

/-- An arena from which nothing was removed. -/
structure Fresh (a : GenArena α) (l : List α) : Prop where
  shows_ : Shows a (l.map some)
  first : a.generation = 1
  free : ∃ k, a.free = List.range' l.length k ∧ a.slots.length = l.length + k

theorem fresh_new (capacity : Nat) : Fresh (new capacity : GenArena α) [] := by
  refine ⟨⟨fun i => ?_⟩, rfl, capacity, List.range_eq_range', ?_⟩
  · show ((List.replicate capacity none)[i]?).join = _
    rw [List.getElem?_replicate]
    split <;> rfl
  · show (List.replicate capacity none).length = _
    rw [List.length_replicate]
    exact (Nat.zero_add _).symm

theorem Fresh.insert {a : GenArena α} {l : List α} (h : Fresh a l) (more : Nat) (v : α) :
    (a.insert more v).1 = ⟨l.length, 1⟩ ∧ Fresh (a.insert more v).2 (l ++ [v]) := by
  obtain ⟨k, hf, hl⟩ := h.free
  unfold GenArena.insert
  rw [hf, h.first]
  cases k with
  | zero =>
    have hl : a.slots.length = l.length := hl
    rw [List.range'_zero]
    dsimp only
    refine ⟨by rw [hl], ⟨fun i => ?_⟩, rfl, more, by simp [hl], by simp [hl]; omega⟩
    have := h.shows_.slots i
    rw [List.map_append]
    rcases Nat.lt_trichotomy i l.length with hi | hi | hi
    · rw [List.getElem?_append_left (by omega), List.getElem?_append_left (by simpa using hi)]
      exact this
    · rw [List.getElem?_append_right (by omega), List.getElem?_append_right (by simp; omega)]
      simp [hl, hi]
    · rw [List.getElem?_append_right (by omega), List.getElem?_append_right (by simp; omega)]
      obtain ⟨d, hd⟩ := Nat.exists_eq_add_of_lt hi
      have e : i - a.slots.length = d + 1 := by omega
      have e' : i - (l.map some).length = d + 1 := by simp; omega
      rw [e, e', List.getElem?_cons_succ, List.getElem?_replicate]
      split <;> rfl
  | succ k =>
    rw [List.range'_succ]
    dsimp only
    refine ⟨rfl, ⟨fun i => ?_⟩, rfl, k, by simp, by simp [hl]; omega⟩
    have := h.shows_.slots i
    rw [List.map_append, List.getElem?_set]
    rcases Nat.lt_trichotomy i l.length with hi | hi | hi
    · rw [if_neg (by omega), List.getElem?_append_left (by simpa using hi)]
      exact this
    · rw [if_pos hi.symm, if_pos (by omega), List.getElem?_append_right (by simp; omega)]
      simp [hi]
    · rw [if_neg (by omega), this, List.getElem?_eq_none (by simp; omega), List.getElem?_eq_none (by simp; omega)]

theorem Fresh.modify {a : GenArena α} {l : List α} (h : Fresh a l) (i : Nat) (f : α → α) : Fresh (a.modify ⟨i, 1⟩ f) (l.modify i f) := by
  obtain ⟨k, hf, hl⟩ := h.free
  have hg := h.shows_.get i
  unfold GenArena.modify
  rw [hg]
  cases hv : ((l.map some)[i]?).join with
  | none =>
    have : l.length ≤ i := by
      by_contra hx
      rw [List.getElem?_map, List.getElem?_eq_getElem (by omega)] at hv
      cases hv
    rw [List.modify_eq_self this]
    exact h
  | some v =>
    dsimp only
    have e : l[i]? = some v := by
      rw [List.getElem?_map] at hv
      cases hx : l[i]? with
      | none => rw [hx] at hv; cases hv
      | some w => rw [hx] at hv; exact hv
    have e2 : (l.modify i f).map some = (l.map some).set i (some (f v)) := by
      apply List.ext_getElem?
      intro j
      rw [List.getElem?_map, List.getElem?_modify, List.getElem?_set]
      by_cases hij : i = j
      · subst hij
        obtain ⟨hl', -⟩ := List.getElem?_eq_some_iff.1 e
        rw [e, if_pos rfl, if_pos (by simpa using hl')]
        simp
      · rw [if_neg hij, List.getElem?_map]
        simp [hij]
    refine ⟨?_, h.first, k, by simpa using hf, by simpa using hl⟩
    rw [e2]
    exact ⟨(h.shows_.set hv (some (f v))).slots⟩

/-- **C111: positions.** Whatever is added to an arena and changed in it: the entries have the positions in which they were added, with the first
generation, and are found as in a list. The last part is what `C111_build` needs. -/
theorem C111_positions (capacity : Nat) (steps : List (GrowStep α)) :
    ∀ a l, a = steps.foldl (fun a s => s.arena a) (GenArena.new capacity) → l = steps.foldl (fun l s => s.list l) [] →
    (∀ i, a.get ⟨i, 1⟩ = l[i]?) ∧ (∀ more v, (a.insert more v).1 = ⟨l.length, 1⟩) ∧ a.Shows (l.map some) := by
  have hx : ∀ (steps : List (GrowStep α)) (a : GenArena α) (l : List α), Fresh a l →
      Fresh (steps.foldl (fun a s => s.arena a) a) (steps.foldl (fun l s => s.list l) l) := by
    intro steps
    induction steps with
    | nil => exact fun _ _ h => h
    | cons s ss ih =>
      intro a l h
      refine ih _ _ ?_
      cases s with
      | insert more v => exact (h.insert more v).2
      | modify i f => exact h.modify i f
  rintro a l rfl rfl
  have h := hx steps _ _ (fresh_new capacity)
  refine ⟨fun i => ?_, fun more v => (h.insert more v).1, h.shows_⟩
  rw [h.shows_.get, List.getElem?_map]
  cases (steps.foldl (fun l s => s.list l) [])[i]? <;> rfl

end GenArena

/-- Taking entries one after the other, as `build` does (/repo/src/merge/merger.rs:337-340, /repo/src/merge/posting.rs:166-171). -/
def GenArena.removes (a : GenArena PostHolder) : List Nat → Except MergeErr (List PostingInternal × GenArena PostHolder)
  | [] => .ok ([], a)
  | i :: is =>
    match a.remove ⟨i, 1⟩ with
    | (none, _) => .error (.panic .badPostingIndex)
    | (some p, b) =>
      match b.removes is with
      | .error e => .error e
      | .ok (ps, b) => .ok (p.posting :: ps, b)

/-- **C111: `build`.** Postings are taken from an arena, in any order and also more than once, as from the list: with the same results and the same
panics, though the generation goes up each time. -/
theorem C111_build {a : GenArena PostHolder} {c : ConsumePostings} (h : a.Shows c) (is : List Nat) :
    (a.removes is).map Prod.fst = (Merger.takePosts is c).map Prod.fst := by
  suffices hx : (∀ e, a.removes is = .error e → Merger.takePosts is c = .error e) ∧
      ∀ ps b, a.removes is = .ok (ps, b) → ∃ c', Merger.takePosts is c = .ok (ps, c') by
    cases hr : a.removes is with
    | error e => rw [hx.1 e hr]; rfl
    | ok r =>
      obtain ⟨c', hc⟩ := hx.2 r.1 r.2 hr
      rw [hc]
      rfl
  induction is generalizing a c with
  | nil =>
    refine ⟨fun e he => (by cases he), fun ps b hb => ⟨c, ?_⟩⟩
    cases hb
    rfl
  | cons i is ih =>
    obtain ⟨h1, h2⟩ := h.remove i
    cases hr : a.remove ⟨i, 1⟩ with
    | mk o b =>
    rw [hr] at h1 h2
    dsimp only at h1 h2
    unfold GenArena.removes Merger.takePosts ConsumePostings.take
    rw [hr]
    cases hc : c[i]? with
    | none =>
      rw [hc] at h1
      subst h1
      exact ⟨fun e he => (by cases he; rfl), fun ps b hb => (by cases hb)⟩
    | some x =>
      cases x with
      | none =>
        rw [hc] at h1
        subst h1
        exact ⟨fun e he => (by cases he; rfl), fun ps b hb => (by cases hb)⟩
      | some p =>
        rw [hc] at h1 h2
        subst h1
        obtain ⟨i1, i2⟩ := ih h2
        have hj : (some (some p)).join = some p := rfl
        rw [hj]
        dsimp only
        cases hb : b.removes is with
        | error e' =>
          have := i1 e' hb
          refine ⟨fun e he => ?_, fun ps b' hb' => (by cases hb')⟩
          cases he
          show (Merger.takePosts is (c.set i none) >>= _) = _
          have this : Merger.takePosts is (c.set i none) = .error e' := this
          rw [this]
          rfl
        | ok r =>
          obtain ⟨c', hc'⟩ := i2 r.1 r.2 hb
          refine ⟨fun e he => (by cases he), fun ps b' hb' => ⟨c', ?_⟩⟩
          cases hb'
          show (Merger.takePosts is (c.set i none) >>= _) = _
          have hc' : Merger.takePosts is (c.set i none) = .ok (r.1, c') := hc'
          rw [hc']
          rfl

/-- Removing the transactions of one date (/repo/src/merge/transaction.rs:36-39). -/
def GenArena.removeHolders (a : GenArena TrnHolder) : List Nat → Except MergeErr (List TrnHolder × GenArena TrnHolder)
  | [] => .ok ([], a)
  | i :: is =>
    match a.remove ⟨i, 1⟩ with
    | (none, _) => .error (.panic .badTransactionIndex)
    | (some t, b) =>
      match b.removeHolders is with
      | .error e => .error e
      | .ok (ts, b) => .ok (t :: ts, b)

/-- Removing the transactions of all dates (/repo/src/merge/transaction.rs:31-42). -/
def GenArena.removeDates (a : GenArena TrnHolder) : List (Date × List Nat) → Except MergeErr (List (Date × List TrnHolder))
  | [] => .ok []
  | (date, is) :: rest =>
    match a.removeHolders is with
    | .error e => .error e
    | .ok (ts, b) =>
      match b.removeDates rest with
      | .error e => .error e
      | .ok more => .ok ((date, ts) :: more)

theorem removeHolders_take {a : GenArena TrnHolder} {c : List (Option TrnHolder)} (h : a.Shows c) (is : List Nat) :
    (∀ e, a.removeHolders is = .error e → IndexedTransactions.takeHolders is c = .error e) ∧
    ∀ ts b, a.removeHolders is = .ok (ts, b) → ∃ c', IndexedTransactions.takeHolders is c = .ok (ts, c') ∧ b.Shows c' := by
  induction is generalizing a c with
  | nil =>
    refine ⟨fun e he => (by cases he), fun ts b hb => ⟨c, ?_⟩⟩
    cases hb
    exact ⟨rfl, h⟩
  | cons i is ih =>
    obtain ⟨h1, h2⟩ := h.remove i
    cases hr : a.remove ⟨i, 1⟩ with
    | mk o b =>
    rw [hr] at h1 h2
    dsimp only at h1 h2
    unfold GenArena.removeHolders IndexedTransactions.takeHolders
    rw [hr]
    cases hc : c[i]? with
    | none =>
      rw [hc] at h1
      subst h1
      exact ⟨fun e he => (by cases he; rfl), fun ts b hb => (by cases hb)⟩
    | some x =>
      cases x with
      | none =>
        rw [hc] at h1
        subst h1
        exact ⟨fun e he => (by cases he; rfl), fun ts b hb => (by cases hb)⟩
      | some t =>
        rw [hc] at h1 h2
        subst h1
        have h2 : b.Shows (c.set i none) := h2
        obtain ⟨i1, i2⟩ := ih h2
        have hj : (some (some t)).join = some t := rfl
        rw [hj]
        dsimp only
        cases hb : b.removeHolders is with
        | error e' =>
          refine ⟨fun e he => ?_, fun ts b' hb' => (by cases hb')⟩
          cases he
          rw [i1 e' hb]
          rfl
        | ok r =>
          obtain ⟨c', hc', hs⟩ := i2 r.1 r.2 hb
          refine ⟨fun e he => (by cases he), fun ts b' hb' => ⟨c', ?_⟩⟩
          cases hb'
          rw [hc']
          exact ⟨rfl, hs⟩

/-- **C111: `into_iter`.** The transactions are taken from their arena as from the list, whatever the order of the dates. -/
theorem C111_transactions {a : GenArena TrnHolder} {c : List (Option TrnHolder)} (h : a.Shows c) (dates : List (Date × List Nat)) :
    a.removeDates dates = IndexedTransactions.takeDates dates c := by
  induction dates generalizing a c with
  | nil => rfl
  | cons x xs ih =>
    obtain ⟨d, is⟩ := x
    obtain ⟨h1, h2⟩ := removeHolders_take h is
    unfold GenArena.removeDates IndexedTransactions.takeDates
    cases hr : a.removeHolders is with
    | error e =>
      rw [h1 e hr]
      rfl
    | ok r =>
      obtain ⟨ts, b⟩ := r
      obtain ⟨c', hc', hs⟩ := h2 ts b hr
      rw [hc']
      dsimp only
      show _ = (IndexedTransactions.takeDates xs c' >>= _)
      rw [ih hs]
      cases IndexedTransactions.takeDates xs c' <;> rfl

/-! ### Hash tables -/

/-- Two keys are equal when they are the same index. -/
theorem GenIndex.eq_iff (a b : GenIndex) : a.eq b = true ↔ a = b := by
  cases a
  cases b
  simp [GenIndex.eq]

namespace HashTable
variable {κ ν : Type}

/-- Every entry is where the hash function puts it, and no key is there twice. -/
structure Placed (hash : κ → Nat) (t : HashTable κ ν) : Prop where
  pos : 0 < t.buckets.length
  place : ∀ (i : Nat) (b : List (κ × ν)), t.buckets[i]? = some b → ∀ e ∈ b, hash e.1 % t.buckets.length = i
  nodup : ∀ (i : Nat) (b : List (κ × ν)), t.buckets[i]? = some b → (b.map Prod.fst).Nodup

theorem mem_entries {t : HashTable κ ν} {e : κ × ν} : e ∈ t.entries ↔ ∃ (i : Nat) (b : List (κ × ν)), t.buckets[i]? = some b ∧ e ∈ b := by
  unfold entries
  rw [List.mem_flatten]
  constructor
  · rintro ⟨b, hb, he⟩
    obtain ⟨i, hi⟩ := List.mem_iff_getElem?.1 hb
    exact ⟨i, b, hi, he⟩
  · rintro ⟨i, b, hb, he⟩
    exact ⟨b, List.mem_of_getElem? hb, he⟩

theorem Placed.entries_nodup {hash : κ → Nat} {t : HashTable κ ν} (h : Placed hash t) : (t.entries.map Prod.fst).Nodup := by
  unfold entries
  rw [List.map_flatten, List.nodup_flatten]
  refine ⟨?_, ?_⟩
  · intro l hl
    obtain ⟨b, hb, rfl⟩ := List.mem_map.1 hl
    obtain ⟨i, hi⟩ := List.mem_iff_getElem?.1 hb
    exact h.nodup i b hi
  · rw [List.pairwise_map, List.pairwise_iff_getElem]
    intro i j hi hj hij k h1 h2
    obtain ⟨e, he, rfl⟩ := List.mem_map.1 h1
    obtain ⟨e', he', e2⟩ := List.mem_map.1 h2
    have p1 := h.place i _ (List.getElem?_eq_getElem hi) e he
    have p2 := h.place j _ (List.getElem?_eq_getElem hj) e' he'
    rw [e2] at p2
    omega

theorem Placed.rehash {hash : κ → Nat} {t : HashTable κ ν} (h : Placed hash t) (n : Nat) :
    Placed hash (t.rehash hash n) ∧ ∀ e, e ∈ (t.rehash hash n).entries ↔ e ∈ t.entries := by
  have hlen : (t.rehash hash n).buckets.length = n + 1 := by
    unfold HashTable.rehash
    rw [List.length_map, List.length_range]
  have hb : ∀ (i : Nat) (b : List (κ × ν)), (t.rehash hash n).buckets[i]? = some b ↔
      i < n + 1 ∧ b = t.entries.filter fun e => hash e.1 % (n + 1) == i := by
    intro i b
    unfold HashTable.rehash
    rw [List.getElem?_map]
    by_cases hi : i < n + 1
    · rw [List.getElem?_range hi]
      simp [hi, eq_comm]
    · rw [List.getElem?_eq_none (by rw [List.length_range]; omega)]
      simp [hi]
  refine ⟨⟨by rw [hlen]; omega, ?_, ?_⟩, ?_⟩
  · intro i b hi e he
    obtain ⟨-, rfl⟩ := (hb i b).1 hi
    rw [hlen]
    exact beq_iff_eq.1 (List.mem_filter.1 he).2
  · intro i b hi
    obtain ⟨-, rfl⟩ := (hb i b).1 hi
    exact h.entries_nodup.sublist (List.filter_sublist.map _)
  · intro e
    rw [mem_entries]
    constructor
    · rintro ⟨i, b, hi, he⟩
      obtain ⟨-, rfl⟩ := (hb i b).1 hi
      exact (List.mem_filter.1 he).1
    · intro he
      exact ⟨hash e.1 % (n + 1), _, (hb _ _).2 ⟨Nat.mod_lt _ (Nat.succ_pos n), rfl⟩, List.mem_filter.2 ⟨he, beq_iff_eq.2 rfl⟩⟩

theorem upsertBucket_keys (eq : κ → κ → Bool) (heq : ∀ a b, eq a b = true ↔ a = b) (k : κ) (f : Option ν → ν) (b : List (κ × ν))
    (hn : (b.map Prod.fst).Nodup) :
    ((upsertBucket eq k f b).map Prod.fst).Nodup ∧ ∀ e ∈ upsertBucket eq k f b, e.1 = k ∨ e ∈ b := by
  induction b with
  | nil =>
    refine ⟨List.nodup_singleton _, fun e he => .inl ?_⟩
    rw [List.mem_singleton.1 he]
  | cons x xs ih =>
    rw [List.map_cons, List.nodup_cons] at hn
    unfold upsertBucket
    split
    · rename_i hk
      refine ⟨List.nodup_cons.2 hn, fun e he => ?_⟩
      rcases List.mem_cons.1 he with rfl | he
      · exact .inl ((heq _ _).1 hk).symm
      · exact .inr (List.mem_cons_of_mem _ he)
    · rename_i hk
      obtain ⟨h1, h2⟩ := ih hn.2
      refine ⟨List.nodup_cons.2 ⟨fun hm => ?_, h1⟩, fun e he => ?_⟩
      · obtain ⟨e, he, e1⟩ := List.mem_map.1 hm
        rcases h2 e he with h' | h'
        · exact hk ((heq _ _).2 (h'.symm.trans e1))
        · exact hn.1 (e1 ▸ List.mem_map_of_mem h')
      · rcases List.mem_cons.1 he with rfl | he
        · exact .inr List.mem_cons_self
        · exact (h2 e he).imp_right (List.mem_cons_of_mem _)

theorem mem_upsertBucket (eq : κ → κ → Bool) (heq : ∀ a b, eq a b = true ↔ a = b) (k : κ) (f : Option ν → ν) (b : List (κ × ν))
    (hn : (b.map Prod.fst).Nodup) :
    (∀ e, e.1 ≠ k → (e ∈ upsertBucket eq k f b ↔ e ∈ b)) ∧ (∀ v, (k, v) ∈ b → ∀ w, ((k, w) ∈ upsertBucket eq k f b ↔ w = f (some v))) ∧
    ((∀ v, (k, v) ∉ b) → ∀ w, ((k, w) ∈ upsertBucket eq k f b ↔ w = f none)) := by
  induction b with
  | nil =>
    refine ⟨fun e he => ?_, fun v hv => absurd hv List.not_mem_nil, fun _ w => ?_⟩
    · refine ⟨fun h => ?_, fun h => absurd h List.not_mem_nil⟩
      rw [List.mem_singleton.1 h] at he
      exact absurd rfl he
    · show (k, w) ∈ [(k, f none)] ↔ _
      rw [List.mem_singleton, Prod.mk.injEq]
      exact ⟨fun h => h.2, fun h => ⟨rfl, h⟩⟩
  | cons x xs ih =>
    rw [List.map_cons, List.nodup_cons] at hn
    obtain ⟨i1, i2, i3⟩ := ih hn.2
    obtain ⟨xk, xv⟩ := x
    unfold upsertBucket
    split
    · rename_i hk
      have hk : k = xk := (heq _ _).1 hk
      subst hk
      have hno : ∀ v, (k, v) ∉ xs := fun v hv => hn.1 (List.mem_map.2 ⟨(k, v), hv, rfl⟩)
      refine ⟨fun e he => ?_, fun v hv w => ?_, fun h => absurd List.mem_cons_self (h xv)⟩
      · rw [List.mem_cons, List.mem_cons]
        have h1 : ∀ u, e ≠ (k, u) := fun u h => he (by rw [h])
        exact ⟨fun h => .inr (h.resolve_left (h1 _)), fun h => .inr (h.resolve_left (h1 _))⟩
      · have hv : v = xv := by
          rcases List.mem_cons.1 hv with h | h
          · exact (Prod.mk.inj h).2
          · exact absurd h (hno v)
        subst hv
        rw [List.mem_cons, Prod.mk.injEq]
        exact ⟨fun h => h.elim (·.2) (fun h => absurd h (hno w)), fun h => .inl ⟨rfl, h⟩⟩
    · rename_i hk
      have hk : k ≠ xk := fun e => hk ((heq _ _).2 e)
      have hne : ∀ u, (k, u) ≠ (xk, xv) := fun u h => hk (Prod.mk.inj h).1
      refine ⟨fun e he => ?_, fun v hv w => ?_, fun h w => ?_⟩
      · rw [List.mem_cons, List.mem_cons, i1 e he]
      · rw [List.mem_cons, or_iff_right (hne w)]
        exact i2 v ((List.mem_cons.1 hv).resolve_left (hne v)) w
      · rw [List.mem_cons, or_iff_right (hne w)]
        exact i3 (fun v hv => h v (List.mem_cons_of_mem _ hv)) w

theorem Placed.upsert {hash : κ → Nat} {eq : κ → κ → Bool} (heq : ∀ a b, eq a b = true ↔ a = b) {t : HashTable κ ν} (h : Placed hash t)
    (grow : Option Nat) (k : κ) (f : Option ν → ν) :
    Placed hash (t.upsert hash eq grow k f) ∧ (∀ e, e.1 ≠ k → (e ∈ (t.upsert hash eq grow k f).entries ↔ e ∈ t.entries)) ∧
    (∀ v, (k, v) ∈ t.entries → ∀ w, ((k, w) ∈ (t.upsert hash eq grow k f).entries ↔ w = f (some v))) ∧
    ((∀ v, (k, v) ∉ t.entries) → ∀ w, ((k, w) ∈ (t.upsert hash eq grow k f).entries ↔ w = f none)) := by
  obtain ⟨t', ht', hp, hm⟩ : ∃ t', t.upsert hash eq grow k f = ⟨t'.buckets.modify (hash k % t'.buckets.length) (upsertBucket eq k f)⟩ ∧
      Placed hash t' ∧ ∀ e, e ∈ t'.entries ↔ e ∈ t.entries := by
    cases grow with
    | none => exact ⟨t, rfl, h, fun _ => Iff.rfl⟩
    | some n => exact ⟨t.rehash hash n, rfl, h.rehash n⟩
  simp only [← hm]
  rw [ht']
  have hj : hash k % t'.buckets.length < t'.buckets.length := Nat.mod_lt _ hp.pos
  generalize hjj : hash k % t'.buckets.length = j at hj
  have hB := List.getElem?_eq_getElem hj
  generalize t'.buckets[j] = B at hB
  have hb : ∀ (i : Nat) (b : List (κ × ν)), (t'.buckets.modify j (upsertBucket eq k f))[i]? = some b ↔
      (i = j ∧ b = upsertBucket eq k f B) ∨ (i ≠ j ∧ t'.buckets[i]? = some b) := by
    intro i b
    rw [List.getElem?_modify]
    by_cases e : j = i
    · subst e
      rw [hB]
      simp [eq_comm]
    · have e' : i ≠ j := fun h => e h.symm
      simp [e, e']
  obtain ⟨k1, k2⟩ := upsertBucket_keys eq heq k f B (hp.nodup j B hB)
  obtain ⟨m1, m2, m3⟩ := mem_upsertBucket eq heq k f B (hp.nodup j B hB)
  have hat : ∀ v, (k, v) ∈ t'.entries ↔ (k, v) ∈ B := by
    intro v
    rw [mem_entries]
    constructor
    · rintro ⟨i, b, hi, he⟩
      have := hp.place i b hi _ he
      have : j = i := hjj.symm.trans this
      subst this
      rw [hB] at hi
      exact Option.some.inj hi ▸ he
    · exact fun he => ⟨j, B, hB, he⟩
  have hent : ∀ w, (k, w) ∈ (⟨t'.buckets.modify j (upsertBucket eq k f)⟩ : HashTable κ ν).entries ↔ (k, w) ∈ upsertBucket eq k f B := by
    intro w
    rw [mem_entries]
    constructor
    · rintro ⟨i, b, hi, he⟩
      rcases (hb i b).1 hi with ⟨-, rfl⟩ | ⟨hne, hi⟩
      · exact he
      · exact absurd ((hp.place i b hi _ he).symm.trans hjj) hne
    · exact fun he => ⟨j, _, (hb _ _).2 (.inl ⟨rfl, rfl⟩), he⟩
  refine ⟨⟨?_, ?_, ?_⟩, ?_, ?_, ?_⟩
  · rw [List.length_modify]
    exact hp.pos
  · intro i b hi e he
    rw [List.length_modify]
    rcases (hb i b).1 hi with ⟨rfl, rfl⟩ | ⟨-, hi⟩
    · rcases k2 e he with h' | h'
      · rw [h', hjj]
      · exact hp.place i B hB e h'
    · exact hp.place i b hi e he
  · intro i b hi
    rcases (hb i b).1 hi with ⟨rfl, rfl⟩ | ⟨-, hi⟩
    · exact k1
    · exact hp.nodup i b hi
  · intro e he
    rw [mem_entries, mem_entries]
    constructor
    · rintro ⟨i, b, hi, he'⟩
      rcases (hb i b).1 hi with ⟨rfl, rfl⟩ | ⟨-, hi⟩
      · exact ⟨i, B, hB, (m1 e he).1 he'⟩
      · exact ⟨i, b, hi, he'⟩
    · rintro ⟨i, b, hi, he'⟩
      by_cases e' : i = j
      · subst e'
        rw [hB] at hi
        cases hi
        exact ⟨i, _, (hb _ _).2 (.inl ⟨rfl, rfl⟩), (m1 e he).2 he'⟩
      · exact ⟨i, b, (hb _ _).2 (.inr ⟨e', hi⟩), he'⟩
  · intro v hv w
    rw [hent]
    exact m2 v ((hat v).1 hv) w
  · intro hv w
    rw [hent]
    exact m3 (fun v h => hv v ((hat v).2 h)) w

end HashTable

variable {ν : Type}

theorem lists_upsert {hasher : Nat → Nat} {g : Nat} {t : HashTable GenIndex ν} {m : Nat → Option ν} (hp : t.Placed (GenIndex.hash hasher))
    (h : TableLists g t.entries m) (grow : Option Nat) (d : Nat) (f : Option ν → ν) :
    (t.upsert (GenIndex.hash hasher) GenIndex.eq grow ⟨d, g⟩ f).Placed (GenIndex.hash hasher) ∧
    TableLists g (t.upsert (GenIndex.hash hasher) GenIndex.eq grow ⟨d, g⟩ f).entries (putAt m d f) := by
  obtain ⟨h1, h2, h3, h4⟩ := hp.upsert GenIndex.eq_iff grow ⟨d, g⟩ f
  refine ⟨h1, h1.entries_nodup, fun k v => ?_⟩
  by_cases hk : k = ⟨d, g⟩
  · subst hk
    show _ ↔ g = g ∧ (if d = d then some (f (m d)) else m d) = some v
    rw [if_pos rfl]
    cases hm : m d with
    | none =>
      rw [h4 (fun v hv => by rw [(((h.2 _ _).1 hv).2 : m d = some v)] at hm; cases hm)]
      simp [eq_comm]
    | some u =>
      rw [h3 u ((h.2 _ _).2 ⟨rfl, hm⟩)]
      simp [eq_comm]
  · rw [h2 (k, v) hk, h.2]
    refine and_congr_right fun hg => ?_
    unfold putAt
    rw [if_neg (fun e => hk (by cases k; cases hg; cases e; rfl))]

/-- **C111: hash tables.** For any hash function of positions and any way in which the table grows, a table whose keys are indices of one generation has
the entries that a map from positions has, each once. -/
theorem C111_table (hasher : Nat → Nat) (grow : Nat → Option Nat) (g : Nat) (cs : List (Nat × (Option ν → ν))) (n : Nat) :
    TableLists g (HashTable.empty.upserts (GenIndex.hash hasher) GenIndex.eq grow n (cs.map fun c => (⟨c.1, g⟩, c.2))).entries
      (cs.foldl (fun m c => putAt m c.1 c.2) fun _ => none) := by
  suffices hx : ∀ (cs : List (Nat × (Option ν → ν))) (n : Nat) (t : HashTable GenIndex ν) (m : Nat → Option ν), t.Placed (GenIndex.hash hasher) →
      TableLists g t.entries m → TableLists g (t.upserts (GenIndex.hash hasher) GenIndex.eq grow n (cs.map fun c => (⟨c.1, g⟩, c.2))).entries
        (cs.foldl (fun m c => putAt m c.1 c.2) m) by
    refine hx cs n _ _ ⟨Nat.zero_lt_one, ?_, ?_⟩ ⟨List.nodup_nil, fun k v => ?_⟩
    · intro i b hb e he
      have := List.mem_singleton.1 (List.mem_of_getElem? hb)
      subst this
      cases he
    · intro i b hb
      have := List.mem_singleton.1 (List.mem_of_getElem? hb)
      subst this
      exact List.nodup_nil
    · exact ⟨fun h => absurd h List.not_mem_nil, fun h => by cases h.2⟩
  intro cs
  induction cs with
  | nil => exact fun _ _ _ _ h => h
  | cons c cs ih =>
    intro n t m hp hl
    obtain ⟨h1, h2⟩ := lists_upsert hp hl (grow n) c.1 c.2
    exact ih (n + 1) _ _ h1 h2

/-- A table that has the entries of a map yields them in some order. -/
theorem lists_perm {g : Nat} {es : List (GenIndex × ν)} {M : Std.ExtTreeMap Nat ν compare} (h : TableLists g es fun d => M[d]?) :
    (es.map fun e => (e.1.arrIdx, e.2)).Perm M.toList := by
  have hn : (es.map fun e => (e.1.arrIdx, e.2)).Nodup := by
    refine List.Nodup.map_on ?_ (List.Nodup.of_map _ h.1)
    rintro ⟨⟨i, k⟩, v⟩ h1 ⟨⟨i', k'⟩, v'⟩ h2 e
    have e1 := ((h.2 _ _).1 h1).1
    have e2 := ((h.2 _ _).1 h2).1
    cases e
    cases e1
    cases e2
    rfl
  have hn' : M.toList.Nodup := by
    refine (Std.ExtTreeMap.distinct_keys_toList (t := M)).imp ?_
    intro a b hab e
    exact hab (by rw [e]; exact Std.LawfulEqOrd.compare_eq_iff_eq.2 rfl)
  refine (List.perm_ext_iff_of_nodup hn hn').2 ?_
  rintro ⟨d, v⟩
  rw [Std.ExtTreeMap.mem_toList_iff_getElem?_eq_some, List.mem_map]
  constructor
  · rintro ⟨⟨k, w⟩, he, e⟩
    cases e
    exact ((h.2 _ _).1 he).2
  · exact fun hd => ⟨(⟨d, g⟩, v), (h.2 _ _).2 ⟨rfl, hd⟩, rfl⟩

theorem pushes_map (pending : List TransactionMergeAction) (M : Std.ExtTreeMap Nat (List Input) compare) (m : Nat → Option (List Input))
    (h : ∀ d, m d = M[d]?) (d : Nat) : (pushes pending).foldl (fun m c => putAt m c.1 c.2) m d = (Merger.srcByDest M pending)[d]? := by
  induction pending generalizing M m with
  | nil => exact h d
  | cons x xs ih =>
    cases x with
    | new _ => exact ih M m h
    | leaveUnmerged _ => exact ih M m h
    | mergeInto pending _ =>
      unfold pushes Merger.srcByDest
      rw [List.foldl_append]
      refine ih _ _ ?_
      generalize pending.postActions = as
      intro d
      induction as generalizing M m with
      | nil => exact h d
      | cons a as iha =>
        obtain ⟨i, act⟩ := a
        cases act with
        | new => exact iha M m h
        | mergeIntoExisting k =>
          refine iha _ _ fun e => ?_
          show (if e = k then some ((m k).getD [] ++ [i]) else m e) = (M.insert k ((M[k]?).getD [] ++ [i]))[e]?
          rw [Std.ExtTreeMap.getElem?_insert, h k, h e]
          by_cases hk : e = k
          · subst hk
            rw [if_pos rfl, if_pos (Std.LawfulEqOrd.compare_eq_iff_eq.2 rfl)]
          · rw [if_neg hk, if_neg fun e' => hk (Std.LawfulEqOrd.compare_eq_iff_eq.1 e').symm]

/-- **C111: `check_pending`.** For any hash function and any way of growing, the loop over `src_idx_by_dest` sees the destinations with the postings
that match them, each once, in one of the orders that the model allows: keys of which only the position is hashed are kept apart and found again. -/
theorem C111_dests (hasher : Nat → Nat) (grow : Nat → Option Nat) (g : Nat) (pending : List TransactionMergeAction) :
    ((srcByDestTable hasher grow g pending).entries.map fun e => (e.1.arrIdx, e.2)).Perm (Merger.srcByDest ∅ pending).toList := by
  apply lists_perm (g := g)
  have h := C111_table hasher grow g (pushes pending) 0
  have e : (pushes pending).foldl (fun m c => putAt m c.1 c.2) (fun _ => none) = fun d => (Merger.srcByDest ∅ pending)[d]? :=
    funext fun d => pushes_map pending ∅ _ (fun d => Std.ExtTreeMap.getElem?_empty.symm) d
  rw [e] at h
  exact h

/-- **C111: `find_existing_dest_trn`.** The same for the set of transactions: its size and what it yields. -/
theorem C111_candidates (hasher : Nat → Nat) (grow : Nat → Option Nat) (g : Nat) (parents : List Nat) :
    ((candidatesTable hasher grow g parents).entries.map fun e => e.1.arrIdx).Perm (Std.ExtTreeSet.ofList parents compare).toList ∧
    (candidatesTable hasher grow g parents).entries.length = (Std.ExtTreeSet.ofList parents compare).size := by
  have h := C111_table hasher grow g (parents.map fun d => (d, fun _ : Option Unit => ())) 0
  rw [List.map_map] at h
  have hm : ∀ (ps : List Nat) (m : Nat → Option Unit) (d : Nat),
      (ps.map fun d => (d, fun _ : Option Unit => ())).foldl (fun m c => putAt m c.1 c.2) m d = some () ↔ m d = some () ∨ d ∈ ps := by
    intro ps
    induction ps with
    | nil => exact fun m d => ⟨.inl, fun h => h.resolve_right List.not_mem_nil⟩
    | cons p ps ih =>
      intro m d
      rw [List.map_cons, List.foldl_cons, ih, List.mem_cons]
      show (if d = p then some () else m d) = some () ∨ d ∈ ps ↔ _
      by_cases e : d = p <;> simp [e]
  have hn : ((candidatesTable hasher grow g parents).entries.map fun e => e.1.arrIdx).Nodup := by
    have h1 : ((candidatesTable hasher grow g parents).entries.map Prod.fst).Nodup := h.1
    rw [show (fun e : GenIndex × Unit => e.1.arrIdx) = GenIndex.arrIdx ∘ Prod.fst from rfl, ← List.map_map]
    refine List.Nodup.map_on ?_ h1
    intro a ha b hb e
    obtain ⟨x, hx, rfl⟩ := List.mem_map.1 ha
    obtain ⟨y, hy, rfl⟩ := List.mem_map.1 hb
    have g1 := ((h.2 x.1 x.2).1 hx).1
    have g2 := ((h.2 y.1 y.2).1 hy).1
    cases hx1 : x.1
    cases hy1 : y.1
    rw [hx1] at g1 e
    rw [hy1] at g2 e
    cases g1
    cases g2
    cases e
    rfl
  have hp : ((candidatesTable hasher grow g parents).entries.map fun e => e.1.arrIdx).Perm (Std.ExtTreeSet.ofList parents compare).toList := by
    have hn' : (Std.ExtTreeSet.ofList parents compare).toList.Nodup := by
      refine (Std.ExtTreeSet.distinct_toList (t := Std.ExtTreeSet.ofList parents compare)).imp ?_
      intro a b hab e
      exact hab (by rw [e]; exact Std.LawfulEqOrd.compare_eq_iff_eq.2 rfl)
    refine (List.perm_ext_iff_of_nodup hn hn').2 fun d => ?_
    rw [Std.ExtTreeSet.mem_toList, Std.ExtTreeSet.mem_ofList, List.contains_iff_mem, List.mem_map]
    constructor
    · rintro ⟨⟨k, u⟩, he, rfl⟩
      exact ((hm parents _ _).1 ((h.2 k u).1 he).2).resolve_left (fun e => by cases e)
    · exact fun hd => ⟨(⟨d, g⟩, ()), (h.2 _ _).2 ⟨rfl, (hm parents _ d).2 (.inr hd)⟩, rfl⟩
  refine ⟨hp, ?_⟩
  have := hp.length_eq
  rw [List.length_map] at this
  rw [this, Std.ExtTreeSet.length_toList]

/-! ### Cases -/

/-- An entry is removed and another one takes its place: the old index is not taken for the new entry. -/
example : (((GenArena.new 1).insert 0 'a').2.remove ⟨0, 1⟩).2.insert 0 'b' = (⟨0, 2⟩, ⟨[some (2, 'b')], 2, []⟩) ∧
    ((((GenArena.new 1).insert 0 'a').2.remove ⟨0, 1⟩).2.insert 0 'b').2.get ⟨0, 1⟩ = none ∧
    ((((GenArena.new 1).insert 0 'a').2.remove ⟨0, 1⟩).2.insert 0 'b').2.get ⟨0, 2⟩ = some 'b' := by decide

example : ArenaReach ((GenArena.new 1).insert 0 'a').2 ∧ ((GenArena.new 1).insert 0 'a').2.get ⟨0, 1⟩ = some 'a' :=
  ⟨.step (.insert 0 'a') (.new 1), by decide⟩

/-- Three entries in an arena that has room for two, of which one is changed. -/
example : ∀ a l, a = [GrowStep.insert 0 'a', .insert 0 'b', .modify 0 Char.toUpper, .insert 5 'c'].foldl (fun a s => s.arena a) (GenArena.new 2) →
    l = [GrowStep.insert 0 'a', .insert 0 'b', .modify 0 Char.toUpper, .insert 5 'c'].foldl (fun l s => s.list l) [] →
    l = ['A', 'b', 'c'] ∧ a.get ⟨2, 1⟩ = some 'c' ∧ a.free = [3, 4, 5, 6, 7] := by
  rintro a l rfl rfl
  decide

/-- Two transactions of different dates, and two postings: the hypotheses of `C111_transactions` and `C111_build` are met. A second attempt to take a
posting fails in both. -/
example (s t : TrnHolder) (p q : PostHolder) (d d' : Date) :
    (((GenArena.new 1).insert 0 s).2.insert 3 t).2.Shows [some s, some t] ∧
    (((GenArena.new 1).insert 0 s).2.insert 3 t).2.removeDates [(d, [1]), (d', [0])] = .ok [(d, [t]), (d', [s])] ∧
    (((GenArena.new 1).insert 0 p).2.insert 3 q).2.Shows [some p, some q] ∧
    (∃ a, (((GenArena.new 1).insert 0 p).2.insert 3 q).2.removes [1, 0] = .ok ([q.posting, p.posting], a)) ∧
    (((GenArena.new 1).insert 0 p).2.insert 3 q).2.removes [1, 1] = .error (.panic .badPostingIndex) :=
  ⟨(GenArena.C111_positions 1 [.insert 0 s, .insert 3 t] _ _ rfl rfl).2.2, rfl,
    (GenArena.C111_positions 1 [.insert 0 p, .insert 3 q] _ _ rfl rfl).2.2, ⟨_, rfl⟩, rfl⟩

/-- All keys have the same hash, and the table grows on the way. -/
example : (HashTable.empty.upserts (GenIndex.hash fun _ => 7) GenIndex.eq (fun n => if n = 2 then some 3 else none) 0
    ([4, 5, 4, 6].map fun d => ((⟨d, 1⟩ : GenIndex), fun v : Option Nat => v.getD 0 + 1))).entries = [(⟨4, 1⟩, 2), (⟨5, 1⟩, 1), (⟨6, 1⟩, 1)] := by
  decide

/-- Were the generation hashed but not compared, then a table could have a key twice: this is what `Eq` and `Hash` must not do. -/
example : (HashTable.empty.upserts (fun k : GenIndex => k.gen) (fun a b => a.arrIdx == b.arrIdx) (fun _ => some 1) 0
    ([1, 2].map fun g => ((⟨4, g⟩ : GenIndex), fun v : Option Nat => v.getD 0 + 1))).entries.length = 2 := by
  decide

end Verif
