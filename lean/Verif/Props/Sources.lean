import Verif.Model.Commands
import Verif.Spec.Sources
import Verif.Proofs.CommentFormat
import Verif.Examples.Base

/-!
# C23: transactions by source
-/

namespace Verif
open Spec

theorem group_getElem? (file : Str) (ts : List TransactionPostings) (m : Sources.BySource) (s : Str) :
    (Sources.group file ts m)[s]? =
      if ∃ t ∈ ts, sourceOf file t = s then some ((m[s]?).getD [] ++ ofSource file ts s) else m[s]? := by
  induction ts generalizing m with
  | nil => simp [Sources.group]
  | cons t ts ih =>
    rw [Sources.group, ih]
    change (if _ then some (((m.insert (sourceOf file t) ((m[sourceOf file t]?).getD [] ++ [sourced file t]))[s]?).getD [] ++ _)
      else (m.insert (sourceOf file t) ((m[sourceOf file t]?).getD [] ++ [sourced file t]))[s]?) = _
    rw [Std.ExtTreeMap.getElem?_insert]
    by_cases hs : sourceOf file t = s
    · have h1 : compare (sourceOf file t) s = .eq := Std.LawfulEqOrd.compare_eq_iff_eq.2 hs
      have h2 : ∃ t' ∈ t :: ts, sourceOf file t' = s := ⟨t, by simp, hs⟩
      rw [if_pos h1, if_pos h2]
      have h3 : ofSource file (t :: ts) s = sourced file t :: ofSource file ts s := by
        unfold ofSource
        rw [List.filter_cons_of_pos (by simpa using hs), List.map_cons]
      rw [h3, hs]
      split
      · simp
      · rename_i hn
        have : ofSource file ts s = [] := by
          unfold ofSource
          rw [List.filter_eq_nil_iff.2, List.map_nil]
          intro t' ht'
          simpa using fun he => hn ⟨t', ht', he⟩
        rw [this]
    · have h1 : ¬ compare (sourceOf file t) s = .eq := fun h => hs (Std.LawfulEqOrd.eq_of_compare h)
      rw [if_neg h1]
      have h3 : ofSource file (t :: ts) s = ofSource file ts s := by
        unfold ofSource
        rw [List.filter_cons_of_neg (by simpa using hs)]
      rw [h3]
      have : (∃ t' ∈ t :: ts, sourceOf file t' = s) ↔ ∃ t' ∈ ts, sourceOf file t' = s := by
        constructor
        · rintro ⟨t', ht', he⟩
          rcases List.mem_cons.1 ht' with rfl | ht'
          · exact absurd he hs
          · exact ⟨t', ht', he⟩
        · rintro ⟨t', ht', he⟩
          exact ⟨t', List.mem_cons_of_mem _ ht', he⟩
      simp only [this]

theorem groups_eval (h : HashOrder) (file : Str) (ts : List TransactionPostings) :
    Sources.groups h file ts = (Sources.group file ts ∅).toList.map (·.2) := by
  unfold Sources.groups
  simp only
  rw [sort_unique (le := fun a b : Str × List TransactionPostings => (compare a.1 b.1).isLE)
    (fun _ _ _ h1 h2 => Std.TransCmp.isLE_trans h1 h2) (fun a b => str_le_total a.1 b.1)
    (h.iter_perm .sources (Sources.group file ts ∅).toList)]
  · refine (Std.ExtTreeMap.ordered_keys_toList (t := Sources.group file ts ∅)).imp ?_
    intro a b hab
    rw [hab]; rfl
  · intro a ha b hb h1 h2
    have hk : a.1 = b.1 := str_le_antisymm h1 h2
    have ha' := Std.ExtTreeMap.mem_toList_iff_getElem?_eq_some.1 ha
    have hb' := Std.ExtTreeMap.mem_toList_iff_getElem?_eq_some.1 hb
    rw [hk, hb'] at ha'
    exact Prod.ext hk (Option.some.inj ha').symm

/-- C23: the transactions of a journal are grouped by source. The groups come in ascending order of their sources; there
is one for each source; each has exactly the transactions of that source in the order of the journal, with the source
noted. -/
theorem C23_groups (h : HashOrder) (file : Str) (ts : List TransactionPostings) :
    ∃ sources : List Str, sources.Pairwise (fun a b => compare a b = .lt) ∧
      (∀ s, s ∈ sources ↔ ∃ t ∈ ts, sourceOf file t = s) ∧
      Sources.groups h file ts = sources.map (ofSource file ts) := by
  have hg := group_getElem? file ts ∅
  refine ⟨(Sources.group file ts ∅).toList.map (·.1), ?_, ?_, ?_⟩
  · rw [List.pairwise_map]
    exact Std.ExtTreeMap.ordered_keys_toList
  · intro s
    rw [List.mem_map]
    constructor
    · rintro ⟨e, he, rfl⟩
      have := Std.ExtTreeMap.mem_toList_iff_getElem?_eq_some.1 he
      rw [hg] at this
      split at this
      · assumption
      · simp at this
    · intro hs
      have := hg s
      rw [if_pos hs] at this
      exact ⟨_, Std.ExtTreeMap.mem_toList_iff_getElem?_eq_some.2 this, rfl⟩
  · rw [groups_eval, List.map_map]
    apply List.map_congr_left
    intro e he
    have := Std.ExtTreeMap.mem_toList_iff_getElem?_eq_some.1 he
    rw [hg] at this
    split at this
    · simpa using this.symm
    · simp at this

theorem perm_flatMap_filter {α β : Type} [DecidableEq β] (f : α → β) (ks : List β) (hn : ks.Nodup) (l : List α)
    (hk : ∀ a ∈ l, f a ∈ ks) : (ks.flatMap (fun k => l.filter (fun a => f a = k))).Perm l := by
  induction l with
  | nil => simp
  | cons a l ih =>
    have h1 := ih (fun b hb => hk b (List.mem_cons_of_mem _ hb))
    have h2 : (ks.flatMap (fun k => (a :: l).filter (fun a => f a = k))).Perm
        (a :: ks.flatMap (fun k => l.filter (fun a => f a = k))) := by
      have ha := hk a (by simp)
      clear h1 ih hk
      induction ks with
      | nil => cases ha
      | cons k ks ih =>
        rw [List.nodup_cons] at hn
        rw [List.flatMap_cons, List.flatMap_cons]
        by_cases hfk : f a = k
        · rw [List.filter_cons_of_pos (by simpa using hfk)]
          have : ks.flatMap (fun k => (a :: l).filter (fun a => f a = k)) = ks.flatMap (fun k => l.filter (fun a => f a = k)) := by
            apply List.flatMap_congr
            intro k' hk'
            rw [List.filter_cons_of_neg]
            intro he
            have : f a = k' := by simpa using he
            exact hn.1 (by rw [← hfk, this]; exact hk')
          rw [this, List.cons_append]
        · rw [List.filter_cons_of_neg (by simpa using hfk)]
          have ha' : f a ∈ ks := by
            rcases List.mem_cons.1 ha with h | h
            · exact absurd h hfk
            · exact h
          exact (List.Perm.append_left _ (ih hn.2 ha')).trans (List.perm_middle)
    exact h2.trans (List.Perm.cons a h1)

/-- C23: nothing is lost or duplicated, and every transaction has its source noted. -/
theorem C23_nothing_lost (h : HashOrder) (file : Str) (ts : List TransactionPostings) :
    (Sources.groups h file ts).flatten.Perm (ts.map (sourced file)) ∧
    ∀ g ∈ Sources.groups h file ts, g ≠ [] ∧ ∃ s, ∀ t ∈ g, t.trn.comment.valueTags[srcKey]? = some s := by
  obtain ⟨ks, h1, h2, h3⟩ := C23_groups h file ts
  rw [h3]
  constructor
  · have hn : ks.Nodup := by
      refine h1.imp ?_
      rintro a b hab rfl
      simp at hab
    have := perm_flatMap_filter (sourceOf file) ks hn ts (fun t ht => (h2 _).2 ⟨t, ht, rfl⟩)
    have h4 := this.map (sourced file)
    rw [List.map_flatMap] at h4
    rw [← List.flatMap_def]
    exact h4
  · intro g hg
    obtain ⟨s, hs, rfl⟩ := List.mem_map.1 hg
    obtain ⟨t, ht, he⟩ := (h2 s).1 hs
    refine ⟨?_, s, ?_⟩
    · unfold ofSource
      rw [ne_eq, List.map_eq_nil_iff]
      exact List.ne_nil_of_mem (List.mem_filter.2 ⟨ht, by simpa using he⟩)
    · intro u hu
      obtain ⟨t', ht', rfl⟩ := List.mem_map.1 hu
      have : sourceOf file t' = s := by simpa using (List.mem_filter.1 ht').2
      unfold sourced
      simp [this]

/-- C23: the groups do not depend on iteration orders. -/
theorem C23_deterministic (h h' : HashOrder) (file : Str) (ts : List TransactionPostings) :
    Sources.groups h file ts = Sources.groups h' file ts := by rw [groups_eval, groups_eval]

/-! Three transactions of a file, one of which says that it comes from elsewhere. -/

/-- A transaction that names its source. -/
def withSource (s : String) (t : TransactionPostings) : TransactionPostings :=
  { t with trn := { t.trn with comment := t.trn.comment.withValueTag srcKey s.toList } }

set_option maxRecDepth 100000 in
example (h : HashOrder) : (Sources.groups h "file".toList
      [Ex.trn 2 "x" [], withSource "a" (Ex.trn 1 "y" []), Ex.trn 1 "z" []]).map (·.map (·.trn.raw.description)) =
    [["y".toList], ["x".toList, "z".toList]] := by
  rw [groups_eval]; decide +kernel

end Verif
