import Verif.Spec.RuleFiles
import Verif.Proofs.Rules
import Mathlib.Tactic.Tauto

/-!
# C37: loading rules from files that include each other
-/

namespace Verif
open Verif.Rules Spec.RuleFiles

theorem definitions_append (es es' : List Entry) : definitions (es ++ es') = definitions es ++ definitions es' :=
  List.filterMap_append

theorem fromPath_ok {fs : RuleFs} {path : Str} {es : List Entry} (h : fs.fromPath path = .ok es) :
    ∃ b, fs.canon path = some b ∧ fs.file b = some es := by
  unfold RuleFs.fromPath at h
  cases hc : fs.canon path with
  | none => rw [hc] at h; cases h
  | some b =>
    rw [hc] at h
    simp only [Option.bind_some] at h
    cases hf : fs.file b with
    | none => rw [hf] at h; cases h
    | some es' => rw [hf] at h; cases h; exact ⟨b, rfl, hf⟩

theorem fromPath_error {fs : RuleFs} {path : Str} {e : LoadErr} (h : fs.fromPath path = .error e) :
    e = .open_ ∧ (fs.canon path).bind fs.file = none := by
  unfold RuleFs.fromPath at h
  cases hb : (fs.canon path).bind fs.file with
  | none => rw [hb] at h; cases h; exact ⟨rfl, rfl⟩
  | some es => rw [hb] at h; cases h

/-- What loading adds: the files `new` and their definitions. `P` is true for files that may be loaded. -/
structure Adds (fs : RuleFs) (P : Str → Prop) (st st' : Loaded) (new : List Str) (defs : List (Str × List Rule)) : Prop where
  nodup : new.Nodup
  fresh : ∀ a ∈ new, a ∉ st.seen
  seen : ∀ a, a ∈ st'.seen ↔ a ∈ st.seen ∨ a ∈ new
  allowed : ∀ a ∈ new, P a
  names : (defs.map (·.1)).Nodup
  freshNames : ∀ d ∈ defs, d.1 ∉ st.chains
  chains : ∀ name rules, st'.chains[name]? = some rules ↔ st.chains[name]? = some rules ∨ (name, rules) ∈ defs
  closed : ∀ a ∈ new, ∀ es path, fs.file a = some es → .include_ path ∈ es →
    ∃ b es', (target fs a path).bind fs.canon = some b ∧ fs.file b = some es' ∧ b ∈ st'.seen

theorem Adds.mem_chains {fs : RuleFs} {P : Str → Prop} {st st' : Loaded} {new : List Str} {defs : List (Str × List Rule)}
    (h : Adds fs P st st' new defs) (name : Str) : name ∈ st'.chains ↔ name ∈ st.chains ∨ name ∈ defs.map (·.1) := by
  have hm : ∀ (T : Table), name ∈ T ↔ ∃ rules, T[name]? = some rules := by
    intro T
    rw [Std.ExtTreeMap.mem_iff_isSome_getElem?, Option.isSome_iff_exists]
  rw [hm, hm, List.mem_map]
  constructor
  · rintro ⟨rules, hr⟩
    rcases (h.chains _ _).1 hr with h1 | h1
    · exact .inl ⟨_, h1⟩
    · exact .inr ⟨_, h1, rfl⟩
  · rintro (⟨rules, hr⟩ | ⟨⟨_, rules⟩, hr, rfl⟩)
    · exact ⟨_, (h.chains _ _).2 (.inl hr)⟩
    · exact ⟨_, (h.chains _ _).2 (.inr hr)⟩

/-- The loader of included files does what it should. -/
def LoadsOk (fs : RuleFs) (P : Str → Prop) (load : Str → List Entry → Loaded → Except LoadErr Loaded) : Prop :=
  ∀ source self es st st', fs.canon source = some self → fs.file self = some es → P self → load source es st = .ok st' →
    self ∈ st'.seen ∧ ∃ new defs, Adds fs P st st' new defs ∧ defs.Perm (new.flatMap (definitionsOf fs))

theorem loadEntries_ok {fs : RuleFs} {P : Str → Prop} (hP : ∀ a b, P a → Includes fs a b → P b)
    {load : Str → List Entry → Loaded → Except LoadErr Loaded} (hload : LoadsOk fs P load) {self : Str} (hself : P self)
    {whole : List Entry} (hfile : fs.file self = some whole) (es : List Entry) (hes : ∀ e ∈ es, e ∈ whole) (st st' : Loaded)
    (hseen : self ∈ st.seen) (h : loadEntries fs load self es st = .ok st') :
    ∃ new defs, Adds fs P st st' new defs ∧ defs.Perm (definitions es ++ new.flatMap (definitionsOf fs)) ∧
      ∀ path, .include_ path ∈ es → ∃ b es', (target fs self path).bind fs.canon = some b ∧ fs.file b = some es' ∧ b ∈ st'.seen := by
  induction es generalizing st with
  | nil =>
    rw [loadEntries] at h
    cases h
    refine ⟨[], [], ⟨.nil, by simp, by simp, by simp, by simp, by simp, by simp, by simp⟩, ?_, by simp⟩
    simp [definitions]
  | cons e es ih =>
    have hes' : ∀ e ∈ es, e ∈ whole := fun e he => hes e (List.mem_cons_of_mem _ he)
    cases e with
    | include_ path =>
      rw [loadEntries] at h
      cases hp : fs.parent self with
      | none => rw [hp] at h; cases h
      | some dir =>
        rw [hp] at h
        simp only at h
        cases hf : fs.fromPath (fs.join dir path) with
        | error e => rw [hf] at h; cases h
        | ok entries =>
          rw [hf] at h
          simp only at h
          obtain ⟨b, hb, hbf⟩ := fromPath_ok hf
          have ht : (target fs self path).bind fs.canon = some b := by
            rw [target, hp]; exact hb
          have hPb : P b := hP _ _ hself ⟨whole, path, hfile, hes _ List.mem_cons_self, ht⟩
          cases hl : load (fs.join dir path) entries st with
          | error e => rw [hl] at h; cases h
          | ok st₁ =>
            rw [hl] at h
            simp only at h
            obtain ⟨hbs, new₁, defs₁, h₁, hperm₁⟩ := hload _ b _ _ _ hb hbf hPb hl
            obtain ⟨new₂, defs₂, h₂, hperm₂, hinc⟩ := ih hes' st₁ ((h₁.seen _).2 (.inl hseen)) h
            refine ⟨new₁ ++ new₂, defs₁ ++ defs₂, ⟨?_, ?_, ?_, ?_, ?_, ?_, ?_, ?_⟩, ?_, ?_⟩
            · refine List.nodup_append.2 ⟨h₁.nodup, h₂.nodup, ?_⟩
              rintro a ha _ hb rfl
              exact h₂.fresh a hb ((h₁.seen _).2 (.inr ha))
            · intro a ha
              rcases List.mem_append.1 ha with ha | ha
              · exact h₁.fresh a ha
              · exact fun hs => h₂.fresh a ha ((h₁.seen _).2 (.inl hs))
            · intro a
              rw [h₂.seen, h₁.seen, List.mem_append, or_assoc]
            · intro a ha
              rcases List.mem_append.1 ha with ha | ha
              · exact h₁.allowed a ha
              · exact h₂.allowed a ha
            · rw [List.map_append]
              refine List.nodup_append.2 ⟨h₁.names, h₂.names, ?_⟩
              rintro n hn _ hn' rfl
              obtain ⟨d, hd, rfl⟩ := List.mem_map.1 hn'
              exact h₂.freshNames d hd ((h₁.mem_chains _).2 (.inr hn))
            · intro d hd
              rcases List.mem_append.1 hd with hd | hd
              · exact h₁.freshNames d hd
              · exact fun hs => h₂.freshNames d hd ((h₁.mem_chains _).2 (.inl hs))
            · intro name rules
              rw [h₂.chains, h₁.chains, List.mem_append, or_assoc]
            · intro a ha es path he hi
              rcases List.mem_append.1 ha with ha | ha
              · obtain ⟨b, es', g1, g2, g3⟩ := h₁.closed a ha es path he hi
                exact ⟨b, es', g1, g2, (h₂.seen _).2 (.inl g3)⟩
              · exact h₂.closed a ha es path he hi
            · rw [List.flatMap_append, show definitions (.include_ path :: es) = definitions es from rfl]
              refine (hperm₁.append hperm₂).trans ?_
              rw [← List.append_assoc, ← List.append_assoc]
              exact List.perm_append_comm.append_right _
            · intro path' hp'
              rcases List.mem_cons.1 hp' with h' | h'
              · cases h'
                exact ⟨b, entries, ht, hbf, (h₂.seen _).2 (.inl hbs)⟩
              · exact hinc path' h'
    | chain name rules =>
      rw [loadEntries] at h
      by_cases hn : name ∈ st.chains
      · rw [if_pos hn] at h; cases h
      · rw [if_neg hn] at h
        obtain ⟨new, defs, h₂, hperm, hinc⟩ := ih hes' ⟨st.chains.insert name rules, st.seen⟩ hseen h
        have hget : ∀ n r, (st.chains.insert name rules)[n]? = some r ↔ st.chains[n]? = some r ∨ (n, r) = (name, rules) := by
          intro n r
          rw [Std.ExtTreeMap.getElem?_insert]
          by_cases hnn : n = name
          · subst hnn
            rw [if_pos (Std.LawfulEqOrd.compare_eq_iff_eq.2 rfl)]
            rw [Std.ExtTreeMap.mem_iff_isSome_getElem?, Option.not_isSome_iff_eq_none] at hn
            rw [hn]
            simp [eq_comm]
          · rw [if_neg (fun h => hnn (Std.LawfulEqOrd.compare_eq_iff_eq.1 h).symm)]
            simp [hnn]
        have hmem : ∀ n, n ∈ st.chains.insert name rules ↔ n ∈ st.chains ∨ n = name := by
          intro n
          rw [Std.ExtTreeMap.mem_insert, Std.LawfulEqOrd.compare_eq_iff_eq, or_comm]
          exact or_congr_right eq_comm
        refine ⟨new, (name, rules) :: defs, ⟨h₂.nodup, h₂.fresh, h₂.seen, h₂.allowed, ?_, ?_, ?_, h₂.closed⟩, ?_, ?_⟩
        · rw [List.map_cons, List.nodup_cons]
          refine ⟨fun hm => ?_, h₂.names⟩
          obtain ⟨d, hd, he⟩ := List.mem_map.1 hm
          exact h₂.freshNames d hd ((hmem _).2 (.inr he))
        · intro d hd
          rcases List.mem_cons.1 hd with rfl | hd
          · exact hn
          · exact fun hs => h₂.freshNames d hd ((hmem _).2 (.inl hs))
        · intro n r
          rw [h₂.chains, hget, List.mem_cons, or_assoc]
        · rw [show definitions (.chain name rules :: es) = (name, rules) :: definitions es from rfl, List.cons_append]
          exact hperm.cons _
        · intro path hp
          rcases List.mem_cons.1 hp with h' | h'
          · cases h'
          · exact hinc path h'

theorem loadInto_ok {fs : RuleFs} {P : Str → Prop} (hP : ∀ a b, P a → Includes fs a b → P b) (n : Nat) :
    LoadsOk fs P (loadInto fs n) := by
  induction n with
  | zero => intro _ _ _ _ _ _ _ _ h; cases h
  | succ n ih =>
    intro source self es st st' hc hf hself h
    rw [loadInto, hc] at h
    simp only at h
    by_cases hs : self ∈ st.seen
    · rw [if_pos hs] at h
      cases h
      exact ⟨hs, [], [], ⟨.nil, by simp, by simp, by simp, by simp, by simp, by simp, by simp⟩, by simp⟩
    · rw [if_neg hs] at h
      obtain ⟨new, defs, h', hperm, hinc⟩ := loadEntries_ok hP ih hself hf es (fun _ h => h)
        ⟨st.chains, st.seen.insert self⟩ st' ((tags_insert _ _ _).2 (.inl rfl)) h
      have hseen : ∀ a, a ∈ st'.seen ↔ a ∈ st.seen ∨ a ∈ self :: new := by
        intro a
        rw [h'.seen, tags_insert, List.mem_cons, or_assoc, or_left_comm]
      refine ⟨(hseen _).2 (.inr List.mem_cons_self), self :: new, defs,
        ⟨?_, ?_, hseen, ?_, h'.names, h'.freshNames, h'.chains, ?_⟩, ?_⟩
      · rw [List.nodup_cons]
        exact ⟨fun hm => h'.fresh _ hm ((tags_insert _ _ _).2 (.inl rfl)), h'.nodup⟩
      · intro a ha
        rcases List.mem_cons.1 ha with rfl | ha
        · exact hs
        · exact fun hm => h'.fresh a ha ((tags_insert _ _ _).2 (.inr hm))
      · intro a ha
        rcases List.mem_cons.1 ha with rfl | ha
        · exact hself
        · exact h'.allowed a ha
      · intro a ha es' path he hi
        rcases List.mem_cons.1 ha with rfl | ha
        · rw [hf] at he
          cases he
          exact hinc path hi
        · exact h'.closed a ha es' path he hi
      · rw [List.flatMap_cons, show definitionsOf fs self = definitions es by rw [definitionsOf, hf]; rfl]
        exact hperm

/-- C37: if loading succeeds then there is a list of files, each once, which are exactly those that are included
directly or indirectly. All chains that they define have different names, and the table has exactly these
definitions. All includes could be read. -/
theorem C37_each_file_once (fs : RuleFs) (fuel : Nat) (path : Str) (T : Table) (h : load fs fuel path = .ok T) :
    ∃ (root : Str) (files : List Str), fs.canon path = some root ∧ files.Nodup ∧ (∀ a, a ∈ files ↔ Reachable fs root a) ∧
      ((files.flatMap (definitionsOf fs)).map (·.1)).Nodup ∧
      (∀ name rules, T[name]? = some rules ↔ (name, rules) ∈ files.flatMap (definitionsOf fs)) ∧
      ¬ Broken fs root := by
  rw [load] at h
  cases hp : fs.fromPath path with
  | error e => rw [hp] at h; cases h
  | ok entries =>
    rw [hp] at h
    simp only at h
    obtain ⟨root, hc, hf⟩ := fromPath_ok hp
    cases hl : loadInto fs fuel path entries ⟨∅, ∅⟩ with
    | error e => rw [hl] at h; cases h
    | ok st =>
      rw [hl] at h
      cases h
      obtain ⟨hs, new, defs, ha, hperm⟩ := loadInto_ok (P := Reachable fs root) (fun a b h1 h2 => h1.tail h2) fuel path root
        entries _ _ hc hf .refl hl
      have hseen : ∀ a, a ∈ st.seen ↔ a ∈ new := by
        intro a
        rw [ha.seen]
        simp
      have hmem : ∀ a, a ∈ new ↔ Reachable fs root a := by
        intro a
        refine ⟨ha.allowed a, fun hr => ?_⟩
        induction hr with
        | refl => exact (hseen _).1 hs
        | tail _ hi ih =>
          obtain ⟨es, p, h1, h2, h3⟩ := hi
          obtain ⟨b, es', g1, g2, g3⟩ := ha.closed _ ih es p h1 h2
          rw [h3] at g1
          cases g1
          exact (hseen _).1 g3
      refine ⟨root, new, hc, ha.nodup, hmem, ?_, ?_, ?_⟩
      · exact (hperm.map _).nodup_iff.1 ha.names
      · intro name rules
        rw [ha.chains, hperm.mem_iff]
        simp
      · rintro ⟨a, es, p, h1, h2, h3, h4⟩
        obtain ⟨b, es', g1, g2, _⟩ := ha.closed a ((hmem a).2 h1) es p h2 h3
        rw [g1] at h4
        simp [g2] at h4

/-! ### Errors -/

/-- Why loading may fail. -/
def Because (fs : RuleFs) (root : Str) : LoadErr → Prop
  | .duplicateChain name => DefinedTwice fs root name
  | .open_ => Broken fs root
  | .noParent => Broken fs root
  | .canonicalize => False
  | .diverged => True

/-- Every chain so far comes from some file that has been seen. -/
def Attributed (fs : RuleFs) (root : Str) (st : Loaded) : Prop :=
  ∀ name ∈ st.chains, ∃ a ∈ st.seen, Reachable fs root a ∧ name ∈ (definitionsOf fs a).map (·.1)

theorem Adds.attributed {fs : RuleFs} {root : Str} {st st' : Loaded} {new : List Str} {defs : List (Str × List Rule)}
    (h : Adds fs (Reachable fs root) st st' new defs) (hp : defs.Perm (new.flatMap (definitionsOf fs)))
    (name : Str) (hn : name ∈ st'.chains) :
    name ∈ st.chains ∨ ∃ a, a ∉ st.seen ∧ a ∈ st'.seen ∧ Reachable fs root a ∧ name ∈ (definitionsOf fs a).map (·.1) := by
  rcases (h.mem_chains name).1 hn with hn | hn
  · exact .inl hn
  · obtain ⟨d, hd, rfl⟩ := List.mem_map.1 hn
    obtain ⟨a, ha, hd'⟩ := List.mem_flatMap.1 (hp.mem_iff.1 hd)
    exact .inr ⟨a, h.fresh a ha, (h.seen _).2 (.inr ha), h.allowed a ha, List.mem_map.2 ⟨d, hd', rfl⟩⟩

/-- The loader of included files fails only for a reason. -/
def LoadsErr (fs : RuleFs) (root : Str) (load : Str → List Entry → Loaded → Except LoadErr Loaded) : Prop :=
  ∀ source self es st e, fs.canon source = some self → fs.file self = some es → Reachable fs root self → Attributed fs root st →
    load source es st = .error e → Because fs root e

theorem loadEntries_error {fs : RuleFs} {root : Str} {load : Str → List Entry → Loaded → Except LoadErr Loaded}
    (hok : LoadsOk fs (Reachable fs root) load) (herr : LoadsErr fs root load) {self : Str} (hself : Reachable fs root self)
    {whole : List Entry} (hfile : fs.file self = some whole) (pre es : List Entry) (hes : pre ++ es = whole) (st : Loaded) (e : LoadErr)
    (hseen : self ∈ st.seen)
    (hatt : ∀ name ∈ st.chains, name ∈ (definitions pre).map (·.1) ∨
      ∃ a ∈ st.seen, a ≠ self ∧ Reachable fs root a ∧ name ∈ (definitionsOf fs a).map (·.1))
    (h : loadEntries fs load self es st = .error e) : Because fs root e := by
  induction es generalizing st pre with
  | nil => cases h
  | cons x es ih =>
    have hx : x ∈ whole := hes ▸ List.mem_append_right _ List.mem_cons_self
    have hes' : (pre ++ [x]) ++ es = whole := by rw [List.append_assoc]; exact hes
    have hdefs : definitionsOf fs self = definitions pre ++ definitions (x :: es) := by
      rw [definitionsOf, hfile, Option.getD_some, ← hes, definitions_append]
    cases x with
    | include_ path =>
      rw [loadEntries] at h
      have hbr : ((target fs self path).bind fs.canon).bind fs.file = none → Broken fs root :=
        fun hb => ⟨self, whole, path, hself, hfile, hx, hb⟩
      cases hp : fs.parent self with
      | none =>
        rw [hp] at h; cases h
        exact hbr (by rw [target, hp]; rfl)
      | some dir =>
        rw [hp] at h
        simp only at h
        cases hf : fs.fromPath (fs.join dir path) with
        | error e' =>
          rw [hf] at h; cases h
          obtain ⟨rfl, hb⟩ := fromPath_error hf
          exact hbr (by rw [target, hp]; exact hb)
        | ok entries =>
          rw [hf] at h
          simp only at h
          obtain ⟨b, hb, hbf⟩ := fromPath_ok hf
          have ht : (target fs self path).bind fs.canon = some b := by
            rw [target, hp]; exact hb
          have hRb : Reachable fs root b := hself.tail ⟨whole, path, hfile, hx, ht⟩
          have hA : Attributed fs root st := by
            intro name hn
            rcases hatt name hn with h' | ⟨a, h1, _, h2⟩
            · exact ⟨self, hseen, hself, by rw [hdefs, List.map_append]; exact List.mem_append_left _ h'⟩
            · exact ⟨a, h1, h2⟩
          cases hl : load (fs.join dir path) entries st with
          | error e' =>
            rw [hl] at h; cases h
            exact herr _ b _ _ _ hb hbf hRb hA hl
          | ok st₁ =>
            rw [hl] at h
            simp only at h
            obtain ⟨_, new, defs, hadd, hperm⟩ := hok _ b _ _ _ hb hbf hRb hl
            refine ih (pre ++ [.include_ path]) hes' st₁ ((hadd.seen _).2 (.inl hseen)) ?_ h
            intro name hn
            rcases hadd.attributed hperm name hn with h' | ⟨a, h1, h2, h3⟩
            · rcases hatt name h' with h' | ⟨a, h1, h2⟩
              · left; rw [definitions_append, List.map_append]; exact List.mem_append_left _ h'
              · exact .inr ⟨a, (hadd.seen _).2 (.inl h1), h2⟩
            · exact .inr ⟨a, h2, fun he => h1 (he ▸ hseen), h3⟩
    | chain name rules =>
      rw [loadEntries] at h
      by_cases hn : name ∈ st.chains
      · rw [if_pos hn] at h
        cases h
        have hself' : (definitionsOf fs self).map (·.1) = (definitions pre).map (·.1) ++ name :: (definitions es).map (·.1) := by
          rw [hdefs, List.map_append]; rfl
        rcases hatt name hn with h' | ⟨a, _, h1, h2, h3⟩
        · left
          refine ⟨self, hself, ?_⟩
          rw [hself', List.count_append, List.count_cons_self]
          have := List.count_pos_iff.2 h'
          omega
        · right
          refine ⟨a, self, h1, h2, hself, h3, ?_⟩
          rw [hself']; simp
      · rw [if_neg hn] at h
        refine ih (pre ++ [.chain name rules]) hes' ⟨st.chains.insert name rules, st.seen⟩ hseen ?_ h
        intro n hn'
        rw [definitions_append, List.map_append]
        rcases (Std.ExtTreeMap.mem_insert.1 hn') with h' | h'
        · left
          rw [Std.LawfulEqOrd.compare_eq_iff_eq] at h'
          subst h'
          exact List.mem_append_right _ (by simp [definitions])
        · rcases hatt n h' with h' | h'
          · exact .inl (List.mem_append_left _ h')
          · exact .inr h'

theorem loadInto_error {fs : RuleFs} {root : Str} (n : Nat) : LoadsErr fs root (loadInto fs n) := by
  induction n with
  | zero => intro _ _ _ _ _ _ _ _ _ h; cases h; trivial
  | succ n ih =>
    intro source self es st e hc hf hself hA h
    rw [loadInto, hc] at h
    simp only at h
    by_cases hs : self ∈ st.seen
    · rw [if_pos hs] at h; cases h
    · rw [if_neg hs] at h
      refine loadEntries_error (loadInto_ok (fun a b h1 h2 => h1.tail h2) n) ih hself hf [] es rfl
        ⟨st.chains, st.seen.insert self⟩ e ((tags_insert _ _ _).2 (.inl rfl)) ?_ h
      intro name hn
      obtain ⟨a, h1, h2⟩ := hA name hn
      exact .inr ⟨a, (tags_insert _ _ _).2 (.inr h1), fun he => hs (he ▸ h1), h2⟩

/-- C37: if loading fails because of a duplicate chain, then it is defined twice in the included files; otherwise because
something cannot be read. -/
theorem C37_errors (fs : RuleFs) (fuel : Nat) (path : Str) (e : LoadErr) (h : load fs fuel path = .error e)
    (hd : e ≠ .diverged) :
    (fs.canon path).bind fs.file = none ∨ ∃ root, fs.canon path = some root ∧ ((∃ name, e = .duplicateChain name ∧ DefinedTwice fs root name) ∨
      ((e = .open_ ∨ e = .noParent) ∧ Broken fs root)) := by
  rw [load] at h
  cases hp : fs.fromPath path with
  | error e' => exact .inl (fromPath_error hp).2
  | ok entries =>
    rw [hp] at h
    simp only at h
    obtain ⟨root, hc, hf⟩ := fromPath_ok hp
    right
    refine ⟨root, hc, ?_⟩
    cases hl : loadInto fs fuel path entries ⟨∅, ∅⟩ with
    | ok st => rw [hl] at h; cases h
    | error e' =>
      rw [hl] at h
      cases h
      have := loadInto_error (root := root) fuel path root entries ⟨∅, ∅⟩ e hc hf .refl
        (by intro name hn; simp at hn) hl
      cases e with
      | duplicateChain name => exact .inl ⟨name, rfl, this⟩
      | open_ => exact .inr ⟨.inl rfl, this⟩
      | noParent => exact .inr ⟨.inr rfl, this⟩
      | canonicalize => exact this.elim
      | diverged => exact absurd rfl hd

/-! ### Termination -/

/-- Files that have not been seen. -/
def unseen (files : List Str) (st : Loaded) : Nat := (files.filter (· ∉ st.seen)).length

theorem unseen_mono {files : List Str} {st st' : Loaded} (h : ∀ a, a ∈ st.seen → a ∈ st'.seen) :
    unseen files st' ≤ unseen files st := by
  unfold unseen
  rw [← List.countP_eq_length_filter, ← List.countP_eq_length_filter]
  apply List.countP_mono_left
  intro a _ ha
  simp only [decide_eq_true_eq] at ha ⊢
  exact fun hs => ha (h a hs)

theorem loadEntries_terminates {fs : RuleFs} {root : Str} {files : List Str} (n : Nat)
    (hload : ∀ source self es st, fs.canon source = some self → fs.file self = some es → Reachable fs root self →
      unseen files st < n → loadInto fs n source es st ≠ .error .diverged)
    {self : Str} (hself : Reachable fs root self) {whole : List Entry} (hfile : fs.file self = some whole)
    (es : List Entry) (hes : ∀ e ∈ es, e ∈ whole) (st : Loaded) (hu : unseen files st < n) :
    loadEntries fs (loadInto fs n) self es st ≠ .error .diverged := by
  induction es generalizing st with
  | nil => intro h; cases h
  | cons x es ih =>
    have hes' : ∀ e ∈ es, e ∈ whole := fun e he => hes e (List.mem_cons_of_mem _ he)
    intro h
    cases x with
    | include_ path =>
      rw [loadEntries] at h
      cases hp : fs.parent self with
      | none => rw [hp] at h; cases h
      | some dir =>
        rw [hp] at h
        simp only at h
        cases hf : fs.fromPath (fs.join dir path) with
        | error e' =>
          rw [hf] at h; cases h
          cases (fromPath_error hf).1
        | ok entries =>
          rw [hf] at h
          simp only at h
          obtain ⟨b, hb, hbf⟩ := fromPath_ok hf
          have ht : (target fs self path).bind fs.canon = some b := by
            rw [target, hp]; exact hb
          have hRb : Reachable fs root b := hself.tail ⟨whole, path, hfile, hes _ List.mem_cons_self, ht⟩
          cases hl : loadInto fs n (fs.join dir path) entries st with
          | error e' =>
            rw [hl] at h; cases h
            exact hload _ b _ _ hb hbf hRb hu hl
          | ok st₁ =>
            rw [hl] at h
            simp only at h
            obtain ⟨_, new, defs, hadd, _⟩ := loadInto_ok (P := Reachable fs root) (fun a b h1 h2 => h1.tail h2) n
              _ b _ _ _ hb hbf hRb hl
            exact ih hes' st₁ (Nat.lt_of_le_of_lt (unseen_mono fun a ha => (hadd.seen _).2 (.inl ha)) hu) h
    | chain name rules =>
      rw [loadEntries] at h
      by_cases hn : name ∈ st.chains
      · rw [if_pos hn] at h; cases h
      · rw [if_neg hn] at h
        exact ih hes' ⟨st.chains.insert name rules, st.seen⟩ hu h

theorem loadInto_terminates {fs : RuleFs} {root : Str} {files : List Str} (hfin : ∀ a, Reachable fs root a → a ∈ files) (n : Nat) :
    ∀ source self es st, fs.canon source = some self → fs.file self = some es → Reachable fs root self →
      unseen files st < n → loadInto fs n source es st ≠ .error .diverged := by
  induction n with
  | zero => intro _ _ _ _ _ _ _ h; omega
  | succ n ih =>
    intro source self es st hc hf hself hu h
    rw [loadInto, hc] at h
    simp only at h
    by_cases hs : self ∈ st.seen
    · rw [if_pos hs] at h; cases h
    · rw [if_neg hs] at h
      refine loadEntries_terminates n ih hself hf es (fun _ h => h) _ ?_ h
      have hlt : unseen files ⟨st.chains, st.seen.insert self⟩ < unseen files st := by
        unfold unseen
        have heq : files.filter (· ∉ (st.seen.insert self)) = (files.filter (· ∉ st.seen)).filter (· ≠ self) := by
          rw [List.filter_filter]
          apply List.filter_congr
          intro a _
          rw [Bool.eq_iff_iff]
          simp only [Bool.and_eq_true, decide_eq_true_eq, tags_insert]
          tauto
        simp only
        rw [heq]
        refine Nat.lt_of_le_of_ne (List.length_filter_le _ _) ?_
        intro hlen
        have hall := List.length_filter_eq_length_iff.1 hlen
        have := hall self (List.mem_filter.2 ⟨hfin _ hself, by simpa using hs⟩)
        simp at this
      omega

/-- C37: loading ends, whatever the includes are: cycles, and files that are included from several places. It is enough
that there are finitely many files: loads nested one deeper than the number of files suffice. -/
theorem C37_terminates (fs : RuleFs) (path : Str) (files : List Str)
    (hfin : ∀ root a, fs.canon path = some root → Reachable fs root a → a ∈ files) (fuel : Nat) (hf : files.length < fuel) :
    load fs fuel path ≠ .error .diverged := by
  intro h
  rw [load] at h
  cases hp : fs.fromPath path with
  | error e' =>
    rw [hp] at h; cases h
    cases (fromPath_error hp).1
  | ok entries =>
    rw [hp] at h
    simp only at h
    obtain ⟨root, hc, hr⟩ := fromPath_ok hp
    cases hl : loadInto fs fuel path entries ⟨∅, ∅⟩ with
    | ok st => rw [hl] at h; cases h
    | error e' =>
      rw [hl] at h
      cases h
      refine loadInto_terminates (hfin root · hc) fuel path root entries ⟨∅, ∅⟩ hc hr .refl ?_ hl
      exact Nat.lt_of_le_of_lt (List.length_filter_le _ _) hf

/-- C37 as an equivalence: if there are finitely many files, loading succeeds just if everything can be read and no chain is
defined twice. -/
theorem C37_succeeds_iff (fs : RuleFs) (path root : Str) (files : List Str) (hc : fs.canon path = some root)
    (hfin : ∀ a, Reachable fs root a → a ∈ files) (fuel : Nat) (hf : files.length < fuel) :
    (∃ T, load fs fuel path = .ok T) ↔ (fs.file root).isSome ∧ ¬ Broken fs root ∧ ∀ name, ¬ DefinedTwice fs root name := by
  constructor
  · rintro ⟨T, hT⟩
    refine ⟨?_, ?_⟩
    · rw [load] at hT
      cases hp : fs.fromPath path with
      | error e' => rw [hp] at hT; cases hT
      | ok entries =>
        obtain ⟨root', hc', hr⟩ := fromPath_ok hp
        rw [hc] at hc'; cases hc'
        rw [hr]; rfl
    · obtain ⟨root', files', hc', hnd, hmem, hnames, _, hb⟩ := C37_each_file_once fs fuel path T hT
      rw [hc] at hc'; cases hc'
      refine ⟨hb, ?_⟩
      rintro name (⟨a, ha, h2⟩ | ⟨a, b, hab, ha, hb', h1, h2⟩)
      · obtain ⟨l1, l2, rfl⟩ := List.append_of_mem ((hmem a).2 ha)
        rw [List.flatMap_append, List.flatMap_cons, List.map_append, List.map_append, List.nodup_append, List.nodup_append] at hnames
        have := List.nodup_iff_count.1 hnames.2.1.1 name
        omega
      · obtain ⟨l1, l2, rfl⟩ := List.append_of_mem ((hmem a).2 ha)
        have hb'' := (hmem b).2 hb'
        rw [List.flatMap_append, List.flatMap_cons, List.map_append, List.map_append, List.nodup_append, List.nodup_append] at hnames
        have hin : ∀ l : List Str, b ∈ l → name ∈ (l.flatMap (definitionsOf fs)).map (·.1) := by
          intro l hl
          obtain ⟨d, hd, rfl⟩ := List.mem_map.1 h2
          exact List.mem_map.2 ⟨d, List.mem_flatMap.2 ⟨b, hl, hd⟩, rfl⟩
        rcases List.mem_append.1 hb'' with hl | hl
        · exact hnames.2.2 name (hin l1 hl) name (List.mem_append_left _ h1) rfl
        · rcases List.mem_cons.1 hl with hl | hl
          · exact hab hl.symm
          · exact hnames.2.1.2.2 name h1 name (hin l2 hl) rfl
  · rintro ⟨h1, h2, h3⟩
    cases hT : load fs fuel path with
    | ok T => exact ⟨T, rfl⟩
    | error e =>
      exfalso
      have hd : e ≠ .diverged := by
        rintro rfl
        refine C37_terminates fs path files ?_ fuel hf hT
        intro root' a hc' hr
        rw [hc] at hc'; cases hc'
        exact hfin a hr
      rcases C37_errors fs fuel path e hT hd with h | ⟨root', hc', ⟨name, _, h⟩ | ⟨_, h⟩⟩
      · rw [hc] at h
        simp only [Option.bind_some] at h
        rw [h] at h1; cases h1
      · rw [hc] at hc'; cases hc'
        exact h3 name h
      · rw [hc] at hc'; cases hc'
        exact h2 h

/-! ### An example: `a` includes `b` and `c`, and `b` includes `c` and `a` -/

namespace Ex

/-- Four files, named by letters; `./a` is another path for `a`. -/
def ruleFs (dup : Bool) : RuleFs where
  canon p := if p = "./a".toList then some ['a'] else if p.length = 1 then some p else none
  file p :=
    if p = ['a'] then some [.include_ ['b'], .chain "start".toList [], .include_ ['c']]
    else if p = ['b'] then some [.include_ ['c'], .chain (if dup then ['x'] else ['y']) [], .include_ "./a".toList]
    else if p = ['c'] then some [.chain ['x'] []]
    else none
  parent _ := some []
  join _ p := p

end Ex

set_option maxRecDepth 100000 in
/-- The cycle and the diamond load; with a second definition of `x` loading fails. -/
example : (load (Ex.ruleFs false) 4 ['a']).map (·.keys) = .ok ["start".toList, ['x'], ['y']] ∧
    (load (Ex.ruleFs true) 4 ['a']).map (·.keys) = .error (.duplicateChain ['x']) := by decide +kernel

/-- There are finitely many files. -/
example (dup : Bool) : ∀ a, Reachable (Ex.ruleFs dup) ['a'] a → a ∈ [['a'], ['b'], ['c']] := by
  intro a h
  induction h with
  | refl => simp
  | tail _ h _ =>
    obtain ⟨es, path, h1, h2, h3⟩ := h
    simp only [Ex.ruleFs] at h1 h3
    split at h1
    · cases h1; simp at h2; rcases h2 with rfl | rfl <;> simp [target] at h3 <;> subst h3 <;> simp
    split at h1
    · cases h1; simp at h2; rcases h2 with rfl | rfl <;> simp [target] at h3 <;> subst h3 <;> simp
    split at h1
    · cases h1; simp at h2
    · cases h1

end Verif
