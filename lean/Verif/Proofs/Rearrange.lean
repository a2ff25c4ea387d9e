import Verif.Spec.Rearrange
import Verif.Proofs.Rules

/-!
# Other ways to write the same rules
-/

namespace Verif.Rules
open Spec.Rules

variable {lower : Str → Str} {T T' : Table}

/-- What a first rule makes of a context. -/
theorem runs_rule {p : Predicate} {a : Action} {res : RuleResult} {rs : List Rule} {c : Ctx} {r : Res} :
    Runs lower T (.rules (⟨p, a, res⟩ :: rs)) c r ↔
      (¬ Holds lower c p ∧ Runs lower T (.rules rs) c r) ∨
      (Holds lower c p ∧ ((∃ e, r = .error e ∧ Runs lower T (.action a) c (.error e)) ∨
        ∃ c', Runs lower T (.action a) c (.ok c') ∧
          ((res = .continue_ ∧ Runs lower T (.rules rs) c' r) ∨ (res = .return_ ∧ r = .ok c')))) := by
  constructor
  · intro h
    cases h with
    | skip h1 h2 => exact .inl ⟨h1, h2⟩
    | continue_ h1 h2 h3 => exact .inr ⟨h1, .inr ⟨_, h2, .inl ⟨rfl, h3⟩⟩⟩
    | return_ h1 h2 => exact .inr ⟨h1, .inr ⟨_, h2, .inr ⟨rfl, rfl⟩⟩⟩
    | ruleError h1 h2 => exact .inr ⟨h1, .inl ⟨_, rfl, h2⟩⟩
  · rintro (⟨h1, h2⟩ | ⟨h1, ⟨e, rfl, h2⟩ | ⟨c', h2, ⟨rfl, h3⟩ | ⟨rfl, rfl⟩⟩⟩)
    · exact .skip h1 h2
    · exact .ruleError h1 h2
    · exact .continue_ h1 h2 h3
    · exact .return_ h1 h2

/-- What a first action makes of a context. -/
theorem runs_actions_cons {a : Action} {as : List Action} {c : Ctx} {r : Res} :
    Runs lower T (.actions (a :: as)) c r ↔
      (∃ e, r = .error e ∧ Runs lower T (.action a) c (.error e)) ∨
      ∃ c', Runs lower T (.action a) c (.ok c') ∧ Runs lower T (.actions as) c' r := by
  constructor
  · intro h
    cases h with
    | actionsCons h1 h2 => exact .inr ⟨_, h1, h2⟩
    | actionsError h1 => exact .inl ⟨_, rfl, h1⟩
  · rintro (⟨e, rfl, h⟩ | ⟨c', h1, h2⟩)
    · exact .actionsError h
    · exact .actionsCons h1 h2

theorem runs_actions_nil {c : Ctx} {r : Res} : Runs lower T (.actions []) c r ↔ r = .ok c :=
  ⟨fun h => by cases h; rfl, fun h => h ▸ .actionsNil⟩

theorem runs_rules_nil {c : Ctx} {r : Res} : Runs lower T (.rules []) c r ↔ r = .ok c :=
  ⟨fun h => by cases h; rfl, fun h => h ▸ .rulesNil⟩

theorem runs_all {as : List Action} {c : Ctx} {r : Res} : Runs lower T (.action (.all as)) c r ↔ Runs lower T (.actions as) c r :=
  ⟨fun h => by
    cases h with
    | change h => cases h
    | all h => exact h, .all⟩

theorem runs_noop {c : Ctx} {r : Res} : Runs lower T (.action .noop) c r ↔ r = .ok c :=
  ⟨fun h => by
    cases h with
    | change h => cases h; rfl, fun h => h ▸ .change .noop⟩

theorem runs_jump {name : Str} {rs : List Rule} (hT : T[name]? = some rs) {c : Ctx} {r : Res} :
    Runs lower T (.action (.jumpChain name)) c r ↔ Runs lower T (.rules rs) c r :=
  ⟨fun h => by
    cases h with
    | change h => cases h
    | jump h1 h2 => rw [hT] at h1; cases h1; exact h2
    | noChain h1 => rw [hT] at h1; exact (by cases h1), .jump hT⟩

/-- A list of actions behind another one. -/
theorem runs_actions_append {as bs : List Action} {c : Ctx} {r : Res} :
    Runs lower T (.actions (as ++ bs)) c r ↔
      (∃ e, r = .error e ∧ Runs lower T (.actions as) c (.error e)) ∨
      ∃ c', Runs lower T (.actions as) c (.ok c') ∧ Runs lower T (.actions bs) c' r := by
  induction as generalizing c with
  | nil =>
    simp only [List.nil_append, runs_actions_nil]
    constructor
    · exact fun h => .inr ⟨c, rfl, h⟩
    · rintro (⟨e, -, h⟩ | ⟨c', h1, h2⟩)
      · cases h
      · cases h1; exact h2
  | cons a as ih =>
    rw [List.cons_append, runs_actions_cons]
    simp only [runs_actions_cons (as := as)]
    constructor
    · rintro (⟨e, rfl, h⟩ | ⟨c', h1, h2⟩)
      · exact .inl ⟨e, rfl, .inl ⟨e, rfl, h⟩⟩
      · rcases ih.1 h2 with ⟨e, rfl, h3⟩ | ⟨c2, h3, h4⟩
        · exact .inl ⟨e, rfl, .inr ⟨c', h1, h3⟩⟩
        · exact .inr ⟨c2, .inr ⟨c', h1, h3⟩, h4⟩
    · rintro (⟨e, rfl, ⟨e', h1, h2⟩ | ⟨c', h1, h2⟩⟩ | ⟨c2, ⟨e', h1, -⟩ | ⟨c', h1, h2⟩, h3⟩)
      · cases h1; exact .inl ⟨e, rfl, h2⟩
      · exact .inr ⟨c', h1, ih.2 (.inl ⟨e, rfl, h2⟩)⟩
      · cases h1
      · exact .inr ⟨c', h1, ih.2 (.inr ⟨c2, h2, h3⟩)⟩

/-- Rules behind others that do not return. -/
theorem runs_rules_append {rs : List Rule} (h0 : NoReturn rs) {behind : List Rule} {c : Ctx} {r : Res} :
    Runs lower T (.rules (rs ++ behind)) c r ↔
      (∃ e, r = .error e ∧ Runs lower T (.rules rs) c (.error e)) ∨
      ∃ c', Runs lower T (.rules rs) c (.ok c') ∧ Runs lower T (.rules behind) c' r := by
  induction rs generalizing c with
  | nil =>
    simp only [List.nil_append, runs_rules_nil]
    constructor
    · exact fun h => .inr ⟨c, rfl, h⟩
    · rintro (⟨e, -, h⟩ | ⟨c', h1, h2⟩)
      · cases h
      · cases h1; exact h2
  | cons x rs ih =>
    obtain ⟨p, a, res⟩ := x
    have hres : res = .continue_ := h0 ⟨p, a, res⟩ List.mem_cons_self
    subst hres
    have ih := fun {c} => ih (fun x hx => h0 x (List.mem_cons_of_mem _ hx)) (c := c)
    have hx : ∀ P : Prop, ¬ (RuleResult.continue_ = RuleResult.return_ ∧ P) := fun P h => nomatch h.1
    rw [List.cons_append, runs_rule]
    simp only [runs_rule (rs := rs), hx, or_false, true_and]
    constructor
    · rintro (⟨h1, h2⟩ | ⟨h1, ⟨e, rfl, h2⟩ | ⟨c', h2, h3⟩⟩)
      · rcases ih.1 h2 with ⟨e, rfl, h3⟩ | ⟨c2, h3, h4⟩
        · exact .inl ⟨e, rfl, .inl ⟨h1, h3⟩⟩
        · exact .inr ⟨c2, .inl ⟨h1, h3⟩, h4⟩
      · exact .inl ⟨e, rfl, .inr ⟨h1, .inl ⟨e, rfl, h2⟩⟩⟩
      · rcases ih.1 h3 with ⟨e, rfl, h4⟩ | ⟨c2, h4, h5⟩
        · exact .inl ⟨e, rfl, .inr ⟨h1, .inr ⟨c', h2, h4⟩⟩⟩
        · exact .inr ⟨c2, .inr ⟨h1, .inr ⟨c', h2, h4⟩⟩, h5⟩
    · rintro (⟨e, rfl, ⟨h1, h2⟩ | ⟨h1, ⟨e', h2, h3⟩ | ⟨c', h2, h3⟩⟩⟩ | ⟨c2, ⟨h1, h2⟩ | ⟨h1, ⟨e', h2, -⟩ | ⟨c', h2, h3⟩⟩, h4⟩)
      · exact .inl ⟨h1, ih.2 (.inl ⟨e, rfl, h2⟩)⟩
      · cases h2; exact .inr ⟨h1, .inl ⟨e, rfl, h3⟩⟩
      · exact .inr ⟨h1, .inr ⟨c', h2, ih.2 (.inl ⟨e, rfl, h3⟩)⟩⟩
      · exact .inl ⟨h1, ih.2 (.inr ⟨c2, h2, h4⟩)⟩
      · cases h2
      · exact .inr ⟨h1, .inr ⟨c', h2, ih.2 (.inr ⟨c2, h3, h4⟩)⟩⟩

/-- Two lists of rules do the same in a table. -/
def DoSame (lower : Str → Str) (T : Table) (rs rs' : List Rule) : Prop := ∀ c r, Runs lower T (.rules rs) c r ↔ Runs lower T (.rules rs') c r

theorem DoSame.behind {rs rs' : List Rule} (h : DoSame lower T rs rs') (before : List Rule) : DoSame lower T (before ++ rs) (before ++ rs') := by
  induction before with
  | nil => exact h
  | cons x before ih =>
    intro c r
    obtain ⟨p, a, res⟩ := x
    rw [List.cons_append, List.cons_append, runs_rule, runs_rule]
    simp only [ih _ _]

/-- A rewritten chain does the same, in each table that has the same chains to jump to. -/
theorem rewritten_same {name : Str} {rs rs' : List Rule} (h : Rewritten lower T name rs rs') {T' : Table}
    (hT : ∀ dest, dest ≠ name → T'[dest]? = T[dest]?) : DoSame lower T' rs rs' := by
  cases h with
  | never h =>
    refine DoSame.behind (fun c r => ?_) _
    rw [runs_rule]
    exact ⟨fun x => x.elim (·.2) (fun y => (h c y.1).elim), fun x => .inl ⟨h c, x⟩⟩
  | idle =>
    refine DoSame.behind (fun c r => ?_) _
    rw [runs_rule]
    simp only [runs_noop]
    constructor
    · rintro (⟨-, h⟩ | ⟨-, ⟨e, -, h⟩ | ⟨c', h1, ⟨-, h2⟩ | ⟨h2, -⟩⟩⟩)
      · exact h
      · cases h
      · cases h1; exact h2
      · cases h2
    · intro h
      rename_i p behind
      by_cases hp : Holds lower c p
      · exact .inr ⟨hp, .inr ⟨c, rfl, .inl ⟨trivial, h⟩⟩⟩
      · exact .inl ⟨hp, h⟩
  | behindReturn h =>
    refine DoSame.behind (fun c r => ?_) _
    rw [runs_rule, runs_rule]
    have : ∀ P : Prop, ¬ (¬ Holds lower c _ ∧ P) := fun P x => x.1 (h c)
    have hx : ∀ P : Prop, ¬ (RuleResult.return_ = RuleResult.continue_ ∧ P) := fun P h => nomatch h.1
    simp only [this, hx, false_or]
  | last =>
    refine DoSame.behind (fun c r => ?_) _
    rename_i res res'
    rw [runs_rule, runs_rule]
    have : ∀ (res : RuleResult) (c' : Ctx), ((res = .continue_ ∧ Runs lower T' (.rules []) c' r) ∨ (res = .return_ ∧ r = .ok c')) ↔ r = .ok c' := by
      intro res c'
      rw [runs_rules_nil]
      cases res <;> simp
    simp only [this]
  | swap h =>
    refine DoSame.behind (fun c r => ?_) _
    have hx : ∀ P : Prop, ¬ (RuleResult.return_ = RuleResult.continue_ ∧ P) := fun P h => nomatch h.1
    simp only [runs_rule, hx, false_or, true_and]
    constructor
    · rintro (⟨h1, ⟨h2, h3⟩ | ⟨h2, h3⟩⟩ | ⟨h1, h2⟩)
      · exact .inl ⟨h2, .inl ⟨h1, h3⟩⟩
      · exact .inr ⟨h2, h3⟩
      · exact .inl ⟨h c h1, .inr ⟨h1, h2⟩⟩
    · rintro (⟨h1, ⟨h2, h3⟩ | ⟨h2, h3⟩⟩ | ⟨h1, h2⟩)
      · exact .inl ⟨h2, .inl ⟨h1, h3⟩⟩
      · exact .inr ⟨h2, h3⟩
      · exact .inl ⟨fun x => h c x h1, .inr ⟨h1, h2⟩⟩
  | any =>
    refine DoSame.behind (fun c r => ?_) _
    rename_i p q a behind
    have hx : ∀ P : Prop, ¬ (RuleResult.return_ = RuleResult.continue_ ∧ P) := fun P h => nomatch h.1
    have hany : Holds lower c (.any [p, q]) ↔ Holds lower c p ∨ Holds lower c q := by
      rw [Holds]
      constructor
      · rintro ⟨x, hx, h⟩
        simp only [List.mem_cons, List.not_mem_nil, or_false] at hx
        rcases hx with rfl | rfl
        · exact .inl h
        · exact .inr h
      · rintro (h | h)
        · exact ⟨p, List.mem_cons_self, h⟩
        · exact ⟨q, by simp, h⟩
    simp only [runs_rule, hx, false_or, true_and, hany, not_or]
    by_cases h1 : Holds lower c p <;> by_cases h2 : Holds lower c q <;> simp only [h1, h2, not_true, not_false_eq_true, true_and, false_and, and_true,
      and_false, or_false, false_or, or_true, or_self]
  | predicate h =>
    refine DoSame.behind (fun c r => ?_) _
    rw [runs_rule, runs_rule]
    simp only [h]
  | together h1 h2 =>
    refine DoSame.behind (fun c r => ?_) _
    rename_i p q a b res behind
    have e3 : Holds lower c .true_ := by rw [Holds]; trivial
    have hx : ∀ P : Prop, ¬ (RuleResult.continue_ = RuleResult.return_ ∧ P) := fun P h => nomatch h.1
    simp only [runs_rule, e3, h1 c, h2 _, hx, false_or, or_false, true_and, not_true, false_and, runs_all, runs_actions_cons, runs_actions_nil]
    constructor
    · rintro (⟨e, rfl, h⟩ | ⟨c', h3, ⟨e, rfl, h4⟩ | ⟨c2, h4, h5⟩⟩)
      · exact .inl ⟨e, rfl, .inl ⟨e, rfl, h⟩⟩
      · exact .inl ⟨e, rfl, .inr ⟨c', h3, .inl ⟨e, rfl, h4⟩⟩⟩
      · exact .inr ⟨c2, .inr ⟨c', h3, .inr ⟨c2, h4, rfl⟩⟩, h5⟩
    · rintro (⟨e, rfl, ⟨e', h3, h4⟩ | ⟨c', h3, ⟨e', h4, h5⟩ | ⟨c2, h4, h5⟩⟩⟩ | ⟨c2, ⟨e', h3, -⟩ | ⟨c', h3, ⟨e', h4, -⟩ | ⟨c3, h4, h5⟩⟩, h6⟩)
      · cases h3; exact .inl ⟨e, rfl, h4⟩
      · cases h4; exact .inr ⟨c', h3, .inl ⟨e, rfl, h5⟩⟩
      · cases h5
      · cases h3
      · cases h4
      · cases h5; exact .inr ⟨c', h3, .inr ⟨c2, h4, h6⟩⟩
  | flatten =>
    refine DoSame.behind (fun c r => ?_) _
    rename_i p as bs cs res behind
    have : ∀ c r, Runs lower T' (.action (.all (as ++ .all bs :: cs))) c r ↔ Runs lower T' (.action (.all (as ++ bs ++ cs))) c r := by
      intro c r
      rw [runs_all, runs_all, List.append_assoc, runs_actions_append, runs_actions_append]
      simp only [runs_actions_cons, runs_all, runs_actions_append (as := bs)]
    rw [runs_rule, runs_rule]
    simp only [this]
  | inline h1 h2 h3 h4 =>
    rw [List.append_assoc]
    refine DoSame.behind (fun c r => ?_) _
    rename_i p dest rs behind
    have h3 : T'[dest]? = some rs := (hT dest h2).trans h3
    have hx : ∀ P : Prop, ¬ (RuleResult.continue_ = RuleResult.return_ ∧ P) := fun P h => nomatch h.1
    rw [runs_rule, runs_rules_append h4]
    simp only [h1 c, hx, not_true, false_and, false_or, or_false, true_and, runs_jump h3]
  | inlineLast h1 h2 h3 =>
    refine DoSame.behind (fun c r => ?_) _
    rename_i p dest res rs
    have h3 := (hT dest h2).trans h3
    have : ∀ (c' : Ctx), ((res = .continue_ ∧ Runs lower T' (.rules []) c' r) ∨ (res = .return_ ∧ r = .ok c')) ↔ r = .ok c' := by
      intro c'
      rw [runs_rules_nil]
      cases res <;> simp
    rw [runs_rule]
    simp only [h1 c, not_true, false_and, false_or, true_and, runs_jump h3, this]
    constructor
    · rintro (⟨e, rfl, h⟩ | ⟨c', h, rfl⟩) <;> exact h
    · intro h
      rcases r with e | c'
      · exact .inl ⟨e, rfl, h⟩
      · exact .inr ⟨c', h, rfl⟩

/-- If each chain of one table does, in the other table, at least what the chain with its name there does, then so does everything. -/
theorem runs_into (h : ∀ name : Str, T[name]? = none ∧ T'[name]? = none ∨ ∃ rs rs', T[name]? = some rs ∧ T'[name]? = some rs' ∧
    ∀ c r, Runs lower T' (.rules rs) c r → Runs lower T' (.rules rs') c r) {j : Job} {c : Ctx} {r : Res} (hr : Runs lower T j c r) :
    Runs lower T' j c r := by
  induction hr with
  | change h => exact .change h
  | report => exact .report
  | all _ ih => exact .all ih
  | @jump name ch c r h1 h2 ih =>
    rcases h name with ⟨h3, -⟩ | ⟨rs, rs', h3, h4, h5⟩
    · rw [h1] at h3; cases h3
    · rw [h1] at h3; cases h3
      exact .jump h4 (h5 _ _ ih)
  | @noChain name c h1 =>
    rcases h name with ⟨-, h3⟩ | ⟨rs, rs', h3, h4, h5⟩
    · exact .noChain h3
    · rw [h1] at h3; cases h3
  | actionsNil => exact .actionsNil
  | actionsCons _ _ ih1 ih2 => exact .actionsCons ih1 ih2
  | actionsError _ ih => exact .actionsError ih
  | rulesNil => exact .rulesNil
  | skip h1 _ ih => exact .skip h1 ih
  | continue_ h1 _ _ ih1 ih2 => exact .continue_ h1 ih1 ih2
  | return_ h1 _ ih => exact .return_ h1 ih
  | ruleError h1 _ ih => exact .ruleError h1 ih

/-- Tables with the same chains under the names for which something holds, which nothing leads out of: jobs that jump to these only do the same. -/
theorem runs_within {N : Str → Prop} (hN : ∀ name, N name → T'[name]? = T[name]?) (hc : ∀ name dest, N name → JumpsTo T name dest → N dest)
    {j : Job} {c : Ctx} {r : Res} (hr : Runs lower T j c r)
    (hj : match j with
      | .action a => ∀ dest, Jumps a dest → N dest
      | .actions as => ∀ a ∈ as, ∀ dest, Jumps a dest → N dest
      | .rules rs => ∀ x ∈ rs, ∀ dest, Jumps x.action dest → N dest) : Runs lower T' j c r := by
  induction hr with
  | change h => exact .change h
  | report => exact .report
  | all _ ih => exact .all (ih fun a ha dest hd => hj dest (.inside ha hd))
  | @jump name ch c r h1 h2 ih =>
    have hn := hj name .here
    exact .jump ((hN name hn).trans h1) (ih fun x hx dest hd => hc name dest hn ⟨ch, h1, x, hx, hd⟩)
  | @noChain name c h1 => exact .noChain ((hN name (hj name .here)).trans h1)
  | actionsNil => exact .actionsNil
  | actionsCons _ _ ih1 ih2 => exact .actionsCons (ih1 (hj _ List.mem_cons_self)) (ih2 fun a ha => hj a (List.mem_cons_of_mem _ ha))
  | actionsError _ ih => exact .actionsError (ih (hj _ List.mem_cons_self))
  | rulesNil => exact .rulesNil
  | skip h1 _ ih => exact .skip h1 (ih fun a ha => hj a (List.mem_cons_of_mem _ ha))
  | continue_ h1 _ _ ih1 ih2 => exact .continue_ h1 (ih1 (hj _ List.mem_cons_self)) (ih2 fun a ha => hj a (List.mem_cons_of_mem _ ha))
  | return_ h1 _ ih => exact .return_ h1 (ih (hj _ List.mem_cons_self))
  | ruleError h1 _ ih => exact .ruleError h1 (ih (hj _ List.mem_cons_self))

theorem runsPosts_into {start start' : List Rule} (h : ∀ c r, Runs lower T (.rules start) c r → Runs lower T' (.rules start') c r) {t : TransactionInternal}
    {ps : List PostingInternal} {r : Except RuleErr (TransactionInternal × List PostingInternal)} (hr : RunsPosts lower T start t ps r) :
    RunsPosts lower T' start' t ps r := by
  induction hr with
  | nil => exact .nil
  | cons h1 _ ih => exact .cons (h _ _ h1) ih
  | error h1 => exact .error (h _ _ h1)
  | later h1 _ ih => exact .later (h _ _ h1) ih

end Verif.Rules
