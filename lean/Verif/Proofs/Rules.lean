import Verif.Spec.Rules
import Mathlib.Data.List.Forall2

/-!
# Lemmas about rules
-/

namespace Verif
open Verif.Rules Spec.Rules

/-! ### Predicates -/

theorem containsStr_iff (want s : Str) : Str.containsStr want s = true ↔ want <:+: s := by
  induction s with
  | nil => simp [Str.containsStr]
  | cons c cs ih =>
    unfold Str.containsStr
    rw [Bool.or_eq_true, List.isPrefixOf_iff_prefix, ih, List.infix_cons_iff]

theorem matchesString_iff (lower : Str → Str) (m : StringMatch) (s : Str) :
    m.matchesString lower s = true ↔ TextMatches lower m s := by
  induction m generalizing s with
  | asLower m ih => exact ih _
  | contains want => exact containsStr_iff want s
  | eq want =>
    simp only [StringMatch.matchesString, TextMatches, beq_iff_eq]
    exact eq_comm
  | matches_ f => exact Iff.rfl

theorem allMatch_iff (lower : Str → Str) (ps : List Predicate) (c : Ctx) :
    Predicate.allMatch lower ps c = true ↔ ∀ p ∈ ps, p.isMatch lower c = true := by
  induction ps with
  | nil => simp [Predicate.allMatch]
  | cons p ps ih => simp [Predicate.allMatch, ih]

theorem anyMatch_iff (lower : Str → Str) (ps : List Predicate) (c : Ctx) :
    Predicate.anyMatch lower ps c = true ↔ ∃ p ∈ ps, p.isMatch lower c = true := by
  induction ps with
  | nil => simp [Predicate.anyMatch]
  | cons p ps ih => simp [Predicate.anyMatch, ih]

theorem isMatch_iff (lower : Str → Str) (c : Ctx) (p : Predicate) : p.isMatch lower c = true ↔ Holds lower c p := by
  induction p using Holds.induct with
  | case1 ps ih =>
    rw [Holds, Predicate.isMatch, allMatch_iff]
    exact forall₂_congr fun p hp => ih p hp
  | case2 ps ih =>
    rw [Holds, Predicate.isMatch, anyMatch_iff]
    exact ⟨fun ⟨p, hp, h⟩ => ⟨p, hp, (ih p hp).1 h⟩, fun ⟨p, hp, h⟩ => ⟨p, hp, (ih p hp).2 h⟩⟩
  | case3 m => rw [Holds, Predicate.isMatch, matchesString_iff]
  | case4 m =>
    rw [Holds, Predicate.isMatch, List.any_eq_true]
    simp only [Std.ExtTreeSet.mem_toList, matchesString_iff]
  | case5 tag => rw [Holds, Predicate.isMatch]; exact Iff.rfl
  | case6 key => rw [Holds, Predicate.isMatch]; exact Iff.rfl
  | case7 key m =>
    rw [Holds, Predicate.isMatch]
    cases c.post.comment.valueTags[key]? with
    | none => simp
    | some v => simp [matchesString_iff]
  | case8 p ih => rw [Holds, Predicate.isMatch, Bool.not_eq_true', ← ih, Bool.not_eq_true]
  | case9 m => rw [Holds, Predicate.isMatch, matchesString_iff]
  | case10 => simp [Holds, Predicate.isMatch]

/-! ### The model follows the semantics -/

/-- What the model computes for a job. -/
def exec (lower : Str → Str) (jump : Str → Ctx → Res) : Job → Ctx → Res
  | .action a, c => a.apply jump c
  | .actions as, c => Action.applyAll jump as c
  | .rules rs, c => Chain.apply lower jump rs c

theorem tags_insert (s : TagSet) (tag t : Str) : t ∈ s.insert tag ↔ t = tag ∨ t ∈ s := by
  rw [Std.ExtTreeSet.mem_insert, Std.LawfulEqOrd.compare_eq_iff_eq]
  exact or_congr_left eq_comm

theorem tags_erase (s : TagSet) (tag t : Str) : t ∈ s.erase tag ↔ t ≠ tag ∧ t ∈ s := by
  rw [Std.ExtTreeSet.mem_erase]
  simp only [ne_eq, Std.LawfulEqOrd.compare_eq_iff_eq]
  exact and_congr_left fun _ => not_congr eq_comm

theorem values_insert_self (m : StrMap) (k v : Str) : (m.insert k v)[k]? = some v := by
  rw [Std.ExtTreeMap.getElem?_insert]; simp

theorem values_insert_other (m : StrMap) (k v : Str) : ∀ k', k' ≠ k → (m.insert k v)[k']? = m[k']? := by
  intro k' h
  rw [Std.ExtTreeMap.getElem?_insert, if_neg]
  rw [Std.LawfulEqOrd.compare_eq_iff_eq]; exact fun h' => h h'.symm

theorem values_erase_self (m : StrMap) (k : Str) : (m.erase k)[k]? = none := by
  rw [Std.ExtTreeMap.getElem?_erase]; simp

theorem values_erase_other (m : StrMap) (k : Str) : ∀ k', k' ≠ k → (m.erase k)[k']? = m[k']? := by
  intro k' h
  rw [Std.ExtTreeMap.getElem?_erase, if_neg]
  rw [Std.LawfulEqOrd.compare_eq_iff_eq]; exact fun h' => h h'.symm

section Sound
variable {lower : Str → Str} {T : Table} {J : Str → Ctx → Res}

mutual
theorem action_sound (hJ : ∀ name c r, J name c = r → r ≠ .error .diverged → Runs lower T (.action (.jumpChain name)) c r)
    (a : Action) (c : Ctx) (h : a.apply J c ≠ .error .diverged) : Runs lower T (.action a) c (a.apply J c) := by
  cases a with
  | addPostingFlagTag tag => exact .change (.addPostingFlagTag (tags_insert _ _))
  | addPostingValueTag k v => exact .change (.addPostingValueTag (values_insert_self _ _ _) (values_insert_other _ _ _))
  | addTransactionFlagTag tag => exact .change (.addTransactionFlagTag (tags_insert _ _))
  | addTransactionValueTag k v => exact .change (.addTransactionValueTag (values_insert_self _ _ _) (values_insert_other _ _ _))
  | all as =>
    rw [Action.apply] at h ⊢
    exact .all (actions_sound hJ as c h)
  | error msg => exact .report
  | noop => exact .change .noop
  | jumpChain name => rw [Action.apply] at h ⊢; exact hJ _ _ _ rfl h
  | setAccount x => exact .change .setAccount
  | removePostingFlagTag tag => exact .change (.removePostingFlagTag (tags_erase _ _))
  | removePostingValueTag k => exact .change (.removePostingValueTag (values_erase_self _ _) (values_erase_other _ _))
  | removeTransactionFlagTag tag => exact .change (.removeTransactionFlagTag (tags_erase _ _))
  | removeTransactionValueTag k => exact .change (.removeTransactionValueTag (values_erase_self _ _) (values_erase_other _ _))
  | replaceTransactionDescription f => exact .change .replaceTransactionDescription
theorem actions_sound (hJ : ∀ name c r, J name c = r → r ≠ .error .diverged → Runs lower T (.action (.jumpChain name)) c r)
    (as : List Action) (c : Ctx) (h : Action.applyAll J as c ≠ .error .diverged) :
    Runs lower T (.actions as) c (Action.applyAll J as c) := by
  cases as with
  | nil => exact .actionsNil
  | cons a as =>
    rw [Action.applyAll] at h ⊢
    have ha := action_sound hJ a c
    cases hr : a.apply J c with
    | error e =>
      rw [hr] at h ha
      exact .actionsError (ha h)
    | ok c' =>
      rw [hr] at h ha
      exact .actionsCons (ha (by simp)) (actions_sound hJ as c' h)
end

theorem rules_sound (hJ : ∀ name c r, J name c = r → r ≠ .error .diverged → Runs lower T (.action (.jumpChain name)) c r)
    (rs : List Rule) (c : Ctx) (h : Chain.apply lower J rs c ≠ .error .diverged) :
    Runs lower T (.rules rs) c (Chain.apply lower J rs c) := by
  induction rs generalizing c with
  | nil => exact .rulesNil
  | cons r rs ih =>
    obtain ⟨p, a, res⟩ := r
    rw [Chain.apply, Rule.apply] at h ⊢
    simp only at h ⊢
    by_cases hp : p.isMatch lower c = true
    · have hp' := (isMatch_iff lower c p).1 hp
      rw [if_pos hp] at h ⊢
      have ha := action_sound hJ a c
      cases hr : a.apply J c with
      | error e =>
        rw [hr] at h ha
        exact .ruleError hp' (ha h)
      | ok c' =>
        rw [hr] at h ha
        cases res with
        | continue_ => exact .continue_ hp' (ha (by simp)) (ih c' h)
        | return_ => exact .return_ hp' (ha (by simp))
    · rw [if_neg hp] at h ⊢
      rw [isMatch_iff] at hp
      exact .skip hp (ih c h)

end Sound

theorem jump_sound {lower : Str → Str} {T : Table} (n : Nat) : ∀ name c r, T.jump lower n name c = r → r ≠ .error .diverged →
    Runs lower T (.action (.jumpChain name)) c r := by
  induction n with
  | zero => rintro name c r rfl h; exact absurd rfl h
  | succ n ih =>
    rintro name c r rfl h
    rw [Table.jump, Table.getChain] at h ⊢
    cases hc : T[name]? with
    | none => exact .noChain hc
    | some ch =>
      rw [hc] at h
      exact .jump hc (rules_sound ih ch c h)

theorem runs_complete {lower : Str → Str} {T : Table} {j : Job} {c : Ctx} {r : Res} (h : Runs lower T j c r) :
    r ≠ .error .diverged ∧ ∃ n, ∀ m, n ≤ m → exec lower (T.jump lower m) j c = r := by
  induction h with
  | @change a c c' h =>
    refine ⟨by simp, 0, fun m _ => ?_⟩
    cases h with
    | @addPostingFlagTag _ tag tags h =>
      obtain rfl : tags = _ := Std.ExtTreeSet.ext_mem fun t => (h t).trans (tags_insert _ _ t).symm
      rfl
    | @removePostingFlagTag _ tag tags h =>
      obtain rfl : tags = _ := Std.ExtTreeSet.ext_mem fun t => (h t).trans (tags_erase _ _ t).symm
      rfl
    | @addPostingValueTag _ key value values h h' =>
      obtain rfl : values = c.post.comment.valueTags.insert key value := by
        refine Std.ExtTreeMap.ext_getElem? fun k => ?_
        by_cases hk : k = key
        · rw [hk]; exact h.trans (values_insert_self _ _ _).symm
        · exact (h' k hk).trans (values_insert_other _ _ _ k hk).symm
      rfl
    | @removePostingValueTag _ key values h h' =>
      obtain rfl : values = c.post.comment.valueTags.erase key := by
        refine Std.ExtTreeMap.ext_getElem? fun k => ?_
        by_cases hk : k = key
        · rw [hk]; exact h.trans (values_erase_self _ _).symm
        · exact (h' k hk).trans (values_erase_other _ _ k hk).symm
      rfl
    | @addTransactionFlagTag _ tag tags h =>
      obtain rfl : tags = _ := Std.ExtTreeSet.ext_mem fun t => (h t).trans (tags_insert _ _ t).symm
      rfl
    | @removeTransactionFlagTag _ tag tags h =>
      obtain rfl : tags = _ := Std.ExtTreeSet.ext_mem fun t => (h t).trans (tags_erase _ _ t).symm
      rfl
    | @addTransactionValueTag _ key value values h h' =>
      obtain rfl : values = c.trn.comment.valueTags.insert key value := by
        refine Std.ExtTreeMap.ext_getElem? fun k => ?_
        by_cases hk : k = key
        · rw [hk]; exact h.trans (values_insert_self _ _ _).symm
        · exact (h' k hk).trans (values_insert_other _ _ _ k hk).symm
      rfl
    | @removeTransactionValueTag _ key values h h' =>
      obtain rfl : values = c.trn.comment.valueTags.erase key := by
        refine Std.ExtTreeMap.ext_getElem? fun k => ?_
        by_cases hk : k = key
        · rw [hk]; exact h.trans (values_erase_self _ _).symm
        · exact (h' k hk).trans (values_erase_other _ _ k hk).symm
      rfl
    | setAccount => rw [exec, Action.apply]
    | replaceTransactionDescription => rw [exec, Action.apply]
    | noop => rw [exec, Action.apply]
  | report => exact ⟨by simp, 0, fun m _ => by rw [exec, Action.apply]⟩
  | all _ ih =>
    obtain ⟨h, n, hn⟩ := ih
    exact ⟨h, n, fun m hm => by rw [← hn m hm, exec, Action.apply, exec]⟩
  | jump hc _ ih =>
    obtain ⟨h, n, hn⟩ := ih
    refine ⟨h, n + 1, fun m hm => ?_⟩
    obtain ⟨m, rfl⟩ : ∃ k, m = k + 1 := ⟨m - 1, by omega⟩
    rw [exec, Action.apply, Table.jump, Table.getChain, hc]
    exact hn m (by omega)
  | noChain hc =>
    refine ⟨by simp, 1, fun m hm => ?_⟩
    obtain ⟨m, rfl⟩ : ∃ k, m = k + 1 := ⟨m - 1, by omega⟩
    rw [exec, Action.apply, Table.jump, Table.getChain, hc]
  | actionsNil => exact ⟨by simp, 0, fun m _ => by rw [exec, Action.applyAll]⟩
  | actionsCons _ _ ih1 ih2 =>
    obtain ⟨_, n1, h1⟩ := ih1
    obtain ⟨h, n2, h2⟩ := ih2
    refine ⟨h, max n1 n2, fun m hm => ?_⟩
    rw [exec, Action.applyAll]
    have := h1 m (by omega)
    rw [exec] at this
    rw [this]
    exact h2 m (by omega)
  | actionsError _ ih1 =>
    obtain ⟨h, n1, h1⟩ := ih1
    refine ⟨h, n1, fun m hm => ?_⟩
    rw [exec, Action.applyAll]
    have := h1 m (by omega)
    rw [exec] at this
    rw [this]
  | rulesNil => exact ⟨by simp, 0, fun m _ => by rw [exec, Chain.apply]⟩
  | skip hp _ ih =>
    obtain ⟨h, n, hn⟩ := ih
    refine ⟨h, n, fun m hm => ?_⟩
    rw [← isMatch_iff] at hp
    rw [exec, Chain.apply, Rule.apply, if_neg hp]
    exact hn m hm
  | continue_ hp _ _ ih1 ih2 =>
    obtain ⟨_, n1, h1⟩ := ih1
    obtain ⟨h, n2, h2⟩ := ih2
    refine ⟨h, max n1 n2, fun m hm => ?_⟩
    rw [← isMatch_iff] at hp
    have := h1 m (by omega)
    rw [exec] at this
    rw [exec, Chain.apply, Rule.apply, if_pos hp, this]
    exact h2 m (by omega)
  | return_ hp _ ih1 =>
    obtain ⟨h, n1, h1⟩ := ih1
    refine ⟨h, n1, fun m hm => ?_⟩
    rw [← isMatch_iff] at hp
    have := h1 m (by omega)
    rw [exec] at this
    rw [exec, Chain.apply, Rule.apply, if_pos hp, this]
  | ruleError hp _ ih1 =>
    obtain ⟨h, n1, h1⟩ := ih1
    refine ⟨h, n1, fun m hm => ?_⟩
    rw [← isMatch_iff] at hp
    have := h1 m (by omega)
    rw [exec] at this
    rw [exec, Chain.apply, Rule.apply, if_pos hp, this]

theorem exec_sound {lower : Str → Str} {T : Table} (n : Nat) (j : Job) (c : Ctx)
    (h : exec lower (T.jump lower n) j c ≠ .error .diverged) : Runs lower T j c (exec lower (T.jump lower n) j c) := by
  cases j with
  | action a => exact action_sound (jump_sound n) a c h
  | actions as => exact actions_sound (jump_sound n) as c h
  | rules rs => exact rules_sound (jump_sound n) rs c h

theorem runs_functional {lower : Str → Str} {T : Table} {j : Job} {c : Ctx} {r r' : Res} (h : Runs lower T j c r)
    (h' : Runs lower T j c r') : r = r' := by
  obtain ⟨_, n, hn⟩ := runs_complete h
  obtain ⟨_, n', hn'⟩ := runs_complete h'
  rw [← hn (max n n') (by omega), hn' (max n n') (by omega)]

/-! ### Postings of a transaction -/

theorem updatePosts_sound {lower : Str → Str} {T : Table} (n : Nat) (start : List Rule) (t : TransactionInternal)
    (ps : List PostingInternal) (h : T.updatePosts lower n start t ps ≠ .error .diverged) :
    RunsPosts lower T start t ps (T.updatePosts lower n start t ps) := by
  induction ps generalizing t with
  | nil => exact .nil
  | cons p ps ih =>
    rw [Table.updatePosts] at h ⊢
    have hs := exec_sound (lower := lower) (T := T) n (.rules start) ⟨t, p⟩
    rw [exec] at hs
    cases hr : Chain.apply lower (T.jump lower n) start ⟨t, p⟩ with
    | error e =>
      rw [hr] at h hs
      exact .error (hs fun h' => h (by simpa using h'))
    | ok c =>
      rw [hr] at h hs
      have ih := ih c.trn
      simp only at h ⊢
      cases hr' : T.updatePosts lower n start c.trn ps with
      | error e =>
        rw [hr'] at h ih
        exact .later (hs (by simp)) (ih h)
      | ok r =>
        rw [hr'] at h ih
        exact .cons (hs (by simp)) (ih (by simp))

theorem updatePosts_complete {lower : Str → Str} {T : Table} {start : List Rule} {t : TransactionInternal}
    {ps : List PostingInternal} {r} (h : RunsPosts lower T start t ps r) :
    r ≠ .error .diverged ∧ ∃ n, ∀ m, n ≤ m → T.updatePosts lower m start t ps = r := by
  induction h with
  | nil => exact ⟨by simp, 0, fun m _ => rfl⟩
  | cons h1 _ ih =>
    obtain ⟨h, n2, h2⟩ := ih
    obtain ⟨_, n1, h1⟩ := runs_complete h1
    refine ⟨by simp, max n1 n2, fun m hm => ?_⟩
    have h1 := h1 m (by omega)
    rw [exec] at h1
    rw [Table.updatePosts, h1]
    simp only
    rw [h2 m (by omega)]
  | error h1 =>
    obtain ⟨h, n1, h1⟩ := runs_complete h1
    refine ⟨by simpa using h, n1, fun m hm => ?_⟩
    have h1 := h1 m (by omega)
    rw [exec] at h1
    rw [Table.updatePosts, h1]
  | later h1 _ ih =>
    obtain ⟨h, n2, h2⟩ := ih
    obtain ⟨_, n1, h1⟩ := runs_complete h1
    refine ⟨h, max n1 n2, fun m hm => ?_⟩
    have h1 := h1 m (by omega)
    rw [exec] at h1
    rw [Table.updatePosts, h1]
    simp only
    rw [h2 m (by omega)]

/-! ### Journals -/

theorem updateTransactions_ok {lower : Str → Str} {T : Table} {n : Nat} {ts ts' : List TransactionPostings} :
    T.updateTransactions lower n ts = .ok ts' ↔ List.Forall₂ (fun t t' => T.updateTransaction lower n t = .ok t') ts ts' := by
  induction ts generalizing ts' with
  | nil =>
    rw [Table.updateTransactions]
    constructor
    · intro h; cases h; exact .nil
    · intro h; cases h; rfl
  | cons t ts ih =>
    rw [Table.updateTransactions]
    constructor
    · intro h
      cases ht : T.updateTransaction lower n t with
      | error e => rw [ht] at h; cases h
      | ok t' =>
        rw [ht] at h
        simp only at h
        cases hts : T.updateTransactions lower n ts with
        | error e => rw [hts] at h; cases h
        | ok us =>
          rw [hts] at h
          cases h
          exact .cons ht (ih.1 hts)
    · intro h
      cases h with
      | cons h1 h2 => rw [h1]; simp only; rw [ih.2 h2]

theorem updateTransactions_error {lower : Str → Str} {T : Table} {n : Nat} {ts : List TransactionPostings} {e : RuleErr} :
    T.updateTransactions lower n ts = .error e ↔ ∃ pre t post us, ts = pre ++ t :: post ∧
      List.Forall₂ (fun t t' => T.updateTransaction lower n t = .ok t') pre us ∧ T.updateTransaction lower n t = .error e := by
  induction ts with
  | nil =>
    rw [Table.updateTransactions]
    constructor
    · intro h; cases h
    · rintro ⟨pre, t, post, us, h, _⟩; cases pre <;> cases h
  | cons t ts ih =>
    rw [Table.updateTransactions]
    cases ht : T.updateTransaction lower n t with
    | error e' =>
      constructor
      · intro h; cases h; exact ⟨[], t, ts, [], rfl, .nil, ht⟩
      · rintro ⟨pre, t', post, us, h, h1, h2⟩
        cases h1 with
        | nil => cases h; rw [ht] at h2; cases h2; rfl
        | cons h1 _ => cases h; rw [ht] at h1; cases h1
    | ok t' =>
      simp only
      constructor
      · intro h
        cases hts : T.updateTransactions lower n ts with
        | ok us => rw [hts] at h; cases h
        | error e' =>
          rw [hts] at h
          cases h
          obtain ⟨pre, u, post, us, rfl, h1, h2⟩ := ih.1 hts
          exact ⟨t :: pre, u, post, t' :: us, rfl, .cons ht h1, h2⟩
      · rintro ⟨pre, u, post, us, h, h1, h2⟩
        cases h1 with
        | nil => cases h; rw [ht] at h2; cases h2
        | cons _ h1 =>
          cases h
          rw [ih.2 ⟨_, u, post, _, rfl, h1, h2⟩]

end Verif
