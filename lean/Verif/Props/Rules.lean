import Verif.Proofs.Rules
import Verif.Props.Crash
import Mathlib.Logic.Relation
import Mathlib.Data.List.Chain

/-!
# C31–C36: rules
-/

namespace Verif
open Verif.Rules Spec Spec.Rules

namespace Ex

/-- A rule without conditions. -/
def always (a : Action) (r : RuleResult) : Rule := ⟨.true_, a, r⟩

/-- Rules: postings to `expenses` go through another chain, which returns in the middle, and get a tag after that; postings
to `bank` are an error. -/
def rules : Table := Std.ExtTreeMap.ofList
  [("start".toList,
    [⟨.account (.eq "expenses".toList), .all [.setAccount "seen".toList, .jumpChain "shop".toList], .continue_⟩,
     ⟨.account (.contains "ban".toList), .error "bank".toList, .continue_⟩,
     ⟨.transactionDescription (.eq "SHOP".toList), .addPostingFlagTag "s".toList, .return_⟩,
     always (.addPostingFlagTag "end".toList) .continue_]),
   ("shop".toList,
    [⟨.any [.account (.eq "seen".toList), .not .true_], .replaceTransactionDescription (fun s => s.map Char.toUpper), .return_⟩,
     always (.error "not reached".toList) .continue_])] compare

end Ex

/-! ## C31: what chains do -/

/-- C31: the rules code and the semantics of `Spec.Rules` agree. Whatever the code computes follows the semantics, and for
whatever has a result by the semantics, the code computes just that. -/
theorem C31_semantics (lower : Str → Str) (T : Table) (t : TransactionPostings) :
    (∀ fuel, T.updateTransaction lower fuel t ≠ .error .diverged → RunsTransaction lower T t (T.updateTransaction lower fuel t)) ∧
    (∀ r, RunsTransaction lower T t r →
      r ≠ .error .diverged ∧ ∃ n, ∀ fuel, n ≤ fuel → T.updateTransaction lower fuel t = r) := by
  constructor
  · intro fuel h
    rw [Table.updateTransaction, Table.getChain] at h ⊢
    cases hc : T[startChain]? with
    | none => exact .noStart hc
    | some ch =>
      rw [hc] at h
      simp only at h ⊢
      have hs := updatePosts_sound (lower := lower) (T := T) fuel ch t.trn t.posts
      cases hr : T.updatePosts lower fuel ch t.trn t.posts with
      | error e => rw [hr] at h hs; exact .error hc (hs fun h' => h (by simpa using h'))
      | ok r => rw [hr] at hs; exact .ok hc (hs (by simp))
  · intro r h
    cases h with
    | noStart hc =>
      refine ⟨by simp, 0, fun fuel _ => ?_⟩
      rw [Table.updateTransaction, Table.getChain, show T[startChain]? = none from hc]
      rfl
    | ok hc h =>
      obtain ⟨_, n, hn⟩ := updatePosts_complete h
      refine ⟨by simp, n, fun fuel hf => ?_⟩
      rw [Table.updateTransaction, Table.getChain, show T[startChain]? = some _ from hc]
      simp only
      rw [hn fuel hf]
    | error hc h =>
      obtain ⟨hne, n, hn⟩ := updatePosts_complete h
      refine ⟨by simpa using hne, n, fun fuel hf => ?_⟩
      rw [Table.updateTransaction, Table.getChain, show T[startChain]? = some _ from hc]
      simp only
      rw [hn fuel hf]

theorem runsTransaction_functional {lower : Str → Str} {T : Table} {t : TransactionPostings} {r r'}
    (h : RunsTransaction lower T t r) (h' : RunsTransaction lower T t r') : r = r' := by
  obtain ⟨_, n, hn⟩ := (C31_semantics lower T t).2 r h
  obtain ⟨_, n', hn'⟩ := (C31_semantics lower T t).2 r' h'
  rw [← hn (max n n') (by omega), hn' (max n n') (by omega)]

/-- C31, by itself: a rule whose predicate does not hold has no effect, wherever it is in a chain. -/
theorem C31_not_matching (lower : Str → Str) (jump : Str → Ctx → Res) (r : Rule) (rs : Chain) (c : Ctx)
    (h : ¬ Holds lower c r.predicate) : Chain.apply lower jump (r :: rs) c = Chain.apply lower jump rs c := by
  rw [← isMatch_iff] at h
  rw [Chain.apply, Rule.apply, if_neg h]

/-- C31, by itself: rules after a rule that matches, succeeds and returns have no effect. -/
theorem C31_after_return (lower : Str → Str) (jump : Str → Ctx → Res) (r : Rule) (rs rs' : Chain) (c : Ctx)
    (h : Holds lower c r.predicate) (hr : r.result = .return_) :
    Chain.apply lower jump (r :: rs) c = Chain.apply lower jump (r :: rs') c := by
  rw [← isMatch_iff] at h
  rw [Chain.apply, Rule.apply, Chain.apply, Rule.apply, if_pos h, hr]
  cases r.action.apply jump c <;> rfl

/-- C31, by itself: after a jump, whatever rule the other chain returned from, the calling chain goes on with its next
rule, in the changed context. -/
theorem C31_return_from_jump (lower : Str → Str) (T : Table) (fuel : Nat) (r : Rule) (rs ch : Chain) (name : Str) (c c' : Ctx)
    (h : Holds lower c r.predicate) (ha : r.action = .jumpChain name) (hr : r.result = .continue_) (hn : T[name]? = some ch)
    (hc : Chain.apply lower (T.jump lower fuel) ch c = .ok c') :
    Chain.apply lower (T.jump lower (fuel + 1)) (r :: rs) c = Chain.apply lower (T.jump lower (fuel + 1)) rs c' := by
  rw [← isMatch_iff] at h
  rw [Chain.apply, Rule.apply, if_pos h, ha, hr, Action.apply, Table.jump, Table.getChain, hn]
  simp only [hc]

set_option maxRecDepth 100000 in
/-- The posting to `expenses` jumps, returns and goes on; then the description is `SHOP`, so that the third rule returns for
both postings. -/
example : Ex.rules.updateTransaction id 3 (Ex.trn 1 "shop" [Ex.post "expenses" 5 [], Ex.post "cash" (-5) []]) =
    .ok (Ex.trn 1 "SHOP" [Ex.post "seen" 5 ["s"], Ex.post "cash" (-5) ["s"]]) := by decide +kernel

set_option maxRecDepth 100000 in
/-- The order of postings matters: the first one still saw the old description. -/
example : Ex.rules.updateTransaction id 3 (Ex.trn 1 "shop" [Ex.post "cash" (-5) [], Ex.post "expenses" 5 []]) =
    .ok (Ex.trn 1 "SHOP" [Ex.post "cash" (-5) ["end"], Ex.post "seen" 5 ["s"]]) := by decide +kernel

/-! ## C32: missing chains -/

/-- Every jump that is not inside an `All` goes to a chain that exists, and so does the start: what `validate` checks. -/
theorem validate_ok {T : Table} {order : List (Str × Chain) → List (Str × Chain)} (ho : ∀ l, (order l).Perm l) :
    T.validate order = .ok () ↔ startChain ∈ T ∧
      ∀ (name : Str) (ch : Chain), T[name]? = some ch → ∀ r ∈ ch, ∀ dest, r.action = .jumpChain dest → dest ∈ T := by
  have hchain : ∀ ch : Chain, ch.validate T = .ok () ↔ ∀ r ∈ ch, ∀ dest, r.action = .jumpChain dest → dest ∈ T := by
    intro ch
    induction ch with
    | nil => simp [Chain.validate]
    | cons r rs ih =>
      rw [Chain.validate, List.forall_mem_cons, ← ih]
      have ha : r.action.validate T = .ok () ↔ ∀ dest, r.action = .jumpChain dest → dest ∈ T := by
        cases r.action <;> simp only [Action.validate, reduceCtorEq, false_implies, implies_true, Action.jumpChain.injEq,
          forall_eq']
        rename_i name
        rw [Table.getChain, Std.ExtTreeMap.mem_iff_isSome_getElem?]
        cases T[name]? <;> simp [Except.map]
      rw [← ha]
      cases r.action.validate T <;> simp
  have hchains : ∀ chs, T.validateChains chs = .ok () ↔ ∀ ch ∈ chs, ∀ r ∈ ch, ∀ dest, r.action = .jumpChain dest → dest ∈ T := by
    intro chs
    induction chs with
    | nil => simp [Table.validateChains]
    | cons ch chs ih =>
      rw [Table.validateChains, List.forall_mem_cons, ← ih, ← hchain]
      cases ch.validate T <;> simp
  rw [Table.validate, Table.getChain, Std.ExtTreeMap.mem_iff_isSome_getElem?]
  cases T[startChain]? with
  | none => simp
  | some ch =>
    simp only [Option.isSome_some, true_and]
    rw [hchains]
    constructor
    · intro h name ch hch
      exact h ch (List.mem_map.2 ⟨(name, ch), (ho _).mem_iff.2 (Std.ExtTreeMap.mem_toList_iff_getElem?_eq_some.2 hch), rfl⟩)
    · intro h ch hch
      obtain ⟨⟨name, ch⟩, hm, rfl⟩ := List.mem_map.1 hch
      exact h name ch (Std.ExtTreeMap.mem_toList_iff_getElem?_eq_some.1 ((ho _).mem_iff.1 hm))

/-- A table that jumps to a missing chain inside an `All`. -/
def Ex.hidden : Table := Std.ExtTreeMap.ofList [("start".toList, [Ex.always (.all [.jumpChain "gone".toList]) .continue_])] compare

set_option maxRecDepth 100000 in
/-- C32 is false: validation does not look inside `All`. -/
theorem C32_counterexample : ¬ ∀ (T : Table), T.validate id = .ok () →
    ∀ lower fuel t name, T.updateTransaction lower fuel t ≠ .error (.chainNotFound name) := by
  intro h
  exact h Ex.hidden (by decide +kernel) id 1 (Ex.trn 1 "shop" [Ex.post "expenses" 5 []]) "gone".toList (by decide +kernel)

/-- The chains that a job may jump to. -/
def jobJumps (name : Str) : Job → Prop
  | .action a => Jumps a name
  | .actions as => ∃ a ∈ as, Jumps a name
  | .rules rs => ∃ r ∈ rs, Jumps r.action name

theorem runs_missing {lower : Str → Str} {T : Table} {j : Job} {c : Ctx} {r : Res} (h : Runs lower T j c r) :
    ∀ name, r = .error (.chainNotFound name) → name ∉ T ∧
      (jobJumps name j ∨ ∃ from_, JumpsTo T from_ name) := by
  induction h with
  | change => intro _ h; cases h
  | report => intro _ h; cases h
  | all _ ih =>
    intro name h
    obtain ⟨h0, ⟨a, ha, h1⟩ | h1⟩ := ih name h
    · exact ⟨h0, .inl (.inside ha h1)⟩
    · exact ⟨h0, .inr h1⟩
  | @jump n ch _ _ hc _ ih =>
    intro name h
    obtain ⟨h0, ⟨r, hr, h1⟩ | h1⟩ := ih name h
    · exact ⟨h0, .inr ⟨n, ch, hc, r, hr, h1⟩⟩
    · exact ⟨h0, .inr h1⟩
  | @noChain n _ hc =>
    intro name h
    cases h
    refine ⟨?_, .inl .here⟩
    rw [Std.ExtTreeMap.mem_iff_isSome_getElem?, hc]; simp
  | actionsNil => intro _ h; cases h
  | actionsCons _ _ _ ih =>
    intro name h
    obtain ⟨h0, ⟨a, ha, h1⟩ | h1⟩ := ih name h
    · exact ⟨h0, .inl ⟨a, List.mem_cons_of_mem _ ha, h1⟩⟩
    · exact ⟨h0, .inr h1⟩
  | actionsError _ ih =>
    intro name h
    obtain ⟨h0, h1 | h1⟩ := ih name (by simpa using h)
    · exact ⟨h0, .inl ⟨_, List.mem_cons_self, h1⟩⟩
    · exact ⟨h0, .inr h1⟩
  | rulesNil => intro _ h; cases h
  | skip _ _ ih =>
    intro name h
    obtain ⟨h0, ⟨a, ha, h1⟩ | h1⟩ := ih name h
    · exact ⟨h0, .inl ⟨a, List.mem_cons_of_mem _ ha, h1⟩⟩
    · exact ⟨h0, .inr h1⟩
  | continue_ _ _ _ _ ih =>
    intro name h
    obtain ⟨h0, ⟨a, ha, h1⟩ | h1⟩ := ih name h
    · exact ⟨h0, .inl ⟨a, List.mem_cons_of_mem _ ha, h1⟩⟩
    · exact ⟨h0, .inr h1⟩
  | return_ => intro _ h; cases h
  | ruleError _ _ ih =>
    intro name h
    obtain ⟨h0, h1 | h1⟩ := ih name (by simpa using h)
    · exact ⟨h0, .inl ⟨_, List.mem_cons_self, h1⟩⟩
    · exact ⟨h0, .inr h1⟩

theorem runsPosts_error {lower : Str → Str} {T : Table} {start : List Rule} {t : TransactionInternal}
    {ps : List PostingInternal} {r} (h : RunsPosts lower T start t ps r) :
    ∀ e, r = .error e → ∃ c, Runs lower T (.rules start) c (.error e) := by
  induction h with
  | nil => intro _ h; cases h
  | cons => intro _ h; cases h
  | error h => intro e h'; cases h'; exact ⟨_, h⟩
  | later _ _ ih => exact ih

/-- What is true of C32 (the full claim is that there is no such error; missing: jumps inside `All`): if a validated table
fails because a chain is missing, then some rule in the table jumps to that chain from inside an `All`. -/
theorem C32_partial (lower : Str → Str) (T : Table) (order : List (Str × Chain) → List (Str × Chain))
    (ho : ∀ l, (order l).Perm l) (hv : T.validate order = .ok ()) (fuel : Nat) (ts : List TransactionPostings) (name : Str)
    (h : T.updateTransactions lower fuel ts = .error (.chainNotFound name)) :
    ∃ (from_ : Str) (ch : Chain), ∃ r : Rule, ∃ as a, T[from_]? = some ch ∧ r ∈ ch ∧ r.action = .all as ∧ a ∈ as ∧ Jumps a name := by
  rw [validate_ok ho] at hv
  obtain ⟨hs, hv⟩ := hv
  obtain ⟨_, t, _, _, _, _, h⟩ := updateTransactions_error.1 h
  have hr := (C31_semantics lower T t).1 fuel (by rw [h]; simp)
  rw [h] at hr
  obtain ⟨ch, c, hch, hr⟩ : ∃ ch c, T[startChain]? = some ch ∧ Runs lower T (.rules ch) c (.error (.chainNotFound name)) := by
    cases hr with
    | noStart hc =>
      rw [Std.ExtTreeMap.mem_iff_isSome_getElem?, show T[startChain]? = none from hc] at hs
      cases hs
    | error hc h =>
      obtain ⟨c, h⟩ := runsPosts_error h _ rfl
      exact ⟨_, c, hc, h⟩
  obtain ⟨h0, h1⟩ := runs_missing hr name rfl
  obtain ⟨from_, ch, hch, r, hr, hj⟩ : ∃ from_, JumpsTo T from_ name := by
    rcases h1 with ⟨r, hr, h1⟩ | h1
    · exact ⟨startChain, ch, hch, r, hr, h1⟩
    · exact h1
  generalize hact : r.action = act at hj
  cases hj with
  | here => exact absurd (hv from_ ch hch r hr name hact) h0
  | @inside as a _ ha hj => exact ⟨from_, ch, r, as, a, hch, hr, hact, ha, hj⟩

set_option maxRecDepth 100000 in
/-- A table that passes validation and jumps, also inside `All`. -/
example : Ex.rules.validate id = .ok () ∧ Ex.rules.validate List.reverse = .ok () ∧
    Ex.hidden.updateTransactions id 1 [Ex.trn 1 "shop" [Ex.post "expenses" 5 []]] = .error (.chainNotFound "gone".toList) := by
  decide +kernel

/-! ## C33: termination -/

/-- Two chains that jump to each other. -/
def Ex.cyclic : Table := Std.ExtTreeMap.ofList
  [("start".toList, [Ex.always (.jumpChain "again".toList) .continue_]),
   ("again".toList, [Ex.always (.jumpChain "start".toList) .continue_])] compare

set_option maxRecDepth 100000 in
theorem Ex.cyclic_chains : Ex.cyclic["start".toList]? = some [Ex.always (.jumpChain "again".toList) .continue_] ∧
    Ex.cyclic["again".toList]? = some [Ex.always (.jumpChain "start".toList) .continue_] := by
  constructor
  · rw [Ex.cyclic, Std.ExtTreeMap.getElem?_ofList_of_mem (k := "start".toList) (Std.LawfulEqOrd.compare_eq_iff_eq.2 rfl)
      (v := [Ex.always (.jumpChain "again".toList) .continue_]) (by decide +kernel) (by simp)]
  · rw [Ex.cyclic, Std.ExtTreeMap.getElem?_ofList_of_mem (k := "again".toList) (Std.LawfulEqOrd.compare_eq_iff_eq.2 rfl)
      (v := [Ex.always (.jumpChain "start".toList) .continue_]) (by decide +kernel) (by simp)]

theorem Ex.cyclic_diverges (lower : Str → Str) (n : Nat) (c : Ctx) :
    Ex.cyclic.jump lower n "start".toList c = .error .diverged ∧ Ex.cyclic.jump lower n "again".toList c = .error .diverged := by
  induction n generalizing c with
  | zero => exact ⟨rfl, rfl⟩
  | succ n ih =>
    constructor
    · rw [Table.jump, Table.getChain, Ex.cyclic_chains.1]
      simp only [Chain.apply, Rule.apply, Ex.always, Predicate.isMatch, if_true, Action.apply, (ih c).2]
    · rw [Table.jump, Table.getChain, Ex.cyclic_chains.2]
      simp only [Chain.apply, Rule.apply, Ex.always, Predicate.isMatch, if_true, Action.apply, (ih c).1]

set_option maxRecDepth 100000 in
/-- C33 is false: chains may jump to each other. The table passes validation, and applying it has no result. -/
theorem C33_counterexample : ¬ ∀ (T : Table), T.validate id = .ok () →
    ∀ lower t, ∃ r, RunsTransaction lower T t r := by
  intro h
  obtain ⟨r, hr⟩ := h Ex.cyclic (by decide +kernel) id (Ex.trn 1 "shop" [Ex.post "expenses" 5 []])
  obtain ⟨hne, n, hn⟩ := (C31_semantics _ _ _).2 r hr
  have := hn n (Nat.le_refl _)
  rw [← this] at hne
  apply hne
  rw [Table.updateTransaction, Table.getChain, show startChain = "start".toList from rfl, Ex.cyclic_chains.1]
  simp only [Ex.trn, Table.updatePosts, Chain.apply, Rule.apply, Ex.always, Predicate.isMatch, if_true,
    Action.apply, (Ex.cyclic_diverges id n _).2]

mutual
theorem action_diverged {J : Str → Ctx → Res} (a : Action) (c : Ctx) (h : a.apply J c = .error .diverged) :
    ∃ name c', Jumps a name ∧ J name c' = .error .diverged := by
  cases a with
  | all as =>
    rw [Action.apply] at h
    obtain ⟨a, ha, name, c', hj, h⟩ := actions_diverged as c h
    exact ⟨name, c', .inside ha hj, h⟩
  | jumpChain name => exact ⟨name, c, .here, h⟩
  | _ => rw [Action.apply] at h; cases h
theorem actions_diverged {J : Str → Ctx → Res} (as : List Action) (c : Ctx) (h : Action.applyAll J as c = .error .diverged) :
    ∃ a ∈ as, ∃ name c', Jumps a name ∧ J name c' = .error .diverged := by
  cases as with
  | nil => rw [Action.applyAll] at h; cases h
  | cons a as =>
    rw [Action.applyAll] at h
    have ha := action_diverged (J := J) a c
    cases hr : a.apply J c with
    | error e =>
      rw [hr] at h ha
      cases h
      exact ⟨a, by simp, ha rfl⟩
    | ok c' =>
      rw [hr] at h
      obtain ⟨a', ha', h⟩ := actions_diverged as c' h
      exact ⟨a', List.mem_cons_of_mem _ ha', h⟩
end

theorem rules_diverged {lower : Str → Str} {J : Str → Ctx → Res} (rs : Chain) (c : Ctx)
    (h : Chain.apply lower J rs c = .error .diverged) :
    ∃ r ∈ rs, ∃ name c', Jumps r.action name ∧ J name c' = .error .diverged := by
  induction rs generalizing c with
  | nil => cases h
  | cons r rs ih =>
    rw [Chain.apply, Rule.apply] at h
    by_cases hp : r.predicate.isMatch lower c = true
    · rw [if_pos hp] at h
      cases ha : r.action.apply J c with
      | error e =>
        rw [ha] at h
        cases h
        exact ⟨r, by simp, action_diverged _ _ ha⟩
      | ok c' =>
        rw [ha] at h
        cases hres : r.result with
        | return_ => rw [hres] at h; cases h
        | continue_ =>
          rw [hres] at h
          obtain ⟨r', hr', h⟩ := ih c' h
          exact ⟨r', List.mem_cons_of_mem _ hr', h⟩
    · rw [if_neg hp] at h
      obtain ⟨r', hr', h⟩ := ih c h
      exact ⟨r', List.mem_cons_of_mem _ hr', h⟩

/-- If the fuel runs out then there is a path of that many jumps. -/
theorem jump_diverged {lower : Str → Str} {T : Table} (n : Nat) (name : Str) (c : Ctx)
    (h : T.jump lower n name c = .error .diverged) :
    ∃ path : List Str, path.length = n ∧ (name :: path).IsChain (JumpsTo T) := by
  induction n generalizing name c with
  | zero => exact ⟨[], rfl, by simp⟩
  | succ n ih =>
    rw [Table.jump, Table.getChain] at h
    cases hc : T[name]? with
    | none => rw [hc] at h; cases h
    | some ch =>
      rw [hc] at h
      obtain ⟨r, hr, next, c', hj, h⟩ := rules_diverged ch c h
      obtain ⟨path, hl, hp⟩ := ih next c' h
      exact ⟨next :: path, by simp [hl], List.isChain_cons_cons.2 ⟨⟨ch, hc, r, hr, hj⟩, hp⟩⟩

theorem transGen_of_isChain {R : Str → Str → Prop} {l : List Str} (h : l.IsChain R) : l.Pairwise (Relation.TransGen R) := by
  have : l.IsChain (Relation.TransGen R) := h.imp fun _ _ => Relation.TransGen.single
  exact List.isChain_iff_pairwise.1 this

/-- A long path of jumps in a table has a cycle. -/
theorem cycle_of_path {T : Table} {name : Str} {path : List Str} (h : (name :: path).IsChain (JumpsTo T))
    (hl : T.size < path.length) : ∃ x, Relation.ReflTransGen (JumpsTo T) name x ∧ Relation.TransGen (JumpsTo T) x x := by
  have hp := transGen_of_isChain h
  have hkeys : ∀ x ∈ (name :: path).dropLast, x ∈ T.keys := by
    clear hp hl
    induction path generalizing name with
    | nil => simp
    | cons y ys ih =>
      rw [List.isChain_cons_cons] at h
      intro x hx
      rw [List.dropLast_cons_cons, List.mem_cons] at hx
      rcases hx with rfl | hx
      · obtain ⟨ch, hc, _⟩ := h.1
        rw [Std.ExtTreeMap.mem_keys, Std.ExtTreeMap.mem_iff_isSome_getElem?, hc]; rfl
      · exact ih h.2 x hx
  have hnd : ¬ ((name :: path).dropLast).Nodup := by
    intro hnd
    have := hnd.length_le_of_subset hkeys
    rw [List.length_dropLast, List.length_cons, Std.ExtTreeMap.length_keys] at this
    omega
  rw [List.Nodup, List.pairwise_iff_getElem] at hnd
  simp only [not_forall] at hnd
  obtain ⟨i, j, hi, hj, hij, he⟩ := hnd
  simp only [ne_eq, not_not] at he
  rw [List.getElem_dropLast, List.getElem_dropLast] at he
  have hi' : i < (name :: path).length := by simp at hi ⊢; omega
  have hj' : j < (name :: path).length := by simp at hj ⊢; omega
  have hcyc := List.pairwise_iff_getElem.1 hp i j hi' hj' hij
  rw [← he] at hcyc
  refine ⟨(name :: path)[i], ?_, hcyc⟩
  rcases Nat.eq_zero_or_pos i with rfl | h0
  · exact .refl
  · exact (List.pairwise_iff_getElem.1 hp 0 i (by simp) hi' h0).to_reflTransGen

theorem updateTransaction_diverged {lower : Str → Str} {T : Table} {fuel : Nat} {t : TransactionPostings}
    (h : T.updateTransaction lower (fuel + 1) t = .error .diverged) :
    ∃ path : List Str, path.length = fuel + 1 ∧ (startChain :: path).IsChain (JumpsTo T) := by
  rw [Table.updateTransaction, Table.getChain] at h
  cases hc : T[startChain]? with
  | none => rw [hc] at h; cases h
  | some ch =>
    rw [hc] at h
    simp only at h
    have key : ∀ ps trn, T.updatePosts lower (fuel + 1) ch trn ps = .error .diverged →
        ∃ c, Chain.apply lower (T.jump lower (fuel + 1)) ch c = .error .diverged := by
      intro ps
      induction ps with
      | nil => intro trn h; cases h
      | cons p ps ih =>
        intro trn h
        rw [Table.updatePosts] at h
        cases hr : Chain.apply lower (T.jump lower (fuel + 1)) ch ⟨trn, p⟩ with
        | error e => rw [hr] at h; cases h; exact ⟨_, hr⟩
        | ok c =>
          rw [hr] at h
          simp only at h
          cases hr' : T.updatePosts lower (fuel + 1) ch c.trn ps with
          | error e => rw [hr'] at h; cases h; exact ih _ hr'
          | ok r => rw [hr'] at h; cases h
    obtain ⟨c, hd⟩ : ∃ c, Chain.apply lower (T.jump lower (fuel + 1)) ch c = .error .diverged := by
      cases hr : T.updatePosts lower (fuel + 1) ch t.trn t.posts with
      | error e => rw [hr] at h; cases h; exact key _ _ hr
      | ok r => rw [hr] at h; cases h
    obtain ⟨r, hr, next, c', hj, hd⟩ := rules_diverged ch c hd
    obtain ⟨path, hl, hp⟩ := jump_diverged _ next c' hd
    refine ⟨(next :: path).dropLast, by simp [hl], ?_⟩
    have : (startChain :: next :: path).IsChain (JumpsTo T) := List.isChain_cons_cons.2 ⟨⟨ch, hc, r, hr, hj⟩, hp⟩
    have h2 : (startChain :: (next :: path).dropLast) <+: (startChain :: next :: path) := by
      rw [List.prefix_cons_inj]; exact List.dropLast_prefix _
    exact this.prefix h2

/-- What is true of C33 (the full claim has no hypothesis; missing: tables with cyclic jumps): if no chain that can be
reached from the start can jump back to itself, through any number of other chains, then applying the table to any
transaction ends. Jumps nested as deep as there are chains are enough. -/
theorem C33_partial (lower : Str → Str) (T : Table)
    (h : ∀ name, Relation.ReflTransGen (JumpsTo T) "start".toList name → ¬ Relation.TransGen (JumpsTo T) name name)
    (t : TransactionPostings) :
    (∃ r, RunsTransaction lower T t r) ∧ ∀ fuel, T.size < fuel → T.updateTransaction lower fuel t ≠ .error .diverged := by
  have key : ∀ fuel, T.size < fuel → T.updateTransaction lower fuel t ≠ .error .diverged := by
    intro fuel hf hd
    obtain ⟨fuel, rfl⟩ : ∃ k, fuel = k + 1 := ⟨fuel - 1, by omega⟩
    obtain ⟨path, hl, hp⟩ := updateTransaction_diverged hd
    obtain ⟨x, hx, hc⟩ := cycle_of_path hp (by omega)
    exact h x hx hc
  exact ⟨⟨_, (C31_semantics lower T t).1 (T.size + 1) (key _ (by omega))⟩, key⟩

set_option maxRecDepth 100000 in
/-- The rules above have jumps, but no cycle. -/
example : (∃ a b, JumpsTo Ex.rules a b) ∧
    ∀ name, Relation.ReflTransGen (JumpsTo Ex.rules) "start".toList name → ¬ Relation.TransGen (JumpsTo Ex.rules) name name := by
  have h1 : Ex.rules["start".toList]? = some _ := Std.ExtTreeMap.getElem?_ofList_of_mem (k := "start".toList)
    (Std.LawfulEqOrd.compare_eq_iff_eq.2 rfl) (by decide +kernel) List.mem_cons_self
  have h2 : Ex.rules["shop".toList]? = some _ := Std.ExtTreeMap.getElem?_ofList_of_mem (k := "shop".toList)
    (Std.LawfulEqOrd.compare_eq_iff_eq.2 rfl) (by decide +kernel) (List.mem_cons_of_mem _ List.mem_cons_self)
  have hj : ∀ a b, JumpsTo Ex.rules a b → a = "start".toList ∧ b = "shop".toList := by
    rintro a b ⟨ch, hc, r, hr, hj⟩
    have ha : a ∈ Ex.rules := by rw [Std.ExtTreeMap.mem_iff_isSome_getElem?, hc]; rfl
    have ha : a = "start".toList ∨ a = "shop".toList := by
      have := Std.ExtTreeMap.mem_ofList.1 ha
      simpa only [List.map_cons, List.map_nil, List.contains_cons, List.contains_nil, Bool.or_false, Bool.or_eq_true, beq_iff_eq] using this
    rcases ha with rfl | rfl
    · rw [h1] at hc
      cases hc
      simp only [List.mem_cons, List.not_mem_nil, or_false] at hr
      rcases hr with rfl | rfl | rfl | rfl
      · cases hj with
        | inside h hj =>
          simp only [List.mem_cons, List.not_mem_nil, or_false] at h
          rcases h with rfl | rfl
          · cases hj
          · cases hj; exact ⟨rfl, rfl⟩
      · cases hj
      · cases hj
      · cases hj
    · rw [h2] at hc
      cases hc
      simp only [List.mem_cons, List.not_mem_nil, or_false] at hr
      rcases hr with rfl | rfl <;> cases hj
  refine ⟨⟨_, _, _, h1, _, List.mem_cons_self, .inside (List.mem_cons_of_mem _ List.mem_cons_self) .here⟩, ?_⟩
  intro name _ hc
  have : ∀ a b, Relation.TransGen (JumpsTo Ex.rules) a b → a = "start".toList ∧ b = "shop".toList := by
    intro a b h
    induction h with
    | single h => exact hj _ _ h
    | tail _ h ih => exact ⟨ih.1, (hj _ _ h).2⟩
  have := this _ _ hc
  exact absurd (this.1.symm.trans this.2) (by decide +kernel)

/-! ## C34: what rules cannot change -/

theorem Spec.Rules.SamePosting.refl (p : PostingInternal) : SamePosting p p := ⟨rfl, rfl, rfl, rfl, rfl, rfl⟩
theorem Spec.Rules.SameHeader.refl (t : TransactionInternal) : SameHeader t t := ⟨rfl, rfl, rfl, rfl, rfl, rfl, rfl⟩

theorem Spec.Rules.SamePosting.trans {p q r : PostingInternal} (h : SamePosting p q) (h' : SamePosting q r) : SamePosting p r :=
  ⟨h'.1.trans h.1, h'.2.trans h.2, h'.3.trans h.3, h'.4.trans h.4, h'.5.trans h.5, h'.6.trans h.6⟩
theorem Spec.Rules.SameHeader.trans {p q r : TransactionInternal} (h : SameHeader p q) (h' : SameHeader q r) : SameHeader p r :=
  ⟨h'.1.trans h.1, h'.2.trans h.2, h'.3.trans h.3, h'.4.trans h.4, h'.5.trans h.5, h'.6.trans h.6, h'.7.trans h.7⟩

theorem changes_same {a : Action} {c c' : Ctx} (h : Changes a c c') : SameHeader c.trn c'.trn ∧ SamePosting c.post c'.post := by
  cases h <;> exact ⟨⟨rfl, rfl, rfl, rfl, rfl, rfl, rfl⟩, ⟨rfl, rfl, rfl, rfl, rfl, rfl⟩⟩

theorem runs_same {lower : Str → Str} {T : Table} {j : Job} {c : Ctx} {r : Res} (h : Runs lower T j c r) :
    ∀ c', r = .ok c' → SameHeader c.trn c'.trn ∧ SamePosting c.post c'.post := by
  induction h with
  | change h => intro c' he; cases he; exact changes_same h
  | report => intro _ h; cases h
  | all _ ih => exact ih
  | jump _ _ ih => exact ih
  | noChain => intro _ h; cases h
  | actionsNil => intro _ h; cases h; exact ⟨.refl _, .refl _⟩
  | actionsCons _ _ ih1 ih2 =>
    intro c' h
    exact ⟨(ih1 _ rfl).1.trans (ih2 _ h).1, (ih1 _ rfl).2.trans (ih2 _ h).2⟩
  | actionsError => intro _ h; cases h
  | rulesNil => intro _ h; cases h; exact ⟨.refl _, .refl _⟩
  | skip _ _ ih => exact ih
  | continue_ _ _ _ ih1 ih2 =>
    intro c' h
    exact ⟨(ih1 _ rfl).1.trans (ih2 _ h).1, (ih1 _ rfl).2.trans (ih2 _ h).2⟩
  | return_ _ _ ih => exact ih
  | ruleError => intro _ h; cases h

theorem runsPosts_same {lower : Str → Str} {T : Table} {start : List Rule} {t : TransactionInternal}
    {ps : List PostingInternal} {r} (h : RunsPosts lower T start t ps r) :
    ∀ t' ps', r = .ok (t', ps') → SameHeader t t' ∧ List.Forall₂ SamePosting ps ps' := by
  induction h with
  | nil => intro _ _ h; cases h; exact ⟨.refl _, .nil⟩
  | cons h1 _ ih =>
    intro t' ps' h
    cases h
    have h1 := runs_same h1 _ rfl
    have h2 := ih _ _ rfl
    exact ⟨h1.1.trans h2.1, .cons h1.2 h2.2⟩
  | error => intro _ _ h; cases h
  | later => intro _ _ h; cases h

/-- C34: after applying rules there are the same transactions in the same order, each with the same postings in the
same order. Each keeps everything but description, account and tags. -/
theorem C34_unchanged (lower : Str → Str) (T : Table) (fuel : Nat) (ts ts' : List TransactionPostings)
    (h : T.updateTransactions lower fuel ts = .ok ts') :
    List.Forall₂ (fun t t' => SameHeader t.trn t'.trn ∧ List.Forall₂ SamePosting t.posts t'.posts) ts ts' := by
  rw [updateTransactions_ok] at h
  refine h.imp fun t t' ht => ?_
  have hr := (C31_semantics lower T t).1 fuel (by rw [ht]; simp)
  rw [ht] at hr
  cases hr with
  | ok _ h => exact runsPosts_same h _ _ rfl

set_option maxRecDepth 100000 in
example : ∃ ts', Ex.rules.updateTransactions id 3 [Ex.trn 1 "shop" [Ex.post "expenses" 5 [], Ex.post "cash" (-5) []]] = .ok ts' :=
  ⟨[Ex.trn 1 "SHOP" [Ex.post "seen" 5 ["s"], Ex.post "cash" (-5) ["s"]]], by decide +kernel⟩

/-! ## C35: an error aborts the run -/

theorem applyRules_sat (sys : Sys) (h : HashOrder) (lower : Str → Str) (fuel : Nat) (table : Option Table)
    (input output : FileSpec) :
    Sat (applyRules sys h lower fuel table input output) World.start
      (fun _ w => ∃ T L ts ts', table = some T ∧ ledgerAt sys sys.start false input = some L ∧
        TransactionPostings.fromLedger L = some ts ∧ T.updateTransactions lower fuel ts = .ok ts' ∧
        w.log = wholeWrite sys output (sys.render (TransactionPostings.intoLedger h ts')))
      (fun e w => (w.log = [] ∧ e.isWrite = false) ∨ (e.isWrite = true ∧
        ∃ T L ts ts' n, table = some T ∧ ledgerAt sys sys.start false input = some L ∧
        TransactionPostings.fromLedger L = some ts ∧ T.updateTransactions lower fuel ts = .ok ts' ∧
        w.log = (wholeWrite sys output (sys.render (TransactionPostings.intoLedger h ts'))).take n)) := by
  unfold applyRules
  apply Sat.bind
  apply Sat.ofOption
  · intro T hT
    apply Sat.bind
    refine (readLedgerFile_sat sys input _).imp ?_ ?_
    · rintro L w ⟨h1, _, _, h2⟩
      have h1 : w.log = [] := h1
      apply Sat.bind
      apply Sat.ofOption
      · intro ts hts
        cases hu : T.updateTransactions lower fuel ts with
        | error e =>
          apply Sat.fail
          exact .inl ⟨h1, rfl⟩
        | ok ts' =>
          refine (writeFile_sat sys output _ w).imp ?_ ?_
          · rintro _ w' ⟨h3, _⟩
            exact ⟨T, L, ts, ts', hT, h2, hts, hu, by rw [h3, h1, List.nil_append]⟩
          · rintro e w' ⟨⟨n, h3, h4⟩, _⟩
            refine .inr ⟨by rcases h4 with ⟨rfl, _⟩ | rfl <;> rfl, T, L, ts, ts', n, hT, h2, hts, hu, by rw [h3, h1, List.nil_append]⟩
      · intro _
        exact .inl ⟨h1, rfl⟩
    · rintro e w ⟨h1, h2, _⟩
      exact .inl ⟨h1, h2⟩
  · intro _
    exact .inl ⟨rfl, rfl⟩

/-- C35: if applying the rules to one of the transactions ends in an error, the whole run produces no journal, whatever the
other transactions are. -/
theorem C35_no_journal (lower : Str → Str) (T : Table) (fuel : Nat) (ts : List TransactionPostings) (t : TransactionPostings)
    (e : RuleErr) (ht : t ∈ ts) (he : RunsTransaction lower T t (.error e)) :
    ∃ e', T.updateTransactions lower fuel ts = .error e' := by
  cases h : T.updateTransactions lower fuel ts with
  | error e' => exact ⟨e', rfl⟩
  | ok ts' =>
    obtain ⟨t', _, h'⟩ := forall₂_mem_left (updateTransactions_ok.1 h) ht
    have hr := (C31_semantics lower T t).1 fuel (by rw [h']; simp)
    rw [h'] at hr
    have := runsTransaction_functional he hr
    cases this

/-- C35: if, in one of the transactions, the rules report an error for some posting — in the state that the rules for
earlier postings leave the transaction in — then that is an error for the transaction. -/
theorem C35_posting (lower : Str → Str) (T : Table) (ch : Chain) (t : TransactionPostings) (before after : List PostingInternal)
    (p : PostingInternal) (trn : TransactionInternal) (done : List PostingInternal) (e : RuleErr)
    (hs : T["start".toList]? = some ch) (hp : t.posts = before ++ p :: after)
    (hb : RunsPosts lower T ch t.trn before (.ok (trn, done))) (he : Runs lower T (.rules ch) ⟨trn, p⟩ (.error e)) :
    RunsTransaction lower T t (.error e) := by
  refine .error hs ?_
  rw [hp]
  generalize t.trn = t0 at hb
  clear hp
  induction before generalizing t0 done with
  | nil => cases hb; exact .error he
  | cons q qs ih =>
    cases hb with
    | cons h1 h2 => exact .later h1 (ih _ _ h2)

/-- C35 for the command: if the journal has a transaction for which the rules end in an error, `apply-rules` fails and writes
nothing at all. -/
theorem C35_writes_nothing (sys : Sys) (h : HashOrder) (lower : Str → Str) (fuel : Nat) (T : Table) (input output : FileSpec)
    (L : Ledger) (ts : List TransactionPostings) (t : TransactionPostings) (e : RuleErr)
    (hL : ledgerAt sys sys.start false input = some L) (hts : TransactionPostings.fromLedger L = some ts) (ht : t ∈ ts)
    (he : RunsTransaction lower T t (.error e)) :
    (∃ e', (applyRules sys h lower fuel (some T) input output World.start).1 = .error e') ∧
    (applyRules sys h lower fuel (some T) input output World.start).2.log = [] := by
  obtain ⟨e', hu⟩ := C35_no_journal lower T fuel ts t e ht he
  have hs := applyRules_sat sys h lower fuel (some T) input output
  rcases hr : applyRules sys h lower fuel (some T) input output World.start with ⟨e'' | ⟨⟩, w⟩
  · refine ⟨⟨e'', rfl⟩, ?_⟩
    rcases hs.err hr with ⟨h1, _⟩ | ⟨_, T', L', ts', us, n, hT, hL', hts', hu', _⟩
    · exact h1
    · cases hT
      rw [hL] at hL'; cases hL'
      rw [hts] at hts'; cases hts'
      rw [hu] at hu'; cases hu'
  · obtain ⟨T', L', ts', us, hT, hL', hts', hu', _⟩ := hs.ok hr
    cases hT
    rw [hL] at hL'; cases hL'
    rw [hts] at hts'; cases hts'
    rw [hu] at hu'; cases hu'

set_option maxRecDepth 100000 in
/-- The second transaction of file `a` has a posting to `bank`; the first one is fine. -/
example : Ex.rules.updateTransactions id 3 [(Ex.letterTrn 'a').getD default] =
      .ok [Ex.trn 2 "SHOP" [Ex.post "assets:a" (-500) ["fp-a1", "end"], Ex.post "seen" 500 ["fp-a2", "unknown-account", "s"]]] ∧
    Ex.rules.updateTransaction id 3 ((Ex.letterTrn 'n').getD default) = .error (.reported "bank".toList) ∧
    (applyRules (Ex.system "an" "" (fun _ => none)) HashOrder.sorted id 3 (some Ex.rules) (Ex.file "a") (Ex.file "b") World.start).2.log = [] := by
  decide +kernel

/-! ## C36: predicates -/

/-- C36: the code decides the meaning of predicates as given in `Spec.Rules`. It returns a truth value and nothing else. -/
theorem C36_meaning (lower : Str → Str) (c : Ctx) (p : Predicate) : p.isMatch lower c = true ↔ Holds lower c p :=
  isMatch_iff lower c p

set_option maxRecDepth 100000 in
/-- A predicate of each kind, on a posting with tags. -/
example : (Predicate.all [.any [.account (.contains "pens".toList), .true_], .not (.postingHasFlagTag "x".toList),
      .postingFlagTag (.asLower (.eq "b".toList)), .not (.postingHasValueTag "k".toList),
      .not (.postingValueTag "k".toList (.eq [])), .transactionDescription (.matches_ (fun s => s.length == 4))]).isMatch
      (fun s => s.map Char.toLower) ⟨(Ex.trn 1 "shop" []).trn, Ex.post "expenses" 5 ["B"]⟩ = true ∧
    (Predicate.account (.contains "pens".toList)).isMatch id ⟨(Ex.trn 1 "shop" []).trn, Ex.post "pen" 5 []⟩ = false := by
  decide +kernel

/-- C36: the laws of boolean algebra. -/
theorem C36_laws (lower : Str → Str) (c : Ctx) (p : Predicate) (ps : List Predicate) :
    ((Predicate.all ps).isMatch lower c = ps.all (·.isMatch lower c)) ∧
    ((Predicate.any ps).isMatch lower c = ps.any (·.isMatch lower c)) ∧
    ((Predicate.not p).isMatch lower c = !p.isMatch lower c) ∧
    (Predicate.true_.isMatch lower c = true) ∧
    ((Predicate.all []).isMatch lower c = true) ∧ ((Predicate.any []).isMatch lower c = false) ∧
    ((Predicate.not (.all ps)).isMatch lower c = (Predicate.any (ps.map .not)).isMatch lower c) ∧
    ((Predicate.not (.any ps)).isMatch lower c = (Predicate.all (ps.map .not)).isMatch lower c) ∧
    ((Predicate.not (.not p)).isMatch lower c = p.isMatch lower c) := by
  have hall : ∀ ps, (Predicate.all ps).isMatch lower c = ps.all (·.isMatch lower c) := fun ps => by
    rw [Bool.eq_iff_iff, Predicate.isMatch, allMatch_iff, List.all_eq_true]
  have hany : ∀ ps, (Predicate.any ps).isMatch lower c = ps.any (·.isMatch lower c) := fun ps => by
    rw [Bool.eq_iff_iff, Predicate.isMatch, anyMatch_iff, List.any_eq_true]
  have hnot : ∀ p : Predicate, (Predicate.not p).isMatch lower c = !p.isMatch lower c := fun p => by rw [Predicate.isMatch]
  refine ⟨hall ps, hany ps, hnot p, by rw [Predicate.isMatch], by rw [hall]; rfl, by rw [hany]; rfl, ?_, ?_, ?_⟩
  · rw [hnot, hall, hany, List.any_map, List.not_all_eq_any_not]
    simp only [Function.comp_def, hnot]
  · rw [hnot, hall, hany, List.all_map, List.not_any_eq_all_not]
    simp only [Function.comp_def, hnot]
  · rw [hnot, hnot, Bool.not_not]

/-! ## C59, C60 for `apply-rules` -/

theorem applyRules_plan (sys : Sys) (h : HashOrder) (lower : Str → Str) (fuel : Nat) (table : Option Table) (input output : FileSpec) :
    ∃ plan : List (FileSpec × Str), (∀ e ∈ plan, e.1 = output) ∧
      (applyRules sys h lower fuel table input output World.start).2.log <+: wholeWrites sys plan ∧
      ((applyRules sys h lower fuel table input output World.start).1 = .ok () →
        (applyRules sys h lower fuel table input output World.start).2.log = wholeWrites sys plan) := by
  have hs := applyRules_sat sys h lower fuel table input output
  rcases hr : applyRules sys h lower fuel table input output World.start with ⟨e | ⟨⟩, w⟩
  · rcases hs.err hr with ⟨h1, _⟩ | ⟨_, T, L, ts, us, n, _, _, _, _, h1⟩
    · exact ⟨[], by simp, by rw [h1]; exact List.nil_prefix, fun h => by cases h⟩
    · refine ⟨[(output, sys.render (TransactionPostings.intoLedger h us))], by simp, ?_, fun h => by cases h⟩
      rw [h1]
      exact (List.take_prefix _ _).trans (by simp [wholeWrites])
  · obtain ⟨T, L, ts, us, _, _, _, _, h1⟩ := hs.ok hr
    exact ⟨[(output, sys.render (TransactionPostings.intoLedger h us))], by simp, by rw [h1]; simp [wholeWrites],
      fun _ => by rw [h1]; simp [wholeWrites]⟩

/-- C59 for `apply-rules`. -/
theorem C59_apply_rules (sys : Sys) (h : HashOrder) (lower : Str → Str) (fuel : Nat) (table : Option Table)
    (input output : FileSpec) :
    CrashSafe sys (applyRules sys h lower fuel table input output World.start).1
      (applyRules sys h lower fuel table input output World.start).2.log := by
  obtain ⟨plan, _, h1, h2⟩ := applyRules_plan sys h lower fuel table input output
  exact crashSafe_of_plan h1 h2

/-- C60 for `apply-rules`, as far as it goes. -/
theorem C60_apply_rules_partial (sys : Sys) (h : HashOrder) (lower : Str → Str) (fuel : Nat) (table : Option Table)
    (input output : FileSpec) :
    LosesNothingBetweenWrites sys [output] (applyRules sys h lower fuel table input output World.start).1
      (applyRules sys h lower fuel table input output World.start).2.log := by
  obtain ⟨plan, h0, h1, h2⟩ := applyRules_plan sys h lower fuel table input output
  exact losesNothing_of_plan h1 h2 (fun e he => by simp [h0 e he])

end Verif
