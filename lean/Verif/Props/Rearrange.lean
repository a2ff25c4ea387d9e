import Verif.Proofs.Rearrange
import Verif.Props.Rules

/-!
# C100: other ways to write the same rules
-/

namespace Verif.Rules
open Spec.Rules

variable {lower : Str → Str} {T T' : Table}

/-- Tables whose chains do the same do the same to a transaction. -/
theorem runsTransaction_into (h : ∀ name : Str, name = "start".toList → T[name]? = none ∧ T'[name]? = none ∨ ∃ rs rs', T[name]? = some rs ∧ T'[name]? = some rs' ∧
    ∀ c r, Runs lower T (.rules rs) c r → Runs lower T' (.rules rs') c r) {t : TransactionPostings} {r : Except RuleErr TransactionPostings}
    (hr : RunsTransaction lower T t r) : RunsTransaction lower T' t r := by
  rcases h _ rfl with ⟨h1, h2⟩ | ⟨rs, rs', h1, h2, h3⟩
  · cases hr with
    | noStart _ => exact .noStart h2
    | ok h4 _ => rw [h1] at h4; cases h4
    | error h4 _ => rw [h1] at h4; cases h4
  · cases hr with
    | noStart h4 => rw [h1] at h4; cases h4
    | ok h4 h5 => rw [h1] at h4; cases h4; exact .ok h2 (runsPosts_into h3 h5)
    | error h4 h5 => rw [h1] at h4; cases h4; exact .error h2 (runsPosts_into h3 h5)

/-- **C100, exchanging chains.** Two tables have chains with the same names. If each chain does in either table what the chain with its name in the
other table does there, then both tables do the same to everything. -/
theorem C100_exchange (h : ∀ name : Str, T[name]? = none ∧ T'[name]? = none ∨ ∃ rs rs', T[name]? = some rs ∧ T'[name]? = some rs' ∧
    DoSame lower T rs rs' ∧ DoSame lower T' rs rs') (t : TransactionPostings) (r : Except RuleErr TransactionPostings) :
    RunsTransaction lower T t r ↔ RunsTransaction lower T' t r := by
  have h1 : ∀ {j : Job} {c : Ctx} {r : Res}, Runs lower T j c r → Runs lower T' j c r := fun hr => runs_into (fun name => by
    rcases h name with h | ⟨rs, rs', h1, h2, h3, h4⟩
    · exact .inl h
    · exact .inr ⟨rs, rs', h1, h2, fun c r => (h4 c r).1⟩) hr
  have h2 : ∀ {j : Job} {c : Ctx} {r : Res}, Runs lower T' j c r → Runs lower T j c r := fun hr => runs_into (fun name => by
    rcases h name with h | ⟨rs, rs', h1, h2, h3, h4⟩
    · exact .inl ⟨h.2, h.1⟩
    · exact .inr ⟨rs', rs, h2, h1, fun c r => (h3 c r).2⟩) hr
  constructor
  · refine runsTransaction_into fun name _ => ?_
    rcases h name with h | ⟨rs, rs', h3, h4, h5, h6⟩
    · exact .inl h
    · exact .inr ⟨rs, rs', h3, h4, fun c r hr => (h6 c r).1 (h1 hr)⟩
  · refine runsTransaction_into fun name _ => ?_
    rcases h name with h | ⟨rs, rs', h3, h4, h5, h6⟩
    · exact .inl ⟨h.2, h.1⟩
    · exact .inr ⟨rs', rs, h4, h3, fun c r hr => (h5 c r).2 (h2 hr)⟩

theorem insert_self (T : Table) (name : Str) (rs : List Rule) : (T.insert name rs)[name]? = some rs := by
  rw [Std.ExtTreeMap.getElem?_insert, if_pos (Std.LawfulEqOrd.compare_eq_iff_eq.2 rfl)]

theorem insert_other (T : Table) {name dest : Str} (rs : List Rule) (h : dest ≠ name) : (T.insert name rs)[dest]? = T[dest]? := by
  rw [Std.ExtTreeMap.getElem?_insert, if_neg (fun x => h (Std.LawfulEqOrd.compare_eq_iff_eq.1 x).symm)]

/-- **C100.** Rules that are written in another way do the same to every transaction: the same changes, or the same error. -/
theorem C100_rearranged (h : Rearranged lower T T') (t : TransactionPostings) (r : Except RuleErr TransactionPostings) :
    RunsTransaction lower T t r ↔ RunsTransaction lower T' t r := by
  induction h with
  | @chain T name rs rs' h1 h2 =>
    refine C100_exchange (fun dest => ?_) t r
    by_cases hd : dest = name
    · subst hd
      exact .inr ⟨rs, rs', h1, insert_self .., rewritten_same h2 fun _ _ => rfl, rewritten_same h2 fun d hd => insert_other T rs' hd⟩
    · rw [insert_other T rs' hd]
      rcases hx : T[dest]? with _ | ch
      · exact .inl ⟨rfl, rfl⟩
      · exact .inr ⟨ch, ch, rfl, rfl, fun _ _ => Iff.rfl, fun _ _ => Iff.rfl⟩
  | @unused T name rs h1 h2 h3 =>
    have ho : ∀ dest, dest ≠ name → (T.insert name rs)[dest]? = T[dest]? := fun dest hd => insert_other T rs hd
    have h4 : ∀ from_ dest, from_ ≠ name → JumpsTo T from_ dest → dest ≠ name := fun from_ dest _ hj e => h3 from_ (e ▸ hj)
    have h5 : ∀ from_ dest, from_ ≠ name → JumpsTo (T.insert name rs) from_ dest → dest ≠ name := by
      rintro from_ dest hf ⟨ch, hch, hx⟩
      rw [ho from_ hf] at hch
      exact h4 from_ dest hf ⟨ch, hch, hx⟩
    constructor
    · refine runsTransaction_into fun s hs => ?_
      subst hs
      rw [ho _ h2.symm]
      rcases hx : T["start".toList]? with _ | ch
      · exact .inl ⟨rfl, rfl⟩
      · exact .inr ⟨ch, ch, rfl, rfl, fun c r hr => runs_within (N := (· ≠ name)) ho h4 hr
          fun x hxx dest hd => h4 _ dest h2.symm ⟨ch, hx, x, hxx, hd⟩⟩
    · refine runsTransaction_into fun s hs => ?_
      subst hs
      rw [ho _ h2.symm]
      rcases hx : T["start".toList]? with _ | ch
      · exact .inl ⟨rfl, rfl⟩
      · exact .inr ⟨ch, ch, rfl, rfl, fun c r hr => runs_within (N := (· ≠ name)) (fun d hd => (ho d hd).symm) h5 hr
          fun x hxx dest hd => h4 _ dest h2.symm ⟨ch, hx, x, hxx, hd⟩⟩
  | refl => exact Iff.rfl
  | symm _ ih => exact ih.symm
  | trans _ _ ih1 ih2 => exact ih1.trans ih2

/-- What a table makes of a list of transactions, if it does the same to each one as another table. -/
theorem transactions_into (h : ∀ t r, RunsTransaction lower T t r → RunsTransaction lower T' t r) {fuel : Nat} {ts : List TransactionPostings}
    (hd : T.updateTransactions lower fuel ts ≠ .error .diverged) :
    ∃ n, ∀ m, n ≤ m → T'.updateTransactions lower m ts = T.updateTransactions lower fuel ts := by
  induction ts with
  | nil => exact ⟨0, fun _ _ => rfl⟩
  | cons t ts ih =>
    have h1 : T.updateTransaction lower fuel t ≠ .error .diverged := by
      intro x
      rw [Table.updateTransactions, x] at hd
      exact hd rfl
    obtain ⟨-, n, hn⟩ := (C31_semantics lower T' t).2 _ (h t _ ((C31_semantics lower T t).1 fuel h1))
    rcases hx : T.updateTransaction lower fuel t with e | u
    · refine ⟨n, fun m hm => ?_⟩
      rw [Table.updateTransactions, Table.updateTransactions, hn m hm, hx]
    · rw [Table.updateTransactions, hx] at hd ⊢
      simp only at hd ⊢
      obtain ⟨k, hk⟩ := ih (fun x => hd (by rw [x]))
      refine ⟨max n k, fun m hm => ?_⟩
      rw [Table.updateTransactions, hn m (le_trans (le_max_left _ _) hm), hx]
      simp only
      rw [hk m (le_trans (le_max_right _ _) hm)]

/-- **C100, the code.** Rules that are written in another way end in the same cases, with the same result. -/
theorem C100_code (h : Rearranged lower T T') (ts : List TransactionPostings) {r : Except RuleErr (List TransactionPostings)} (hr : r ≠ .error .diverged) :
    (∃ fuel, T.updateTransactions lower fuel ts = r) ↔ ∃ fuel, T'.updateTransactions lower fuel ts = r := by
  constructor
  · rintro ⟨fuel, rfl⟩
    obtain ⟨n, hn⟩ := transactions_into (fun t r => (C100_rearranged h t r).1) hr
    exact ⟨n, hn n (Nat.le_refl n)⟩
  · rintro ⟨fuel, rfl⟩
    obtain ⟨n, hn⟩ := transactions_into (fun t r => (C100_rearranged h t r).2) hr
    exact ⟨n, hn n (Nat.le_refl n)⟩

theorem applyRules_into (h : ∀ t r, RunsTransaction lower T t r → RunsTransaction lower T' t r) {sys : Sys} {o : HashOrder} {fuel : Nat}
    {input output : FileSpec} {w w' : World} (hr : applyRules sys o lower fuel (some T) input output w = (.ok (), w')) :
    ∃ n, ∀ m, n ≤ m → applyRules sys o lower m (some T') input output w = (.ok (), w') := by
  have run : ∀ (f : Nat) (X : Table), applyRules sys o lower f (some X) input output w =
      match Files.readLedgerFile sys input w with
      | (.error e, v) => (.error e, v)
      | (.ok L, v) => match TransactionPostings.fromLedger L with
        | none => (.error .unhandledItem, v)
        | some ts => match X.updateTransactions lower f ts with
          | .error _ => (.error .other, v)
          | .ok us => Files.writeLedgerFile sys output (TransactionPostings.intoLedger o us) v := by
    intro f X
    unfold applyRules
    simp only [bind, Prog.bind, Prog.ofOption, Prog.pure]
    rcases Files.readLedgerFile sys input w with ⟨e | L, v⟩
    · rfl
    · simp only
      rcases TransactionPostings.fromLedger L with _ | ts
      · rfl
      · simp only [Prog.pure]
        rcases X.updateTransactions lower f ts with e | us <;> rfl
  rw [run] at hr
  simp only [run]
  rcases hL : Files.readLedgerFile sys input w with ⟨e | L, v⟩
  · rw [hL] at hr; cases hr
  · rw [hL] at hr
    simp only at hr ⊢
    rcases hts : TransactionPostings.fromLedger L with _ | ts
    · rw [hts] at hr; cases hr
    · rw [hts] at hr
      simp only at hr ⊢
      rcases hus : T.updateTransactions lower fuel ts with e | us
      · rw [hus] at hr; cases hr
      · rw [hus] at hr
        obtain ⟨n, hn⟩ := transactions_into h (fuel := fuel) (ts := ts) (by rw [hus]; exact fun x => by cases x)
        refine ⟨n, fun m hm => ?_⟩
        rw [hn m hm, hus]
        exact hr

/-- **C100, the command.** A run of `apply-rules` that succeeds does the same with rules that are written in another way. -/
theorem C100_command (h : Rearranged lower T T') {sys : Sys} {o : HashOrder} {fuel : Nat} {input output : FileSpec} {w w' : World}
    (hr : applyRules sys o lower fuel (some T) input output w = (.ok (), w')) :
    ∃ n, ∀ m, n ≤ m → applyRules sys o lower m (some T') input output w = (.ok (), w') :=
  applyRules_into (fun t r => (C100_rearranged h t r).1) hr

/-! ### Other names -/

mutual
theorem rename_action {f : Str → Str} {J J' : Str → Ctx → Res} (hJ : ∀ name c, J' (f name) c = renameOutcome f (J name c)) (a : Action) (c : Ctx) :
    (renameAction f a).apply J' c = renameOutcome f (a.apply J c) := by
  cases a with
  | jumpChain name => rw [renameAction, Action.apply, Action.apply, hJ]
  | all as => rw [renameAction, Action.apply, Action.apply, rename_actions hJ as c]
  | _ => simp only [renameAction, Action.apply, renameOutcome]
theorem rename_actions {f : Str → Str} {J J' : Str → Ctx → Res} (hJ : ∀ name c, J' (f name) c = renameOutcome f (J name c)) (as : List Action) (c : Ctx) :
    Action.applyAll J' (as.map (renameAction f)) c = renameOutcome f (Action.applyAll J as c) := by
  cases as with
  | nil => rfl
  | cons a as =>
    rw [List.map_cons, Action.applyAll, Action.applyAll, rename_action hJ a c]
    rcases a.apply J c with e | c'
    · cases e <;> rfl
    · exact rename_actions hJ as c'
end

theorem rename_rules {f : Str → Str} {J J' : Str → Ctx → Res} (hJ : ∀ name c, J' (f name) c = renameOutcome f (J name c)) (rs : List Rule) (c : Ctx) :
    Chain.apply lower J' (renameRules f rs) c = renameOutcome f (Chain.apply lower J rs c) := by
  induction rs generalizing c with
  | nil => rfl
  | cons x rs ih =>
    show Chain.apply lower J' (⟨x.predicate, renameAction f x.action, x.result⟩ :: renameRules f rs) c = _
    rw [Chain.apply, Chain.apply, Rule.apply, Rule.apply]
    simp only
    by_cases hp : x.predicate.isMatch lower c
    · rw [if_pos hp, if_pos hp, rename_action hJ]
      rcases x.action.apply J c with e | c'
      · cases e <;> rfl
      · simp only [renameOutcome]
        cases x.result
        · exact ih c'
        · rfl
    · rw [if_neg hp, if_neg hp]
      exact ih c

theorem rename_jump {f : Str → Str} (h : Renamed f T T') (n : Nat) (name : Str) (c : Ctx) :
    T'.jump lower n (f name) c = renameOutcome f (T.jump lower n name c) := by
  induction n generalizing name c with
  | zero => rfl
  | succ n ih =>
    rw [Table.jump, Table.jump, Table.getChain, Table.getChain, h.chains]
    rcases T[name]? with _ | rs
    · rfl
    · exact rename_rules ih rs c

/-- **C100, other names.** If the chains get other names (the one called "start" keeps its name), then the same happens, with the same depth of jumps;
only an error about a missing chain has the other name. -/
theorem C100_renamed {f : Str → Str} (h : Renamed f T T') (fuel : Nat) (ts : List TransactionPostings) :
    T'.updateTransactions lower fuel ts = renameOutcome f (T.updateTransactions lower fuel ts) := by
  have hp : ∀ (start : List Rule) (ps : List PostingInternal) (t : TransactionInternal), T'.updatePosts lower fuel (renameRules f start) t ps =
      renameOutcome f (T.updatePosts lower fuel start t ps) := by
    intro start ps
    induction ps with
    | nil => intro t; rfl
    | cons p ps ih =>
      intro t
      rw [Table.updatePosts, Table.updatePosts, rename_rules (rename_jump h fuel)]
      rcases Chain.apply lower (T.jump lower fuel) start ⟨t, p⟩ with e | c
      · cases e <;> rfl
      · simp only [renameOutcome, ih]
        rcases T.updatePosts lower fuel start c.trn ps with e | ⟨u, us⟩
        · cases e <;> rfl
        · rfl
  have ht : ∀ t, T'.updateTransaction lower fuel t = renameOutcome f (T.updateTransaction lower fuel t) := by
    intro t
    have hs : T'[startChain]? = (T[startChain]?).map (renameRules f) := by
      have := h.chains startChain
      rwa [show f startChain = startChain from h.start] at this
    rw [Table.updateTransaction, Table.updateTransaction, Table.getChain, Table.getChain, hs]
    rcases T[startChain]? with _ | rs
    · show _ = Except.error (RuleErr.chainNotFound (f startChain))
      rw [show f startChain = startChain from h.start]
      rfl
    · simp only [Option.map_some, hp]
      rcases T.updatePosts lower fuel rs t.trn t.posts with e | ⟨u, us⟩
      · cases e <;> rfl
      · rfl
  induction ts with
  | nil => rfl
  | cons t ts ih =>
    rw [Table.updateTransactions, Table.updateTransactions, ht]
    rcases T.updateTransaction lower fuel t with e | u
    · cases e <;> rfl
    · simp only [renameOutcome, ih]
      rcases T.updateTransactions lower fuel ts with e | us
      · cases e <;> rfl
      · rfl

/-! ### Moving rules into a chain of their own -/

theorem holds_true (c : Ctx) : Holds lower c .true_ := by rw [Holds]; trivial

/-- **C100, moving rules out.** Rules in the middle of a chain that do not return can be moved into a new chain, with a jump in their place. -/
theorem C100_moved_out {name fresh : Str} {before rs behind : List Rule} (h : T[name]? = some (before ++ rs ++ behind)) (hr : NoReturn rs)
    (hf : fresh ∉ T) (hs : fresh ≠ "start".toList) (hj : ∀ from_, ¬ JumpsTo T from_ fresh) :
    Rearranged lower T ((T.insert fresh rs).insert name (before ++ ⟨.true_, .jumpChain fresh, .continue_⟩ :: behind)) := by
  have hne : fresh ≠ name := by
    rintro rfl
    exact hf (Std.ExtTreeMap.mem_iff_isSome_getElem?.2 (by rw [h]; rfl))
  refine .trans (.unused (rs := rs) hf hs hj) (.symm ?_)
  have h1 := Rearranged.chain (lower := lower) (insert_self (T.insert fresh rs) name (before ++ ⟨.true_, .jumpChain fresh, .continue_⟩ :: behind))
    (.inline (fun c => holds_true c) hne ((insert_other _ _ hne).trans (insert_self T fresh rs)) hr)
  have h2 : ((T.insert fresh rs).insert name (before ++ ⟨.true_, .jumpChain fresh, .continue_⟩ :: behind)).insert name (before ++ rs ++ behind) =
      T.insert fresh rs := by
    refine Std.ExtTreeMap.ext_getElem? fun k => ?_
    by_cases hk : k = name
    · subst hk
      rw [insert_self, insert_other _ _ hne.symm, h]
    · rw [insert_other _ _ hk, insert_other _ _ hk]
  rwa [h2] at h1

/-- **C100, moving the end of a chain out.** The last rules of a chain can be moved into a new chain even if some of them return. -/
theorem C100_end_moved_out {name fresh : Str} {before rs : List Rule} (h : T[name]? = some (before ++ rs))
    (hf : fresh ∉ T) (hs : fresh ≠ "start".toList) (hj : ∀ from_, ¬ JumpsTo T from_ fresh) (res : RuleResult) :
    Rearranged lower T ((T.insert fresh rs).insert name (before ++ [⟨.true_, .jumpChain fresh, res⟩])) := by
  have hne : fresh ≠ name := by
    rintro rfl
    exact hf (Std.ExtTreeMap.mem_iff_isSome_getElem?.2 (by rw [h]; rfl))
  refine .trans (.unused (rs := rs) hf hs hj) (.symm ?_)
  have h1 := Rearranged.chain (lower := lower) (insert_self (T.insert fresh rs) name (before ++ [⟨.true_, .jumpChain fresh, res⟩]))
    (.inlineLast (fun c => holds_true c) hne ((insert_other _ _ hne).trans (insert_self T fresh rs)))
  have h2 : ((T.insert fresh rs).insert name (before ++ [⟨.true_, .jumpChain fresh, res⟩])).insert name (before ++ rs) = T.insert fresh rs := by
    refine Std.ExtTreeMap.ext_getElem? fun k => ?_
    by_cases hk : k = name
    · subst hk
      rw [insert_self, insert_other _ _ hne.symm, h]
    · rw [insert_other _ _ hk, insert_other _ _ hk]
  rwa [h2] at h1

/-! ### Cases -/

/-- A shop gets an account and a tag, and a bank another account. -/
def Ex.shopRules : List Rule :=
  [⟨.transactionDescription (.contains "shop".toList), .setAccount "expenses:food".toList, .continue_⟩,
   ⟨.account (.eq "expenses:food".toList), .addPostingFlagTag "food".toList, .continue_⟩]

/-- Everything else gets a tag. -/
def Ex.otherRules : List Rule := [⟨.not (.postingHasFlagTag "food".toList), .addPostingFlagTag "other".toList, .return_⟩]

/-- All rules in one chain. -/
def Ex.oneChain : Table := Std.ExtTreeMap.ofList [("start".toList, Ex.shopRules ++ Ex.otherRules)] compare

theorem Ex.oneChain_start : Ex.oneChain["start".toList]? = some (Ex.shopRules ++ Ex.otherRules) := by
  rw [Ex.oneChain, Std.ExtTreeMap.getElem?_ofList_of_mem (k := "start".toList) (Std.LawfulEqOrd.compare_eq_iff_eq.2 rfl)
    (v := Ex.shopRules ++ Ex.otherRules) (by simp) (by simp)]

theorem Ex.oneChain_names {name : Str} {rs : List Rule} (h : Ex.oneChain[name]? = some rs) : rs = Ex.shopRules ++ Ex.otherRules := by
  by_cases hn : name = "start".toList
  · subst hn
    rw [Ex.oneChain_start] at h
    cases h; rfl
  · rw [Ex.oneChain, Std.ExtTreeMap.getElem?_ofList_of_contains_eq_false] at h
    · cases h
    · simp only [List.map_cons, List.map_nil, List.contains_cons, List.contains_nil, Bool.or_false]
      exact beq_false_of_ne hn

set_option maxRecDepth 100000 in
/-- A case for all theorems about rules that are written in another way: the rules about the shop are moved into a chain. Both tables do something. -/
example : Rearranged lower Ex.oneChain ((Ex.oneChain.insert "shop".toList Ex.shopRules).insert "start".toList
      ([] ++ ⟨.true_, .jumpChain "shop".toList, .continue_⟩ :: Ex.otherRules)) ∧
    Ex.oneChain.updateTransactions id 5 [Ex.trn 1 "my shop" [Ex.post "expenses" 5 []], Ex.trn 2 "bus" [Ex.post "expenses" 7 []]] =
      .ok [Ex.trn 1 "my shop" [Ex.post "expenses:food" 5 ["food"]], Ex.trn 2 "bus" [Ex.post "expenses" 7 ["other"]]] ∧
    Table.updateTransactions id ((Ex.oneChain.insert "shop".toList Ex.shopRules).insert "start".toList
      ([] ++ ⟨.true_, .jumpChain "shop".toList, .continue_⟩ :: Ex.otherRules)) 5
        [Ex.trn 1 "my shop" [Ex.post "expenses" 5 []], Ex.trn 2 "bus" [Ex.post "expenses" 7 []]] =
      .ok [Ex.trn 1 "my shop" [Ex.post "expenses:food" 5 ["food"]], Ex.trn 2 "bus" [Ex.post "expenses" 7 ["other"]]] := by
  refine ⟨C100_moved_out Ex.oneChain_start ?_ ?_ (by decide) ?_, by decide +kernel, by decide +kernel⟩
  · intro r hr
    simp only [Ex.shopRules, List.mem_cons, List.not_mem_nil, or_false] at hr
    rcases hr with rfl | rfl <;> rfl
  · intro h
    rw [Std.ExtTreeMap.mem_iff_isSome_getElem?] at h
    have : (Ex.oneChain["shop".toList]?).isSome = false := by decide +kernel
    rw [this] at h
    cases h
  · rintro from_ ⟨ch, h1, r, hr, hj⟩
    rw [Ex.oneChain_names h1] at hr
    simp only [Ex.shopRules, Ex.otherRules, List.cons_append, List.nil_append, List.mem_cons, List.not_mem_nil, or_false] at hr
    rcases hr with rfl | rfl | rfl <;> cases hj

/-- Rules of which the first returns, and one behind them. -/
def Ex.returning : Table := Std.ExtTreeMap.ofList
  [("start".toList, [⟨.true_, .addPostingFlagTag "x".toList, .return_⟩, ⟨.true_, .addPostingFlagTag "y".toList, .continue_⟩])] compare

/-- The first of these rules in a chain of its own. -/
def Ex.returningMoved : Table := Std.ExtTreeMap.ofList
  [("start".toList, [⟨.true_, .jumpChain "sub".toList, .continue_⟩, ⟨.true_, .addPostingFlagTag "y".toList, .continue_⟩]),
   ("sub".toList, [⟨.true_, .addPostingFlagTag "x".toList, .return_⟩])] compare

set_option maxRecDepth 100000 in
/-- C100: rules that return cannot be moved out of the middle of a chain: to return leaves the new chain only, and the rules behind are applied too.
(This is why `C100_moved_out` asks that no rule returns.) -/
theorem C100_return_matters :
    Ex.returning.updateTransactions id 5 [Ex.trn 1 "bus" [Ex.post "expenses" 5 []]] = .ok [Ex.trn 1 "bus" [Ex.post "expenses" 5 ["x"]]] ∧
    Ex.returningMoved.updateTransactions id 5 [Ex.trn 1 "bus" [Ex.post "expenses" 5 []]] = .ok [Ex.trn 1 "bus" [Ex.post "expenses" 5 ["x", "y"]]] := by
  decide +kernel

/-- The chain of `Ex.returningMoved` with another name. -/
def Ex.returningRenamed : Table := Std.ExtTreeMap.ofList
  [("start".toList, [⟨.true_, .jumpChain "part".toList, .continue_⟩, ⟨.true_, .addPostingFlagTag "y".toList, .continue_⟩]),
   ("part".toList, [⟨.true_, .addPostingFlagTag "x".toList, .return_⟩])] compare

/-- Two names are exchanged. -/
def Ex.otherNames (s : Str) : Str := if s = "sub".toList then "part".toList else if s = "part".toList then "sub".toList else s

theorem Ex.twoChains {a b : Str} {A B : List Rule} (h : a ≠ b) (name : Str) :
    (Std.ExtTreeMap.ofList [(a, A), (b, B)] compare)[name]? = if name = a then some A else if name = b then some B else none := by
  have hd : [(a, A), (b, B)].Pairwise (fun a b => ¬ compare a.1 b.1 = .eq) := by
    simp only [List.pairwise_cons, List.mem_cons, List.not_mem_nil, or_false, forall_eq, List.Pairwise.nil, and_true, IsEmpty.forall_iff, implies_true]
    exact fun x => h (Std.LawfulEqOrd.compare_eq_iff_eq.1 x)
  split
  · next e =>
    subst e
    exact Std.ExtTreeMap.getElem?_ofList_of_mem (k := name) (Std.LawfulEqOrd.compare_eq_iff_eq.2 rfl) hd (by simp)
  · next n1 =>
    split
    · next e =>
      subst e
      exact Std.ExtTreeMap.getElem?_ofList_of_mem (k := name) (Std.LawfulEqOrd.compare_eq_iff_eq.2 rfl) hd (by simp)
    · next n2 =>
      refine Std.ExtTreeMap.getElem?_ofList_of_contains_eq_false ?_
      simp only [List.map_cons, List.map_nil, List.contains_cons, List.contains_nil, Bool.or_false]
      rw [beq_false_of_ne n1, beq_false_of_ne n2]
      rfl

/-- A case for `C100_renamed`. -/
example : Renamed Ex.otherNames Ex.returningMoved Ex.returningRenamed := by
  refine ⟨by decide, fun name => ?_⟩
  rw [Ex.returningMoved, Ex.returningRenamed, Ex.twoChains (by decide), Ex.twoChains (by decide)]
  by_cases h1 : name = "start".toList
  · subst h1
    rw [if_pos (show Ex.otherNames "start".toList = "start".toList by decide), if_pos rfl]
    simp only [renameRules, renameAction, Option.map_some, List.map_cons, List.map_nil]
    rw [show Ex.otherNames "sub".toList = "part".toList by decide]
  · by_cases h2 : name = "sub".toList
    · subst h2
      rw [if_neg (show ¬ Ex.otherNames "sub".toList = "start".toList by decide), if_pos (show Ex.otherNames "sub".toList = "part".toList by decide),
        if_neg h1, if_pos rfl]
      simp only [renameRules, renameAction, Option.map_some, List.map_cons, List.map_nil]
    · rw [if_neg h1, if_neg h2]
      by_cases h3 : name = "part".toList
      · subst h3
        rw [if_neg (by decide), if_neg (by decide)]
        rfl
      · rw [show Ex.otherNames name = name by rw [Ex.otherNames, if_neg h2, if_neg h3], if_neg h1, if_neg h3]
        rfl

end Verif.Rules
