import Verif.Props.RulesTermination

/-!
# C32: exactly when a chain is missing
-/

namespace Verif
open Verif.Rules Spec Spec.Rules

variable {lower : Str → Str} {T : Table}

/-- An error of what is called is an error of the caller. -/
theorem calls_error {j : Job} {c : Ctx} {name : Str} {c' : Ctx} (h : Calls lower T j c name c') {e : RuleErr} :
    Runs lower T (.action (.jumpChain name)) c' (.error e) → Runs lower T j c (.error e) := by
  induction h with
  | jump => exact id
  | all _ ih => exact fun h => .all (ih h)
  | first _ ih => exact fun h => .actionsError (ih h)
  | next h1 _ ih => exact fun h => .actionsCons h1 (ih h)
  | skip hp _ ih => exact fun h => .skip hp (ih h)
  | rule hp _ ih => exact fun h => .ruleError hp (ih h)
  | continue_ hp h1 _ ih => exact fun h => .continue_ hp h1 (ih h)

/-- A missing chain has been called. -/
theorem missing_called {j : Job} {c : Ctx} {r : Res} (h : Runs lower T j c r) (name : Str) : r = .error (.chainNotFound name) →
    T[name]? = none ∧ ∃ x c', Calls lower T j c x.1 x.2 ∧ Relation.ReflTransGen (CallsFrom lower T) x (name, c') := by
  induction h with
  | change => intro h; cases h
  | report => intro h; cases h
  | all _ ih => intro h; obtain ⟨h0, x, c', h1, h2⟩ := ih h; exact ⟨h0, x, c', .all h1, h2⟩
  | jump hn _ ih =>
    intro h
    obtain ⟨h0, x, c', h1, h2⟩ := ih h
    exact ⟨h0, (_, _), c', .jump, .head ⟨_, hn, h1⟩ h2⟩
  | noChain hn => intro h; cases h; exact ⟨hn, (_, _), _, .jump, .refl⟩
  | actionsNil => intro h; cases h
  | actionsCons h1 _ _ ih => intro h; obtain ⟨h0, x, c', h2, h3⟩ := ih h; exact ⟨h0, x, c', .next h1 h2, h3⟩
  | actionsError _ ih => intro h; obtain ⟨h0, x, c', h2, h3⟩ := ih (by simpa using h); exact ⟨h0, x, c', .first h2, h3⟩
  | rulesNil => intro h; cases h
  | skip hp _ ih => intro h; obtain ⟨h0, x, c', h2, h3⟩ := ih h; exact ⟨h0, x, c', .skip hp h2, h3⟩
  | continue_ hp h1 _ _ ih => intro h; obtain ⟨h0, x, c', h2, h3⟩ := ih h; exact ⟨h0, x, c', .continue_ hp h1 h2, h3⟩
  | return_ => intro h; cases h
  | ruleError hp _ ih => intro h; obtain ⟨h0, x, c', h2, h3⟩ := ih (by simpa using h); exact ⟨h0, x, c', .rule hp h2, h3⟩

theorem path_error {x y : Str × Ctx} (h : Relation.ReflTransGen (CallsFrom lower T) x y) {e : RuleErr}
    (he : Runs lower T (.action (.jumpChain y.1)) y.2 (.error e)) : Runs lower T (.action (.jumpChain x.1)) x.2 (.error e) := by
  induction h using Relation.ReflTransGen.head_induction_on with
  | refl => exact he
  | head h _ ih =>
    obtain ⟨ch, hn, hc⟩ := h
    exact .jump hn (calls_error hc ih)

theorem posts_error_iff {start : List Rule} {t : TransactionInternal} {ps : List PostingInternal} {e : RuleErr} :
    RunsPosts lower T start t ps (.error e) ↔ ∃ c, Meets lower T start t ps c ∧ Runs lower T (.rules start) c (.error e) := by
  constructor
  · have key : ∀ r, RunsPosts lower T start t ps r → r = .error e →
        ∃ c, Meets lower T start t ps c ∧ Runs lower T (.rules start) c (.error e) := by
      intro r h
      induction h with
      | nil => intro h; cases h
      | cons => intro h; cases h
      | error h => intro he; cases he; exact ⟨_, .here, h⟩
      | later h _ ih =>
        intro he
        obtain ⟨c, h1, h2⟩ := ih (by simpa using he)
        exact ⟨c, .later h h1, h2⟩
    exact fun h => key _ h rfl
  · rintro ⟨c, h, h'⟩
    induction h with
    | here => exact .error h'
    | later h1 _ ih => exact .later h1 (ih h')

/-- C32, exactly: applying the table fails for want of a chain if and only if there is no start chain, or, in a context
in which the start chain is run for one of the postings, there is a sequence of chains from the start to the missing one
each of which comes to a jump to the next. -/
theorem C32_exact (lower : Str → Str) (T : Table) (t : TransactionPostings) (name : Str) :
    RunsTransaction lower T t (.error (.chainNotFound name)) ↔ T[name]? = none ∧ (name = "start".toList ∨
      ∃ c c', StartsWith lower T t c ∧ Relation.ReflTransGen (CallsFrom lower T) ("start".toList, c) (name, c')) := by
  constructor
  · intro h
    cases h with
    | noStart h => exact ⟨h, .inl rfl⟩
    | error hn h =>
      obtain ⟨c, hm, hr⟩ := posts_error_iff.1 h
      obtain ⟨h0, x, c', h1, h2⟩ := missing_called hr name rfl
      exact ⟨h0, .inr ⟨c, c', ⟨_, hn, hm⟩, .head ⟨_, hn, h1⟩ h2⟩⟩
  · rintro ⟨h0, rfl | ⟨c, c', ⟨ch, hn, hm⟩, hp⟩⟩
    · exact .noStart h0
    · refine .error hn (posts_error_iff.2 ⟨c, hm, ?_⟩)
      have := path_error hp (.noChain h0)
      cases this with
      | jump hn' h => rw [hn] at hn'; cases hn'; exact h
      | noChain hn' => rw [hn] at hn'; cases hn'

/-- What validation should check, C32 holds of: if the start chain is there, and every chain that a rule may jump to at any
depth of `All`, then no run fails for want of a chain. -/
theorem C32_deep (lower : Str → Str) (T : Table) (hs : "start".toList ∈ T) (hj : ∀ from_ name, JumpsTo T from_ name → name ∈ T)
    (fuel : Nat) (ts : List TransactionPostings) (name : Str) : T.updateTransactions lower fuel ts ≠ .error (.chainNotFound name) := by
  intro h
  obtain ⟨_, t, _, _, _, _, h⟩ := updateTransactions_error.1 h
  have hr := (C31_semantics lower T t).1 fuel (by rw [h]; simp)
  rw [h] at hr
  obtain ⟨h0, hr⟩ := (C32_exact ..).1 hr
  have hn : name ∉ T := by rw [Std.ExtTreeMap.mem_iff_isSome_getElem?, h0]; simp
  rcases hr with rfl | ⟨c, c', ⟨ch, hch, _⟩, hp⟩
  · exact hn hs
  · have key : ∀ {j c a b}, Calls lower T j c a b → jobJumps a j := by
      intro j c a b h
      induction h with
      | jump => exact .here
      | all _ ih => obtain ⟨a, ha, h⟩ := ih; exact .inside ha h
      | first _ ih => exact ⟨_, List.mem_cons_self, ih⟩
      | next _ _ ih => obtain ⟨a, ha, h⟩ := ih; exact ⟨a, List.mem_cons_of_mem _ ha, h⟩
      | skip _ _ ih => obtain ⟨a, ha, h⟩ := ih; exact ⟨a, List.mem_cons_of_mem _ ha, h⟩
      | rule _ _ ih => exact ⟨_, List.mem_cons_self, ih⟩
      | continue_ _ _ _ ih => obtain ⟨a, ha, h⟩ := ih; exact ⟨a, List.mem_cons_of_mem _ ha, h⟩
    rcases Relation.ReflTransGen.cases_tail hp with he | ⟨y, _, ch', hn', hc⟩
    · exact hn ((Prod.mk.inj he).1 ▸ hs)
    · obtain ⟨r, hr, hjr⟩ := key hc
      exact hn (hj y.1 name ⟨ch', hn', r, hr, hjr⟩)

set_option maxRecDepth 100000 in
theorem Ex.hidden_fails : Ex.hidden.updateTransaction id 1 Ex.two = .error (.chainNotFound "gone".toList) := by decide +kernel

/-- The table whose missing chain validation does not see: the path to it. -/
example : ∃ c c', StartsWith id Ex.hidden Ex.two c ∧
    Relation.ReflTransGen (CallsFrom id Ex.hidden) ("start".toList, c) ("gone".toList, c') := by
  have h := (C31_semantics id Ex.hidden Ex.two).1 1 (by rw [Ex.hidden_fails]; simp)
  rw [Ex.hidden_fails] at h
  rcases ((C32_exact ..).1 h).2 with h | h
  · exact absurd h (by decide)
  · exact h

/-- The rules of `Ex.rules` jump from inside an `All`, to a chain that is there. -/
example : "start".toList ∈ Ex.rules ∧ (∀ from_ name, JumpsTo Ex.rules from_ name → name ∈ Ex.rules) ∧
    ∃ from_ name, JumpsTo Ex.rules from_ name := by
  have h1 : Ex.rules["start".toList]? = some _ := Std.ExtTreeMap.getElem?_ofList_of_mem (k := "start".toList)
    (Std.LawfulEqOrd.compare_eq_iff_eq.2 rfl) (by decide +kernel) List.mem_cons_self
  have h2 : Ex.rules["shop".toList]? = some _ := Std.ExtTreeMap.getElem?_ofList_of_mem (k := "shop".toList)
    (Std.LawfulEqOrd.compare_eq_iff_eq.2 rfl) (by decide +kernel) (List.mem_cons_of_mem _ List.mem_cons_self)
  refine ⟨by rw [Std.ExtTreeMap.mem_iff_isSome_getElem?, h1]; rfl, ?_,
    ⟨_, _, _, h1, _, List.mem_cons_self, .inside (List.mem_cons_of_mem _ List.mem_cons_self) .here⟩⟩
  rintro a b ⟨ch, hc, r, hr, hj⟩
  have ha : a ∈ Ex.rules := by rw [Std.ExtTreeMap.mem_iff_isSome_getElem?, hc]; rfl
  have ha : a = "start".toList ∨ a = "shop".toList := by
    have := Std.ExtTreeMap.mem_ofList.1 ha
    simpa only [List.map_cons, List.map_nil, List.contains_cons, List.contains_nil, Bool.or_false, Bool.or_eq_true, beq_iff_eq] using this
  have hb : b = "shop".toList := by
    rcases ha with rfl | rfl
    · rw [h1] at hc
      cases hc
      simp only [List.mem_cons, List.not_mem_nil, or_false] at hr
      rcases hr with rfl | rfl | rfl | rfl
      · cases hj with
        | inside h hj =>
          simp only [List.mem_cons, List.not_mem_nil, or_false] at h
          rcases h with rfl | rfl
          · cases hj
          · cases hj; rfl
      · cases hj
      · cases hj
      · cases hj
    · rw [h2] at hc
      cases hc
      simp only [List.mem_cons, List.not_mem_nil, or_false] at hr
      rcases hr with rfl | rfl <;> cases hj
  rw [hb, Std.ExtTreeMap.mem_iff_isSome_getElem?, h2]
  rfl

end Verif
