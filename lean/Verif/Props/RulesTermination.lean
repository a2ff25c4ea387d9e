import Verif.Spec.RulesCalls
import Verif.Props.Pipeline
import Mathlib.Order.WellFounded
import Mathlib.Data.Set.Finite.Lattice
import Mathlib.Data.Set.Finite.Powerset
import Mathlib.Data.Finite.Prod
import Mathlib.Data.Fintype.Pigeonhole

/-!
# C33: exactly which rules do not terminate
-/

namespace Verif
open Verif.Rules Spec Spec.Rules

variable {lower : Str → Str} {T : Table}

/-- What is called from where, in the direction that must be well-founded. -/
abbrev CalledFrom (lower : Str → Str) (T : Table) (y x : Str × Ctx) : Prop := CallsFrom lower T x y

/-! ### What has a result makes only finitely many nested calls -/

theorem calls_acc {j : Job} {c : Ctx} {r : Res} (h : Runs lower T j c r) :
    ∀ name c', Calls lower T j c name c' → Acc (CalledFrom lower T) (name, c') := by
  induction h with
  | change h => intro name c' hc; cases hc <;> cases h
  | report => intro name c' hc; cases hc
  | all _ ih => intro name c' hc; cases hc with | all hc => exact ih _ _ hc
  | jump hn _ ih =>
    intro name c' hc
    cases hc
    refine ⟨_, ?_⟩
    rintro ⟨name', c'⟩ ⟨ch, hch, hc⟩
    rw [hn] at hch
    cases hch
    exact ih _ _ hc
  | noChain hn =>
    intro name c' hc
    cases hc
    refine ⟨_, ?_⟩
    rintro ⟨name', c'⟩ ⟨ch, hch, hc⟩
    rw [hn] at hch
    cases hch
  | actionsNil => intro name c' hc; cases hc
  | actionsCons h _ ih1 ih2 =>
    intro name c' hc
    cases hc with
    | first hc => exact ih1 _ _ hc
    | next h' hc => cases runs_functional h h'; exact ih2 _ _ hc
  | actionsError h ih =>
    intro name c' hc
    cases hc with
    | first hc => exact ih _ _ hc
    | next h' hc => cases runs_functional h h'
  | rulesNil => intro name c' hc; cases hc
  | skip hp _ ih =>
    intro name c' hc
    cases hc with
    | skip _ hc => exact ih _ _ hc
    | rule hp' => exact absurd hp' hp
    | continue_ hp' => exact absurd hp' hp
  | continue_ hp h _ ih1 ih2 =>
    intro name c' hc
    cases hc with
    | skip hp' => exact absurd hp hp'
    | rule _ hc => exact ih1 _ _ hc
    | continue_ _ h' hc => cases runs_functional h h'; exact ih2 _ _ hc
  | return_ hp h ih =>
    intro name c' hc
    cases hc with
    | skip hp' => exact absurd hp hp'
    | rule _ hc => exact ih _ _ hc
  | ruleError hp h ih =>
    intro name c' hc
    cases hc with
    | skip hp' => exact absurd hp hp'
    | rule _ hc => exact ih _ _ hc
    | continue_ _ h' hc => cases runs_functional h h'

/-! ### What calls only things that have a result has a result -/

/-- Every jump that is come to has a result. -/
def CallsEnd (lower : Str → Str) (T : Table) (j : Job) (c : Ctx) : Prop :=
  ∀ name c', Calls lower T j c name c' → ∃ r, Runs lower T (.action (.jumpChain name)) c' r

mutual
theorem action_ends (a : Action) (c : Ctx) (h : CallsEnd lower T (.action a) c) : ∃ r, Runs lower T (.action a) c r := by
  cases a with
  | all as =>
    obtain ⟨r, hr⟩ := actions_end as c fun name c' hc => h name c' (.all hc)
    exact ⟨r, .all hr⟩
  | jumpChain name => exact h name c .jump
  | error msg => exact ⟨_, .report⟩
  | noop => exact ⟨_, .change .noop⟩
  | setAccount account => exact ⟨_, .change .setAccount⟩
  | replaceTransactionDescription f => exact ⟨_, .change .replaceTransactionDescription⟩
  | addPostingFlagTag tag => exact ⟨_, .change (.addPostingFlagTag (tags_insert _ tag))⟩
  | removePostingFlagTag tag => exact ⟨_, .change (.removePostingFlagTag (tags_erase _ tag))⟩
  | addPostingValueTag k v => exact ⟨_, .change (.addPostingValueTag (values_insert_self _ k v) (values_insert_other _ k v))⟩
  | removePostingValueTag k => exact ⟨_, .change (.removePostingValueTag (values_erase_self _ k) (values_erase_other _ k))⟩
  | addTransactionFlagTag tag => exact ⟨_, .change (.addTransactionFlagTag (tags_insert _ tag))⟩
  | removeTransactionFlagTag tag => exact ⟨_, .change (.removeTransactionFlagTag (tags_erase _ tag))⟩
  | addTransactionValueTag k v =>
    exact ⟨_, .change (.addTransactionValueTag (values_insert_self _ k v) (values_insert_other _ k v))⟩
  | removeTransactionValueTag k =>
    exact ⟨_, .change (.removeTransactionValueTag (values_erase_self _ k) (values_erase_other _ k))⟩
theorem actions_end (as : List Action) (c : Ctx) (h : CallsEnd lower T (.actions as) c) : ∃ r, Runs lower T (.actions as) c r := by
  cases as with
  | nil => exact ⟨_, .actionsNil⟩
  | cons a as =>
    obtain ⟨r, hr⟩ := action_ends a c fun name c' hc => h name c' (.first hc)
    cases r with
    | error e => exact ⟨_, .actionsError hr⟩
    | ok d =>
      obtain ⟨r, hr'⟩ := actions_end as d fun name c' hc => h name c' (.next hr hc)
      exact ⟨r, .actionsCons hr hr'⟩
end

theorem rules_end (rs : List Rule) (c : Ctx) (h : CallsEnd lower T (.rules rs) c) : ∃ r, Runs lower T (.rules rs) c r := by
  induction rs generalizing c with
  | nil => exact ⟨_, .rulesNil⟩
  | cons rule rs ih =>
    obtain ⟨p, a, res⟩ := rule
    by_cases hp : Holds lower c p
    · obtain ⟨r, hr⟩ := action_ends a c fun name c' hc => h name c' (.rule hp hc)
      cases r with
      | error e => exact ⟨_, .ruleError hp hr⟩
      | ok d =>
        cases res with
        | return_ => exact ⟨_, .return_ hp hr⟩
        | continue_ =>
          obtain ⟨r, hr'⟩ := ih d fun name c' hc => h name c' (.continue_ hp hr hc)
          exact ⟨r, .continue_ hp hr hr'⟩
    · obtain ⟨r, hr⟩ := ih c fun name c' hc => h name c' (.skip hp hc)
      exact ⟨r, .skip hp hr⟩

theorem jump_ends {x : Str × Ctx} (h : Acc (CalledFrom lower T) x) : ∃ r, Runs lower T (.action (.jumpChain x.1)) x.2 r := by
  induction h with
  | intro x _ ih =>
    cases hn : T[x.1]? with
    | none => exact ⟨_, .noChain hn⟩
    | some ch =>
      obtain ⟨r, hr⟩ := rules_end ch x.2 fun name c' hc => ih (name, c') ⟨ch, hn, hc⟩
      exact ⟨r, .jump hn hr⟩

/-- Jumping to a chain has a result if and only if there is no endless sequence of calls from there. -/
theorem jump_ends_iff (name : Str) (c : Ctx) :
    (∃ r, Runs lower T (.action (.jumpChain name)) c r) ↔
      ¬ ∃ f : Nat → Str × Ctx, f 0 = (name, c) ∧ ∀ i, CallsFrom lower T (f i) (f (i + 1)) := by
  rw [← not_acc_iff_exists_descending_chain (r := CalledFrom lower T), not_not]
  exact ⟨fun ⟨r, h⟩ => calls_acc h _ _ .jump, fun h => jump_ends h⟩

theorem posts_end_iff (start : List Rule) (t : TransactionInternal) (ps : List PostingInternal) :
    (∃ r, RunsPosts lower T start t ps r) ↔ ∀ c, Meets lower T start t ps c → ∃ r, Runs lower T (.rules start) c r := by
  constructor
  · rintro ⟨r, h⟩
    induction h with
    | nil => intro c hc; cases hc
    | cons h1 _ ih =>
      intro c hc
      cases hc with
      | here => exact ⟨_, h1⟩
      | later h hc => cases runs_functional h1 h; exact ih c hc
    | error h =>
      intro c hc
      cases hc with
      | here => exact ⟨_, h⟩
      | later h' hc => cases runs_functional h h'
    | later h1 _ ih =>
      intro c hc
      cases hc with
      | here => exact ⟨_, h1⟩
      | later h hc => cases runs_functional h1 h; exact ih c hc
  · intro h
    induction ps generalizing t with
    | nil => exact ⟨_, .nil⟩
    | cons p ps ih =>
      obtain ⟨r, hr⟩ := h _ .here
      cases r with
      | error e => exact ⟨_, .error hr⟩
      | ok d =>
        obtain ⟨t', p'⟩ := d
        obtain ⟨r, hr'⟩ := ih t' fun c hc => h c (.later hr hc)
        cases r with
        | error e => exact ⟨_, .later hr hr'⟩
        | ok d => exact ⟨_, .cons hr hr'⟩

/-- C33, exactly: applying the table to a transaction has no result if and only if, in a context in which the start chain
is run for one of the postings, there is an endless sequence of chains each of which comes to a jump to the next. -/
theorem C33_exact (lower : Str → Str) (T : Table) (t : TransactionPostings) :
    (∃ r, RunsTransaction lower T t r) ↔
      ¬ ∃ c, StartsWith lower T t c ∧ ∃ f : Nat → Str × Ctx, f 0 = ("start".toList, c) ∧ ∀ i, CallsFrom lower T (f i) (f (i + 1)) := by
  cases hn : T["start".toList]? with
  | none =>
    refine ⟨fun _ => ?_, fun _ => ⟨_, .noStart hn⟩⟩
    rintro ⟨c, ⟨ch, hch, _⟩, _⟩
    rw [hn] at hch
    cases hch
  | some ch =>
    have h1 : (∃ r, RunsTransaction lower T t r) ↔ ∃ r, RunsPosts lower T ch t.trn t.posts r := by
      constructor
      · rintro ⟨r, h⟩
        cases h with
        | noStart h => rw [hn] at h; cases h
        | ok h h' => rw [hn] at h; cases h; exact ⟨_, h'⟩
        | error h h' => rw [hn] at h; cases h; exact ⟨_, h'⟩
      · rintro ⟨⟨e⟩ | ⟨t', ps'⟩, h⟩
        · exact ⟨_, .error hn h⟩
        · exact ⟨_, .ok hn h⟩
    have h2 : ∀ c, (∃ r, Runs lower T (.rules ch) c r) ↔ ∃ r, Runs lower T (.action (.jumpChain "start".toList)) c r := by
      intro c
      refine ⟨fun ⟨r, h⟩ => ⟨r, .jump hn h⟩, ?_⟩
      rintro ⟨r, h⟩
      cases h with
      | change h => cases h
      | jump h h' => rw [hn] at h; cases h; exact ⟨_, h'⟩
      | noChain h => rw [hn] at h; cases h
    rw [h1, posts_end_iff]
    simp only [h2, jump_ends_iff]
    constructor
    · rintro h ⟨c, ⟨ch', hch', hm⟩, hf⟩
      rw [hn] at hch'
      cases hch'
      exact h c hm hf
    · intro h c hm hf
      exact h ⟨c, ⟨ch, hn, hm⟩, hf⟩

/-- The same for the code: it does not come to an end, whatever number of nested jumps it may make. -/
theorem C33_exact_code (lower : Str → Str) (T : Table) (t : TransactionPostings) :
    (∀ fuel, T.updateTransaction lower fuel t = .error .diverged) ↔
      ∃ c, StartsWith lower T t c ∧ ∃ f : Nat → Str × Ctx, f 0 = ("start".toList, c) ∧ ∀ i, CallsFrom lower T (f i) (f (i + 1)) := by
  rw [← not_iff_not, ← C33_exact]
  constructor
  · intro h
    obtain ⟨fuel, h⟩ := not_forall.1 h
    exact ⟨_, (C31_semantics lower T t).1 fuel h⟩
  · rintro ⟨r, hr⟩ h
    obtain ⟨h1, n, h2⟩ := (C31_semantics lower T t).2 r hr
    exact h1 (by rw [← h2 n (Nat.le_refl _), h n])

/-! ### Endless means going in circles, unless descriptions grow -/

mutual
theorem occurs_finite (a : Action) : {b | Occurs b a}.Finite := by
  have base : ∀ a : Action, (∀ as, a ≠ .all as) → {b | Occurs b a}.Finite := by
    intro a ha
    refine (Set.finite_singleton a).subset ?_
    intro b hb
    cases hb with
    | here => rfl
    | inside => exact absurd rfl (ha _)
  cases a with
  | all as =>
    refine ((Set.finite_singleton (Action.all as)).union (occurs_finite_list as)).subset ?_
    intro b hb
    cases hb with
    | here => exact .inl rfl
    | inside h hb => exact .inr ⟨_, h, hb⟩
  | _ => exact base _ (by intro as h; cases h)
theorem occurs_finite_list (as : List Action) : {b | ∃ a ∈ as, Occurs b a}.Finite := by
  cases as with
  | nil => exact Set.finite_empty.subset (by rintro b ⟨a, h, _⟩; cases h)
  | cons a as =>
    refine ((occurs_finite a).union (occurs_finite_list as)).subset ?_
    rintro b ⟨a', h, hb⟩
    rcases List.mem_cons.1 h with rfl | h
    · exact .inl hb
    · exact .inr ⟨a', h, hb⟩
end

theorem names_finite (T : Table) : {name : Str | ∃ ch, T[name]? = some ch}.Finite := by
  refine (List.finite_toSet T.keys).subset ?_
  rintro name ⟨ch, h⟩
  exact Std.ExtTreeMap.mem_keys.2 (by rw [Std.ExtTreeMap.mem_iff_isSome_getElem?, h]; rfl)

theorem inTable_finite (T : Table) : {b | InTable T b}.Finite := by
  have h : ∀ name : Str, {b | ∃ ch, T[name]? = some ch ∧ ∃ r ∈ ch, Occurs b r.action}.Finite := by
    intro name
    cases hn : T[name]? with
    | none => exact Set.finite_empty.subset (by rintro b ⟨ch, h, _⟩; cases h)
    | some ch =>
      refine (occurs_finite_list (ch.map (·.action))).subset ?_
      rintro b ⟨ch', h, r, hr, hb⟩
      cases h
      exact ⟨r.action, List.mem_map_of_mem hr, hb⟩
  refine ((names_finite T).biUnion fun name _ => h name).subset ?_
  rintro b ⟨name, ch, hn, hb⟩
  exact Set.mem_biUnion (x := name) ⟨ch, hn⟩ ⟨ch, hn, hb⟩

/-- What actions in the set make of the context `c`: nothing new but what they add. -/
structure Near (S : Set Action) (D : Set Str) (c d : Ctx) : Prop where
  header : SameHeader c.trn d.trn
  posting : SamePosting c.post d.post
  description : d.trn.raw.description ∈ D
  account : d.post.raw.account = c.post.raw.account ∨ .setAccount d.post.raw.account ∈ S
  postTags : ∀ t ∈ d.post.comment.tags, t ∈ c.post.comment.tags ∨ .addPostingFlagTag t ∈ S
  trnTags : ∀ t ∈ d.trn.comment.tags, t ∈ c.trn.comment.tags ∨ .addTransactionFlagTag t ∈ S
  postValues : ∀ k v : Str, d.post.comment.valueTags[k]? = some v → c.post.comment.valueTags[k]? = some v ∨ .addPostingValueTag k v ∈ S
  trnValues : ∀ k v : Str, d.trn.comment.valueTags[k]? = some v → c.trn.comment.valueTags[k]? = some v ∨ .addTransactionValueTag k v ∈ S

theorem Near.refl (S : Set Action) {D : Set Str} (c : Ctx) (h : c.trn.raw.description ∈ D) : Near S D c c :=
  ⟨.refl _, .refl _, h, .inl rfl, fun _ h => .inl h, fun _ h => .inl h, fun _ _ h => .inl h, fun _ _ h => .inl h⟩

theorem Near.change {S : Set Action} {D : Set Str} (hD : ∀ f, .replaceTransactionDescription f ∈ S → ∀ s ∈ D, f s ∈ D)
    {a : Action} {c d d' : Ctx} (h : Changes a d d') (ha : a ∈ S) (hd : Near S D c d) : Near S D c d' := by
  have h1 := hd.header.trans (changes_same h).1
  have h2 := hd.posting.trans (changes_same h).2
  cases h with
  | addPostingFlagTag h =>
    refine ⟨h1, h2, hd.description, hd.account, ?_, hd.trnTags, hd.postValues, hd.trnValues⟩
    intro t ht
    rcases (h t).1 ht with rfl | ht
    · exact .inr ha
    · exact hd.postTags t ht
  | removePostingFlagTag h =>
    exact ⟨h1, h2, hd.description, hd.account, fun t ht => hd.postTags t ((h t).1 ht).2, hd.trnTags, hd.postValues, hd.trnValues⟩
  | addPostingValueTag e1 e2 =>
    rename_i key value values
    refine ⟨h1, h2, hd.description, hd.account, hd.postTags, hd.trnTags, ?_, hd.trnValues⟩
    intro k v hkv
    by_cases hk : k = key
    · subst hk; cases e1.symm.trans hkv; exact .inr ha
    · exact hd.postValues k v (by rw [← e2 k hk]; exact hkv)
  | removePostingValueTag e1 e2 =>
    rename_i key values
    refine ⟨h1, h2, hd.description, hd.account, hd.postTags, hd.trnTags, ?_, hd.trnValues⟩
    intro k v hkv
    by_cases hk : k = key
    · subst hk; cases e1.symm.trans hkv
    · exact hd.postValues k v (by rw [← e2 k hk]; exact hkv)
  | addTransactionFlagTag h =>
    refine ⟨h1, h2, hd.description, hd.account, hd.postTags, ?_, hd.postValues, hd.trnValues⟩
    intro t ht
    rcases (h t).1 ht with rfl | ht
    · exact .inr ha
    · exact hd.trnTags t ht
  | removeTransactionFlagTag h =>
    exact ⟨h1, h2, hd.description, hd.account, hd.postTags, fun t ht => hd.trnTags t ((h t).1 ht).2, hd.postValues, hd.trnValues⟩
  | addTransactionValueTag e1 e2 =>
    rename_i key value values
    refine ⟨h1, h2, hd.description, hd.account, hd.postTags, hd.trnTags, hd.postValues, ?_⟩
    intro k v hkv
    by_cases hk : k = key
    · subst hk; cases e1.symm.trans hkv; exact .inr ha
    · exact hd.trnValues k v (by rw [← e2 k hk]; exact hkv)
  | removeTransactionValueTag e1 e2 =>
    rename_i key values
    refine ⟨h1, h2, hd.description, hd.account, hd.postTags, hd.trnTags, hd.postValues, ?_⟩
    intro k v hkv
    by_cases hk : k = key
    · subst hk; cases e1.symm.trans hkv
    · exact hd.trnValues k v (by rw [← e2 k hk]; exact hkv)
  | setAccount => exact ⟨h1, h2, hd.description, .inr ha, hd.postTags, hd.trnTags, hd.postValues, hd.trnValues⟩
  | replaceTransactionDescription =>
    exact ⟨h1, h2, hD _ ha _ hd.description, hd.account, hd.postTags, hd.trnTags, hd.postValues, hd.trnValues⟩
  | noop => exact hd

/-- Only finitely many contexts are near a context. -/
theorem near_finite {S : Set Action} {D : Set Str} (hS : S.Finite) (hD : D.Finite) (c : Ctx) : {d | Near S D c d}.Finite := by
  have hA : ({c.post.raw.account} ∪ Action.setAccount ⁻¹' S).Finite :=
    (Set.finite_singleton _).union (hS.preimage (fun _ _ _ _ h => by cases h; rfl))
  have hV : ∀ m : StrMap, {e : Str × Str | m[e.1]? = some e.2}.Finite := by
    intro m
    refine (List.finite_toSet m.toList).subset ?_
    rintro ⟨k, v⟩ h
    exact Std.ExtTreeMap.mem_toList_iff_getElem?_eq_some.2 h
  have hT : ∀ m : TagSet, {t : Str | t ∈ m}.Finite := by
    intro m
    refine (List.finite_toSet m.toList).subset ?_
    intro t h
    exact Std.ExtTreeSet.mem_toList.2 h
  have hPT := ((hT c.post.comment.tags).union (hS.preimage (f := Action.addPostingFlagTag) (fun _ _ _ _ h => by cases h; rfl))).finite_subsets
  have hTT := ((hT c.trn.comment.tags).union (hS.preimage (f := Action.addTransactionFlagTag) (fun _ _ _ _ h => by cases h; rfl))).finite_subsets
  have hPV := ((hV c.post.comment.valueTags).union (hS.preimage (f := fun e : Str × Str => Action.addPostingValueTag e.1 e.2)
    (by rintro ⟨a, b⟩ _ ⟨a', b'⟩ _ h; simp only [Action.addPostingValueTag.injEq] at h; rw [h.1, h.2]))).finite_subsets
  have hTV := ((hV c.trn.comment.valueTags).union (hS.preimage (f := fun e : Str × Str => Action.addTransactionValueTag e.1 e.2)
    (by rintro ⟨a, b⟩ _ ⟨a', b'⟩ _ h; simp only [Action.addTransactionValueTag.injEq] at h; rw [h.1, h.2]))).finite_subsets
  refine Set.Finite.of_injOn (f := fun d : Ctx => (d.trn.raw.description, d.post.raw.account, {t | t ∈ d.post.comment.tags},
    {t | t ∈ d.trn.comment.tags}, {e : Str × Str | d.post.comment.valueTags[e.1]? = some e.2},
    {e : Str × Str | d.trn.comment.valueTags[e.1]? = some e.2})) ?_ ?_ (hD.prod (hA.prod (hPT.prod (hTT.prod (hPV.prod hTV)))))
  · intro d hd
    refine ⟨hd.description, ?_, ?_, ?_, ?_, ?_⟩
    · exact hd.account
    · exact fun t ht => hd.postTags t ht
    · exact fun t ht => hd.trnTags t ht
    · exact fun e he => hd.postValues e.1 e.2 he
    · exact fun e he => hd.trnValues e.1 e.2 he
  · intro d hd d' hd' h
    simp only [Prod.mk.injEq, Set.ext_iff, Set.mem_ofPred_eq] at h
    obtain ⟨e1, e2, e3, e4, e5, e6⟩ := h
    have map_ext : ∀ m m' : StrMap, (∀ e : Str × Str, m[e.1]? = some e.2 ↔ m'[e.1]? = some e.2) → m = m' := by
      intro m m' h
      refine Std.ExtTreeMap.ext_getElem? fun {k} => ?_
      refine Option.ext fun v => h (k, v)
    have e3' := Std.ExtTreeSet.ext_mem (t₁ := d.post.comment.tags) (t₂ := d'.post.comment.tags) fun {t} => e3 t
    have e4' := Std.ExtTreeSet.ext_mem (t₁ := d.trn.comment.tags) (t₂ := d'.trn.comment.tags) fun {t} => e4 t
    have e5' := map_ext _ _ e5
    have e6' := map_ext _ _ e6
    clear e3 e4 e5 e6
    have a := hd.header
    have a' := hd'.header
    have b := hd.posting
    have b' := hd'.posting
    obtain ⟨⟨⟨a1, a2, a3, a4, a5, a6, a7⟩, ⟨a8, a9, a10⟩⟩, ⟨⟨b1, b2, b3, b4, b5, b6⟩, ⟨b7, b8, b9⟩⟩⟩ := d
    obtain ⟨⟨⟨a1', a2', a3', a4', a5', a6', a7'⟩, ⟨a8', a9', a10'⟩⟩, ⟨⟨b1', b2', b3', b4', b5', b6'⟩, ⟨b7', b8', b9'⟩⟩⟩ := d'
    simp only at e1 e2 e3' e4' e5' e6'
    subst e1 e2 e3' e4' e5' e6'
    have := a.date.trans a'.date.symm
    have := a.effectiveDate.trans a'.effectiveDate.symm
    have := a.status.trans a'.status.symm
    have := a.code.trans a'.code.symm
    have := a.comment.trans a'.comment.symm
    have := a.postings.trans a'.postings.symm
    have := a.lines.trans a'.lines.symm
    have := b.amount.trans b'.amount.symm
    have := b.balance.trans b'.balance.symm
    have := b.status.trans b'.status.symm
    have := b.reality.trans b'.reality.symm
    have := b.comment.trans b'.comment.symm
    have := b.lines.trans b'.lines.symm
    simp_all

theorem calls_inv {I : Ctx → Prop} {P : Action → Prop}
    (hall : ∀ as, P (.all as) → ∀ a ∈ as, P a) (hch : ∀ {a c c'}, Changes a c c' → P a → I c → I c')
    (hT : ∀ (name : Str) (ch : Chain), T[name]? = some ch → ∀ r ∈ ch, P r.action) {j : Job} {c : Ctx} {name : Str} {c' : Ctx}
    (h : Calls lower T j c name c') : JobAll P j → I c → I c' := by
  induction h with
  | jump => exact fun _ h => h
  | all _ ih => exact fun hj => ih (hall _ hj)
  | first _ ih => exact fun hj => ih (hj _ List.mem_cons_self)
  | next h _ ih =>
    exact fun hj hc => ih (fun a ha => hj a (List.mem_cons_of_mem _ ha)) (runs_inv hall hch hT h (hj _ List.mem_cons_self) hc _ rfl)
  | skip _ _ ih => exact fun hj => ih fun r hr => hj r (List.mem_cons_of_mem _ hr)
  | rule _ _ ih => exact fun hj => ih (hj _ List.mem_cons_self)
  | continue_ _ h _ ih =>
    exact fun hj hc => ih (fun r hr => hj r (List.mem_cons_of_mem _ hr)) (runs_inv hall hch hT h (hj _ List.mem_cons_self) hc _ rfl)

/-- All the actions in an action are somewhere in the table. -/
def AllInTable (T : Table) (a : Action) : Prop := ∀ b, Occurs b a → InTable T b

theorem meets_inv {I : TransactionInternal → Prop} {P : Action → Prop}
    (hall : ∀ as, P (.all as) → ∀ a ∈ as, P a) (hch : ∀ {a c c'}, Changes a c c' → P a → I c.trn → I c'.trn)
    (hT : ∀ (name : Str) (ch : Chain), T[name]? = some ch → ∀ r ∈ ch, P r.action) {start : List Rule} (hs : ∀ r ∈ start, P r.action)
    {t : TransactionInternal} {ps : List PostingInternal} {c : Ctx} (h : Meets lower T start t ps c) : I t → I c.trn := by
  induction h with
  | here => exact fun h => h
  | later h _ ih => exact fun hi => ih (runs_inv (I := fun c => I c.trn) hall hch hT h hs hi _ rfl)

/-- C33, when the descriptions that the rules can write are finitely many: then applying the table to a transaction has no
result if and only if some chain is run again in the very context in which it is already running. -/
theorem C33_circles (lower : Str → Str) (T : Table) (t : TransactionPostings) (D : List Str) (hd : t.trn.raw.description ∈ D)
    (hD : ∀ f, InTable T (.replaceTransactionDescription f) → ∀ s ∈ D, f s ∈ D) :
    (∃ r, RunsTransaction lower T t r) ↔
      ¬ ∃ c, StartsWith lower T t c ∧ ∃ x, Relation.ReflTransGen (CallsFrom lower T) ("start".toList, c) x ∧
        Relation.TransGen (CallsFrom lower T) x x := by
  rw [C33_exact, not_iff_not]
  have hall : ∀ as, AllInTable T (.all as) → ∀ a ∈ as, AllInTable T a := fun as h a ha b hb => h b (.inside ha hb)
  have hT : ∀ (name : Str) (ch : Chain), T[name]? = some ch → ∀ r ∈ ch, AllInTable T r.action :=
    fun name ch hn r hr b hb => ⟨name, ch, hn, r, hr, hb⟩
  constructor
  · rintro ⟨c, hc, f, h0, hf⟩
    refine ⟨c, hc, ?_⟩
    have hcd : c.trn.raw.description ∈ D := by
      obtain ⟨ch, hn, hm⟩ := hc
      refine meets_inv (I := fun t => t.raw.description ∈ D) hall ?_ hT (hT _ _ hn) hm hd
      intro a c c' h ha hc
      exact (Near.change (D := {s | s ∈ D}) (S := {b | InTable T b}) hD h (ha _ .here) (Near.refl _ c hc)).description
    have hpath : ∀ i k, Relation.ReflTransGen (CallsFrom lower T) (f i) (f (i + k)) := by
      intro i k
      induction k with
      | zero => exact .refl
      | succ k ih => exact ih.tail (hf (i + k))
    have hnear : ∀ i, Near {b | InTable T b} {s | s ∈ D} c (f i).2 := by
      intro i
      induction i with
      | zero => rw [h0]; exact .refl _ _ hcd
      | succ i ih =>
        obtain ⟨ch, hn, hc⟩ := hf i
        exact calls_inv hall (fun h ha hc => Near.change hD h (ha _ .here) hc) hT hc (hT _ _ hn) ih
    have hfin : ({name : Str | ∃ ch, T[name]? = some ch} ×ˢ {d | Near {b | InTable T b} {s | s ∈ D} c d}).Finite :=
      (names_finite T).prod (near_finite (inTable_finite T) (List.finite_toSet D) c)
    have hmem : ∀ i, f i ∈ ({name : Str | ∃ ch, T[name]? = some ch} ×ˢ {d | Near {b | InTable T b} {s | s ∈ D} c d}) := by
      intro i
      obtain ⟨ch, hn, _⟩ := hf i
      exact ⟨⟨ch, hn⟩, hnear i⟩
    obtain ⟨i, j, hij, he⟩ : ∃ i j, i < j ∧ f i = f j := by
      have := hfin.to_subtype
      obtain ⟨i, j, hne, he⟩ := Finite.exists_ne_map_eq_of_infinite
        (fun i => (⟨f i, hmem i⟩ : ({name : Str | ∃ ch, T[name]? = some ch} ×ˢ {d | Near {b | InTable T b} {s | s ∈ D} c d} : Set _)))
      have he : f i = f j := congrArg Subtype.val he
      rcases Nat.lt_or_gt_of_ne hne with h | h
      · exact ⟨i, j, h, he⟩
      · exact ⟨j, i, h, he.symm⟩
    refine ⟨f i, ?_, ?_⟩
    · have := hpath 0 i
      rw [Nat.zero_add, h0] at this
      exact this
    · have h1 := Relation.TransGen.head' (hf i) (hpath (i + 1) (j - (i + 1)))
      rw [show i + 1 + (j - (i + 1)) = j by omega, ← he] at h1
      exact h1
  · rintro ⟨c, hc, x, h1, h2⟩
    refine ⟨c, hc, ?_⟩
    have hx : ¬ Acc (CalledFrom lower T) x := by
      intro h
      have hacc : Acc (Relation.TransGen (CalledFrom lower T)) x := h.transGen
      have h3 : Relation.TransGen (CalledFrom lower T) x x := by
        have := Relation.transGen_swap (r := CallsFrom lower T) (a := x) (b := x)
        exact this.2 h2
      clear h h1
      induction hacc with
      | intro x _ ih => exact ih x h3 h2 h3
    have hs : ¬ Acc (CalledFrom lower T) ("start".toList, c) := by
      intro h
      apply hx
      clear hx h2
      induction h1 with
      | refl => exact h
      | tail _ hy ih => exact ih.inv hy
    exact not_acc_iff_exists_descending_chain.1 hs

namespace Ex

/-- A chain that jumps to itself, once: it goes on only for postings without the tag that it adds. -/
def stops : Table := Std.ExtTreeMap.ofList
  [("start".toList, [⟨.not (.postingHasFlagTag "seen".toList), .all [.addPostingFlagTag "seen".toList, .jumpChain "start".toList],
    .continue_⟩])] compare

/-- A transaction with two postings. -/
def two : TransactionPostings := trn 1 "shop" [post "expenses" 5 [], post "bank" 6 []]

set_option maxRecDepth 100000 in
theorem stops_result : stops.updateTransaction id 3 two ≠ .error .diverged := by decide +kernel

theorem stops_start : stops["start".toList]? = some [⟨.not (.postingHasFlagTag "seen".toList),
    .all [.addPostingFlagTag "seen".toList, .jumpChain "start".toList], .continue_⟩] :=
  Std.ExtTreeMap.getElem?_ofList_of_mem (k := "start".toList)
    (Std.LawfulEqOrd.compare_eq_iff_eq.2 rfl) (by decide +kernel) List.mem_cons_self

end Ex

/-- The jumps of this table go round in a circle, so `C33_partial` says nothing about it; still it ends, so there are no
endless calls. -/
example : Relation.TransGen (JumpsTo Ex.stops) "start".toList "start".toList ∧
    ¬ ∃ c, StartsWith id Ex.stops Ex.two c ∧
      ∃ f : Nat → Str × Ctx, f 0 = ("start".toList, c) ∧ ∀ i, CallsFrom id Ex.stops (f i) (f (i + 1)) :=
  ⟨.single ⟨_, Ex.stops_start, _, List.mem_cons_self, .inside (List.mem_cons_of_mem _ List.mem_cons_self) .here⟩,
    (C33_exact ..).1 ⟨_, (C31_semantics ..).1 3 Ex.stops_result⟩⟩

/-- And two chains that call each other in the same context, for a table that writes no descriptions. -/
example : ¬ ∃ r, RunsTransaction id Ex.cyclic Ex.two r := by
  have hno : ∀ f, ¬ InTable Ex.cyclic (.replaceTransactionDescription f) := by
    rintro f ⟨name, ch, hn, r, hr, h⟩
    have ha : name ∈ Ex.cyclic := by rw [Std.ExtTreeMap.mem_iff_isSome_getElem?, hn]; rfl
    have ha : name = "start".toList ∨ name = "again".toList := by
      have := Std.ExtTreeMap.mem_ofList.1 ha
      simpa only [List.map_cons, List.map_nil, List.contains_cons, List.contains_nil, Bool.or_false, Bool.or_eq_true, beq_iff_eq] using this
    rcases ha with rfl | rfl
    · rw [Ex.cyclic_chains.1] at hn
      cases hn
      cases List.mem_singleton.1 hr
      cases h
    · rw [Ex.cyclic_chains.2] at hn
      cases hn
      cases List.mem_singleton.1 hr
      cases h
  refine fun h => (C33_circles id Ex.cyclic Ex.two [Ex.two.trn.raw.description] List.mem_cons_self (fun f h => absurd h (hno f))).1 h ?_
  have h1 : ∀ c, CallsFrom id Ex.cyclic ("start".toList, c) ("again".toList, c) := fun c =>
    ⟨_, Ex.cyclic_chains.1, .rule (show Holds id c .true_ by rw [Holds]; trivial) .jump⟩
  have h2 : ∀ c, CallsFrom id Ex.cyclic ("again".toList, c) ("start".toList, c) := fun c =>
    ⟨_, Ex.cyclic_chains.2, .rule (show Holds id c .true_ by rw [Holds]; trivial) .jump⟩
  exact ⟨_, ⟨_, Ex.cyclic_chains.1, .here⟩, _, .refl, .tail (.single (h1 _)) (h2 _)⟩

end Verif
