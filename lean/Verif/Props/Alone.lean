import Verif.Spec.Alone
import Verif.Props.RulesAgain
import Verif.Props.Looks
import Verif.Props.ExampleRules

/-!
# C107: the order of postings and of transactions under rules
-/

namespace Verif
open Rules Spec.RulesAgain RulesAgain Spec.Alone
open Spec.Looks (TagEdit View view dress)
open Spec (ledgerAt wholeWrite)

namespace Alone

/-- A description for which all goes as for `d₀`. -/
def Fine (T : Table) (d₀ d : Str) : Prop := d = d₀ ∨ ∀ r, RuleOf T r → ¬ Reads r.predicate .description

/-- A change of the tags of headers that the rules can make. -/
def Making (T : Table) (e : TagEdit) : Prop := ∃ r, RuleOf T r ∧ Makes r.action e

/-- Replacements one after the other. -/
def replaced (d : Str) (fs : List (Str → Str)) : Str := fs.foldl (fun s f => f s) d

/-- What is done for a posting: replacements of the description, changes of tags of the header, and what the posting becomes. -/
structure Done where
  fs : List (Str → Str)
  es : List TagEdit
  post : View

/-- The table can do that. -/
def Can (T : Table) : Except RuleErr Done → Prop
  | .error _ => True
  | .ok w => (∀ f ∈ w.fs, Replacing T f) ∧ ∀ e ∈ w.es, Making T e

theorem Fine.replaced {T : Table} (hT : NotBoth T) {d₀ d : Str} (h : Fine T d₀ d) {fs : List (Str → Str)} (hf : ∀ f ∈ fs, Replacing T f) :
    Fine T d₀ (Alone.replaced d fs) := by
  rcases hT with hT | hT
  · cases fs with
    | nil => exact h
    | cons f fs =>
      obtain ⟨r, hr, h'⟩ := hf f List.mem_cons_self
      exact absurd h' (hT r hr f)
  · exact .inr hT

/-- The same is done whatever the header is, but for the description. -/
def Free (T : Table) (d₀ : Str) (f : Ctx → Res) : Prop := ∀ v, ∃ o : Except RuleErr Done, Can T o ∧
  ∀ d es t p, Fine T d₀ d → f (Looks.ctx ⟨d, es, v⟩ t p) = o.map fun w => Looks.ctx ⟨replaced d w.fs, es ++ w.es, w.post⟩ t p

variable {T : Table} {lower : Str → Str} {d₀ : Str}

theorem Free.ok : Free T d₀ fun c => .ok c := fun v => ⟨.ok ⟨[], [], v⟩, ⟨nofun, nofun⟩, fun d es t p _ => by
  simp only [Except.map, replaced, List.foldl_nil, List.append_nil]⟩

theorem Free.bind (hT : NotBoth T) {f g : Ctx → Res} (hf : Free T d₀ f) (hg : Free T d₀ g) : Free T d₀ fun c => match f c with
    | .error e => .error e
    | .ok c => g c := by
  intro v
  obtain ⟨o, hc, ho⟩ := hf v
  match o with
  | .error e => exact ⟨.error e, trivial, fun d es t p hd => by simp only [ho d es t p hd]; rfl⟩
  | .ok ⟨fs, es₁, v'⟩ =>
    obtain ⟨o', hc', ho'⟩ := hg v'
    match o' with
    | .error e => exact ⟨.error e, trivial, fun d es t p hd => by
        simp only [ho d es t p hd]
        exact ho' _ _ t p (hd.replaced hT hc.1)⟩
    | .ok ⟨fs', es₂, v''⟩ =>
      refine ⟨.ok ⟨fs ++ fs', es₁ ++ es₂, v''⟩, ⟨fun f hf => ?_, fun e he => ?_⟩, fun d es t p hd => ?_⟩
      · rcases List.mem_append.1 hf with h | h
        · exact hc.1 f h
        · exact hc'.1 f h
      · rcases List.mem_append.1 he with h | h
        · exact hc.2 e h
        · exact hc'.2 e h
      · simp only [ho d es t p hd]
        refine (ho' _ _ t p (hd.replaced hT hc.1)).trans ?_
        simp only [Except.map, replaced, List.foldl_append, List.append_assoc]

theorem free_pred {q : Predicate} {r : Rule} (hr : RuleOf T r) (hq : r.predicate = q) (v : View) (d : Str) (es : List TagEdit)
    (t : TransactionInternal) (p : PostingInternal) (hd : Fine T d₀ d) :
    q.isMatch lower (Looks.ctx ⟨d, es, v⟩ t p) = q.isMatch lower (Looks.ctx ⟨d₀, [], v⟩ default default) := by
  refine agree_pred q fun l hl => ?_
  cases l with
  | description =>
    rcases hd with rfl | hd
    · rfl
    · exact absurd (hq ▸ hl) (hd r hr)
  | trnTag tag =>
    exfalso
    generalize hx : Place.trnTag tag = x at hl
    clear hq
    induction hl with
    | all _ _ ih => exact ih hx
    | any _ _ ih => exact ih hx
    | not _ ih => exact ih hx
    | _ => cases hx
  | trnValue key =>
    exfalso
    generalize hx : Place.trnValue key = x at hl
    clear hq
    induction hl with
    | all _ _ ih => exact ih hx
    | any _ _ ih => exact ih hx
    | not _ ih => exact ih hx
    | _ => cases hx
  | _ => rfl

mutual
theorem free_action (hT : NotBoth T) {J : Str → Ctx → Res} (hJ : ∀ name, Free T d₀ (J name)) (a : Action)
    (hm : ∀ e, Makes a e → Making T e) (hr : ∀ f, Replaces a f → Replacing T f) : Free T d₀ (a.apply J) := by
  have post : ∀ {g : View → View}, (∀ d es v t p, a.apply J (Looks.ctx ⟨d, es, v⟩ t p) = .ok (Looks.ctx ⟨d, es, g v⟩ t p)) →
      Free T d₀ (a.apply J) := fun {g} h v => ⟨.ok ⟨[], [], g v⟩, ⟨nofun, nofun⟩, fun d es t p _ => by
    rw [h]
    simp only [Except.map, replaced, List.foldl_nil, List.append_nil]⟩
  have header : ∀ e, Makes a e → (∀ c : Ctx, a.apply J c = .ok ⟨⟨c.trn.raw, TagEdit.apply c.trn.comment e⟩, c.post⟩) → Free T d₀ (a.apply J) :=
    fun e he h v => ⟨.ok ⟨[], [e], v⟩, ⟨nofun, fun e' h' => by rw [List.mem_singleton.1 h']; exact hm e he⟩, fun d es t p _ => by
      rw [h]
      simp only [Except.map, replaced, List.foldl_nil, Looks.ctx, Looks.hdr, List.foldl_append, List.foldl_cons]⟩
  cases a with
  | addPostingFlagTag tag => exact post (g := fun v => ⟨v.account, v.tags.insert tag, v.valueTags⟩) fun d es v t p => rfl
  | addPostingValueTag key value => exact post (g := fun v => ⟨v.account, v.tags, v.valueTags.insert key value⟩) fun d es v t p => rfl
  | removePostingFlagTag tag => exact post (g := fun v => ⟨v.account, v.tags.erase tag, v.valueTags⟩) fun d es v t p => rfl
  | removePostingValueTag key => exact post (g := fun v => ⟨v.account, v.tags, v.valueTags.erase key⟩) fun d es v t p => rfl
  | addTransactionFlagTag tag => exact header _ .add fun c => rfl
  | addTransactionValueTag key value => exact header _ .set fun c => rfl
  | removeTransactionFlagTag tag => exact header _ .remove fun c => rfl
  | removeTransactionValueTag key => exact header _ .unset fun c => rfl
  | all as =>
    rw [show (Action.all as).apply J = Action.applyAll J as from funext fun c => by rw [Action.apply]]
    exact free_actions hT hJ as (fun a ha e he => hm e (.inside ha he)) fun a ha f hf => hr f (.inside ha hf)
  | error msg => exact fun v => ⟨.error (.reported msg), trivial, fun d es t p _ => rfl⟩
  | noop => exact post (g := fun v => v) fun d es v t p => rfl
  | jumpChain name =>
    rw [show (Action.jumpChain name).apply J = J name from funext fun c => by rw [Action.apply]]
    exact hJ name
  | setAccount account => exact post (g := fun v => ⟨account, v.tags, v.valueTags⟩) fun d es v t p => rfl
  | replaceTransactionDescription f =>
    exact fun v => ⟨.ok ⟨[f], [], v⟩, ⟨fun g h' => by rw [List.mem_singleton.1 h']; exact hr f .here, nofun⟩, fun d es t p _ => by
      simp only [Except.map, replaced, List.foldl_nil, List.foldl_cons, List.append_nil]
      rfl⟩
theorem free_actions (hT : NotBoth T) {J : Str → Ctx → Res} (hJ : ∀ name, Free T d₀ (J name)) (as : List Action)
    (hm : ∀ a ∈ as, ∀ e, Makes a e → Making T e) (hr : ∀ a ∈ as, ∀ f, Replaces a f → Replacing T f) :
    Free T d₀ (Action.applyAll J as) := by
  cases as with
  | nil =>
    rw [show Action.applyAll J [] = _ from funext fun c => by rw [Action.applyAll]]
    exact .ok
  | cons a as =>
    rw [show Action.applyAll J (a :: as) = _ from funext fun c => by rw [Action.applyAll]]
    exact .bind hT (free_action hT hJ a (hm a List.mem_cons_self) (hr a List.mem_cons_self))
      (free_actions hT hJ as (fun a ha => hm a (List.mem_cons_of_mem _ ha)) fun a ha => hr a (List.mem_cons_of_mem _ ha))
end

theorem free_chain (hT : NotBoth T) {J : Str → Ctx → Res} (hJ : ∀ name, Free T d₀ (J name)) (ch : Chain) (hch : ∀ r ∈ ch, RuleOf T r) :
    Free T d₀ (Chain.apply lower J ch) := by
  induction ch with
  | nil =>
    rw [show Chain.apply lower J [] = _ from funext fun c => by rw [Chain.apply]]
    exact .ok
  | cons r rs ih =>
    have ih := ih fun r' h => hch r' (List.mem_cons_of_mem _ h)
    have hr := hch r List.mem_cons_self
    have ha := free_action hT hJ r.action (fun e he => ⟨r, hr, he⟩) fun f hf => ⟨r, hr, hf⟩
    intro v
    cases hm : r.predicate.isMatch lower (Looks.ctx ⟨d₀, [], v⟩ default default) with
    | false =>
      obtain ⟨o, hc, ho⟩ := ih v
      refine ⟨o, hc, fun d es t p hd => ?_⟩
      rw [Chain.apply, Rule.apply, free_pred hr rfl v d es t p hd, hm]
      exact ho d es t p hd
    | true =>
      obtain ⟨q, a, res⟩ := r
      match res with
      | .return_ =>
        obtain ⟨o, hc, ho⟩ := ha v
        refine ⟨o, hc, fun d es t p hd => ?_⟩
        rw [Chain.apply, Rule.apply, free_pred hr rfl v d es t p hd, hm, if_pos rfl, ho d es t p hd]
        match o with
        | .error e => rfl
        | .ok w => rfl
      | .continue_ =>
        obtain ⟨o, hc, ho⟩ := ha.bind hT ih v
        refine ⟨o, hc, fun d es t p hd => ?_⟩
        rw [Chain.apply, Rule.apply, free_pred hr rfl v d es t p hd, hm, if_pos rfl, ← ho d es t p hd]
        dsimp only
        match a.apply J (Looks.ctx ⟨d, es, v⟩ t p) with
        | .error e => rfl
        | .ok c => rfl

theorem getChain_rules {name : Str} {ch : Chain} (h : T.getChain name = .ok ch) : ∀ r ∈ ch, RuleOf T r := by
  intro r hr
  rw [Table.getChain] at h
  cases hc : T[name]? with
  | none => rw [hc] at h; cases h
  | some ch' =>
    rw [hc] at h
    cases h
    exact ⟨name, ch, hc, hr⟩

theorem free_jump (hT : NotBoth T) (fuel : Nat) (name : Str) : Free T d₀ (T.jump lower fuel name) := by
  induction fuel generalizing name with
  | zero => exact fun v => ⟨.error .diverged, trivial, fun d es t p _ => rfl⟩
  | succ n ih =>
    cases hc : T.getChain name with
    | error e => exact fun v => ⟨.error e, trivial, fun d es t p _ => by rw [Table.jump, hc]; rfl⟩
    | ok ch =>
      have := free_chain (lower := lower) hT ih ch (getChain_rules hc)
      rw [show T.jump lower (n + 1) name = Chain.apply lower (T.jump lower n) ch from funext fun c => by rw [Table.jump, hc]]
      exact this

/-- What is done for each posting, by itself. -/
theorem free_start (hT : NotBoth T) (fuel : Nat) {start : Chain} (hs : T.getChain startChain = .ok start) (d₀ : Str) :
    ∃ D : View → Except RuleErr Done, (∀ v, Can T (D v)) ∧ ∀ v d es t p, Fine T d₀ d →
      Chain.apply lower (T.jump lower fuel) start (Looks.ctx ⟨d, es, v⟩ t p) =
        (D v).map fun w => Looks.ctx ⟨replaced d w.fs, es ++ w.es, w.post⟩ t p := by
  have := free_chain (lower := lower) (d₀ := d₀) hT (free_jump (lower := lower) hT fuel) start (getChain_rules hs)
  obtain ⟨D, hD⟩ := Classical.skolem.1 this
  exact ⟨D, fun v => (hD v).1, fun v d es t p hd => (hD v).2 d es t p hd⟩

/-- What is done for all the postings. -/
theorem free_posts (hT : NotBoth T) (fuel : Nat) {start : Chain} {d₀ : Str} {D : View → Except RuleErr Done} (hc : ∀ v, Can T (D v))
    (hD : ∀ v d es t p, Fine T d₀ d → Chain.apply lower (T.jump lower fuel) start (Looks.ctx ⟨d, es, v⟩ t p) =
      (D v).map fun w => Looks.ctx ⟨replaced d w.fs, es ++ w.es, w.post⟩ t p)
    (t : TransactionInternal) (ps : List PostingInternal) : ∀ d es, Fine T d₀ d → ∀ t' qs,
    T.updatePosts lower fuel start (Looks.hdr d es t) ps = .ok (t', qs) ↔ ∃ ws : List Done, List.Forall₂ (fun p w => D (view p) = .ok w) ps ws ∧
      t' = Looks.hdr (replaced d (ws.map Done.fs).flatten) (es ++ (ws.map Done.es).flatten) t ∧ qs = List.zipWith (fun p w => dress p w.post) ps ws := by
  induction ps with
  | nil =>
    intro d es _ t' qs
    rw [Table.updatePosts]
    constructor
    · intro h
      cases h
      exact ⟨[], .nil, by rw [List.map_nil, List.flatten_nil, List.map_nil, List.flatten_nil, List.append_nil]; rfl, rfl⟩
    · rintro ⟨ws, h, rfl, rfl⟩
      cases h
      rw [List.map_nil, List.flatten_nil, List.map_nil, List.flatten_nil, List.append_nil]
      rfl
  | cons p ps ih =>
    intro d es hd t' qs
    rw [Table.updatePosts, show (⟨Looks.hdr d es t, p⟩ : Ctx) = Looks.ctx ⟨d, es, view p⟩ t p from rfl, hD _ _ _ _ _ hd]
    cases hw : D (view p) with
    | error e =>
      refine iff_of_false nofun ?_
      rintro ⟨ws, h, -⟩
      cases h with
      | cons h _ => cases hw.symm.trans h
    | ok w =>
      have hcan := hc (view p)
      rw [hw] at hcan
      have ih := ih (replaced d w.fs) (es ++ w.es) (hd.replaced hT hcan.1)
      simp only [Except.map]
      show (match T.updatePosts lower fuel start (Looks.hdr (replaced d w.fs) (es ++ w.es) t) ps with
        | .error e => _
        | .ok (t', ps') => _) = _ ↔ _
      constructor
      · intro h
        match hu : T.updatePosts lower fuel start (Looks.hdr (replaced d w.fs) (es ++ w.es) t) ps with
        | .error e => rw [hu] at h; cases h
        | .ok (t₁, qs₁) =>
          rw [hu] at h
          cases h
          obtain ⟨ws, h1, h2, h3⟩ := (ih _ _).1 hu
          refine ⟨w :: ws, .cons hw h1, ?_, ?_⟩
          · rw [h2, List.map_cons, List.map_cons, List.flatten_cons, List.flatten_cons, replaced, replaced, replaced, List.foldl_append,
              List.append_assoc]
          · rw [h3]
            rfl
      · rintro ⟨ws, h, rfl, rfl⟩
        cases h with
        | cons h hs =>
          rename_i w' ws
          cases hw.symm.trans h
          rw [(ih _ _).2 ⟨ws, hs, rfl, rfl⟩]
          rw [List.map_cons, List.map_cons, List.flatten_cons, List.flatten_cons, replaced, replaced, replaced, List.foldl_append,
              List.append_assoc]
          rfl

/-- A transaction after the rules, written with what is done for each posting by itself. -/
theorem free_transaction (hT : NotBoth T) (lower : Str → Str) (fuel : Nat) (d₀ : Str) {start : Chain} (hs : T.getChain startChain = .ok start) :
    ∃ D : View → Except RuleErr Done, (∀ v, Can T (D v)) ∧ ∀ t : TransactionInternal, t.raw.description = d₀ → ∀ ps u,
      T.updateTransaction lower fuel ⟨t, ps⟩ = .ok u ↔ ∃ ws : List Done, List.Forall₂ (fun p w => D (view p) = .ok w) ps ws ∧
        u = ⟨Looks.hdr (replaced d₀ (ws.map Done.fs).flatten) (ws.map Done.es).flatten t, List.zipWith (fun p w => dress p w.post) ps ws⟩ := by
  obtain ⟨D, hc, hD⟩ := free_start (lower := lower) hT fuel hs d₀
  refine ⟨D, hc, fun t ht ps u => ?_⟩
  have h := free_posts hT fuel hc hD t ps d₀ [] (.inl rfl)
  rw [show Looks.hdr d₀ [] t = t by subst ht; rfl] at h
  rw [Table.updateTransaction, hs]
  constructor
  · intro hu
    match hp : T.updatePosts lower fuel start t ps with
    | .error e => simp only [hp] at hu; cases hu
    | .ok (t', qs) =>
      simp only [hp] at hu
      cases hu
      obtain ⟨ws, h1, rfl, rfl⟩ := (h _ _).1 hp
      exact ⟨ws, h1, rfl⟩
  · rintro ⟨ws, h1, rfl⟩
    simp only [(h _ _).2 ⟨ws, h1, rfl, rfl⟩]
    rfl

theorem perm_forall₂ {α β : Type} {R : α → β → Prop} {l l' : List α} (hp : l.Perm l') :
    ∀ {m : List β}, List.Forall₂ R l m → ∃ m', List.Forall₂ R l' m' ∧ (l.zip m).Perm (l'.zip m') ∧ m.Perm m' := by
  induction hp with
  | nil =>
    intro m h
    cases h
    exact ⟨[], .nil, .refl _, .refl _⟩
  | cons a _ ih =>
    intro m h
    cases h with
    | cons h1 h2 =>
      obtain ⟨m', h3, h4, h5⟩ := ih h2
      exact ⟨_ :: m', .cons h1 h3, h4.cons _, h5.cons _⟩
  | swap a b l =>
    intro m h
    cases h with
    | cons h1 h2 =>
      cases h2 with
      | cons h2 h3 => exact ⟨_ :: _ :: _, .cons h2 (.cons h1 h3), .swap _ _ _, .swap _ _ _⟩
  | trans _ _ ih ih' =>
    intro m h
    obtain ⟨m', h1, h2, h3⟩ := ih h
    obtain ⟨m'', h4, h5, h6⟩ := ih' h1
    exact ⟨m'', h4, h2.trans h5, h3.trans h6⟩

theorem getChain_of_ok {fuel : Nat} {t u : TransactionPostings} (h : T.updateTransaction lower fuel t = .ok u) :
    ∃ start, T.getChain startChain = .ok start := by
  rw [Table.updateTransaction] at h
  cases hs : T.getChain startChain with
  | error e => rw [hs] at h; cases h
  | ok start => exact ⟨start, rfl⟩

theorem comm_edit (hT : OneWay T) {e e' : TagEdit} (he : Making T e) (he' : Making T e') (c : Comment) :
    TagEdit.apply (TagEdit.apply c e) e' = TagEdit.apply (TagEdit.apply c e') e := by
  obtain ⟨r, hr, hm⟩ := he
  obtain ⟨r', hr', hm'⟩ := he'
  have tags : ∀ {a b : TagSet}, (∀ x, x ∈ a ↔ x ∈ b) → a = b := fun h => Std.ExtTreeSet.ext_mem h
  have vals : ∀ {a b : StrMap}, (∀ k, a[k]? = b[k]?) → a = b := fun h => Std.ExtTreeMap.ext_getElem? h
  match e, e' with
  | .add x, .add y =>
    refine congrArg (fun s => (⟨c.lines, s, c.valueTags⟩ : Comment)) (tags fun z => ?_)
    simp only [TagEdit.apply, Std.ExtTreeSet.mem_insert]
    tauto
  | .add x, .remove y =>
    have hxy : x ≠ y := by rintro rfl; exact hT.tags r r' x hr hr' hm hm'
    refine congrArg (fun s => (⟨c.lines, s, c.valueTags⟩ : Comment)) (tags fun z => ?_)
    simp only [TagEdit.apply, Std.ExtTreeSet.mem_insert, Std.ExtTreeSet.mem_erase, Std.compare_eq_iff_eq, ne_eq]
    by_cases h : x = z
    · subst h
      simp [hxy.symm]
    · simp [h]
  | .remove x, .add y =>
    have hxy : x ≠ y := by rintro rfl; exact hT.tags r' r x hr' hr hm' hm
    refine congrArg (fun s => (⟨c.lines, s, c.valueTags⟩ : Comment)) (tags fun z => ?_)
    simp only [TagEdit.apply, Std.ExtTreeSet.mem_insert, Std.ExtTreeSet.mem_erase, Std.compare_eq_iff_eq, ne_eq]
    by_cases h : y = z
    · subst h
      simp [hxy]
    · simp [h]
  | .remove x, .remove y =>
    refine congrArg (fun s => (⟨c.lines, s, c.valueTags⟩ : Comment)) (tags fun z => ?_)
    simp only [TagEdit.apply, Std.ExtTreeSet.mem_erase]
    tauto
  | .set k v, .set k' v' =>
    refine congrArg (fun s => (⟨c.lines, c.tags, s⟩ : Comment)) (vals fun z => ?_)
    simp only [TagEdit.apply, Std.ExtTreeMap.getElem?_insert, Std.compare_eq_iff_eq]
    by_cases h : k = z
    · by_cases h' : k' = z
      · subst h
        subst h'
        rw [hT.values r r' _ _ _ hr hr' hm hm']
      · rw [if_neg h', if_neg h', if_pos h]
    · rw [if_neg h, if_neg h]
  | .set k v, .unset k' =>
    have hk : k ≠ k' := by rintro rfl; exact hT.removed r r' k v hr hr' hm hm'
    refine congrArg (fun s => (⟨c.lines, c.tags, s⟩ : Comment)) (vals fun z => ?_)
    simp only [TagEdit.apply, Std.ExtTreeMap.getElem?_insert, Std.ExtTreeMap.getElem?_erase, Std.compare_eq_iff_eq]
    by_cases h : k = z
    · subst h
      rw [if_neg hk.symm, if_pos rfl, if_pos rfl]
    · rw [if_neg h, if_neg h]
  | .unset k, .set k' v =>
    have hk : k ≠ k' := by rintro rfl; exact hT.removed r' r k v hr' hr hm' hm
    refine congrArg (fun s => (⟨c.lines, c.tags, s⟩ : Comment)) (vals fun z => ?_)
    simp only [TagEdit.apply, Std.ExtTreeMap.getElem?_insert, Std.ExtTreeMap.getElem?_erase, Std.compare_eq_iff_eq]
    by_cases h : k' = z
    · subst h
      simp [hk]
    · rw [if_neg h, if_neg h]
  | .unset k, .unset k' =>
    refine congrArg (fun s => (⟨c.lines, c.tags, s⟩ : Comment)) (vals fun z => ?_)
    simp only [TagEdit.apply, Std.ExtTreeMap.getElem?_erase]
    by_cases h : compare k z = .eq <;> by_cases h' : compare k' z = .eq <;> simp [h, h']
  | .add _, .set _ _ | .add _, .unset _ | .remove _, .set _ _ | .remove _, .unset _ => rfl
  | .set _ _, .add _ | .set _ _, .remove _ | .unset _, .add _ | .unset _, .remove _ => rfl

end Alone

open Alone

/-- **C107.** Unless the rules both look at descriptions and replace them, what becomes of the postings of a transaction is what becomes of each
if it is the only posting of the transaction: the rules go through if they do for each posting by itself, and then give those postings. -/
theorem C107_alone (lower : Str → Str) (T : Table) (hT : NotBoth T) (fuel : Nat) (t : TransactionInternal) (ps qs : List PostingInternal) (hne : ps ≠ []) :
    (∃ t', T.updateTransaction lower fuel ⟨t, ps⟩ = .ok ⟨t', qs⟩) ↔
      List.Forall₂ (fun p q => ∃ t', T.updateTransaction lower fuel ⟨t, [p]⟩ = .ok ⟨t', [q]⟩) ps qs := by
  by_cases hs : ∃ start, T.getChain startChain = .ok start
  · obtain ⟨start, hs⟩ := hs
    obtain ⟨D, hc, hD⟩ := free_transaction hT lower fuel t.raw.description hs
    have h1 : ∀ p q, (∃ t', T.updateTransaction lower fuel ⟨t, [p]⟩ = .ok ⟨t', [q]⟩) ↔ ∃ w, D (view p) = .ok w ∧ q = dress p w.post := by
      intro p q
      constructor
      · rintro ⟨t', h⟩
        obtain ⟨ws, h1, h2⟩ := (hD t rfl _ _).1 h
        cases h1 with
        | cons h1 h3 =>
          cases h3
          cases h2
          exact ⟨_, h1, rfl⟩
      · rintro ⟨w, h, rfl⟩
        exact ⟨_, (hD t rfl _ _).2 ⟨[w], .cons h .nil, rfl⟩⟩
    simp only [h1]
    clear h1 hne
    constructor
    · rintro ⟨t', h⟩
      obtain ⟨ws, h1, h2⟩ := (hD t rfl _ _).1 h
      cases h2
      clear h
      induction h1 with
      | nil => exact .nil
      | cons h _ ih => exact .cons ⟨_, h, rfl⟩ ih
    · intro h
      obtain ⟨ws, h1, h2⟩ : ∃ ws : List Done, List.Forall₂ (fun p w => D (view p) = .ok w) ps ws ∧ qs = List.zipWith (fun p w => dress p w.post) ps ws := by
        induction h with
        | nil => exact ⟨[], .nil, rfl⟩
        | cons h _ ih =>
          obtain ⟨ws, h1, rfl⟩ := ih
          obtain ⟨w, h, rfl⟩ := h
          exact ⟨w :: ws, .cons h h1, rfl⟩
      subst h2
      exact ⟨_, (hD t rfl _ _).2 ⟨ws, h1, rfl⟩⟩
  · refine iff_of_false (fun ⟨t', h⟩ => hs (getChain_of_ok h)) fun h => ?_
    cases h with
    | nil => exact hne rfl
    | cons h _ =>
      obtain ⟨t', h⟩ := h
      exact hs (getChain_of_ok h)

/-- **C107, the order of postings.** With such rules, if the postings of a transaction are in another order each becomes what it became before, in its new
place. If the rules agree about headers, the header becomes the same too. -/
theorem C107_order (lower : Str → Str) (T : Table) (hT : NotBoth T) (fuel : Nat) (t : TransactionInternal) (ps ps' : List PostingInternal) (hp : ps.Perm ps')
    (u : TransactionPostings) (hu : T.updateTransaction lower fuel ⟨t, ps⟩ = .ok u) :
    ∃ u', T.updateTransaction lower fuel ⟨t, ps'⟩ = .ok u' ∧ (ps.zip u.posts).Perm (ps'.zip u'.posts) ∧ (OneWay T → u.trn = u'.trn) := by
  obtain ⟨start, hs⟩ := getChain_of_ok hu
  obtain ⟨D, hc, hD⟩ := free_transaction hT lower fuel t.raw.description hs
  obtain ⟨ws, h1, rfl⟩ := (hD t rfl _ _).1 hu
  obtain ⟨ws', h2, h3, h4⟩ := perm_forall₂ hp h1
  refine ⟨_, (hD t rfl _ _).2 ⟨ws', h2, rfl⟩, ?_, fun hO => ?_⟩
  · have e : ∀ (ps : List PostingInternal) (ws : List Done), ps.zip (List.zipWith (fun p w => dress p w.post) ps ws) =
        (ps.zip ws).map fun x => (x.1, dress x.1 x.2.post) := by
      intro ps
      induction ps with
      | nil => intro ws; rfl
      | cons p ps ih =>
        intro ws
        cases ws with
        | nil => rfl
        | cons w ws => exact congrArg _ (ih ws)
    show (ps.zip (List.zipWith _ ps ws)).Perm (ps'.zip (List.zipWith _ ps' ws'))
    rw [e, e]
    exact h3.map _
  · have hall : ∀ w ∈ ws, (∀ f ∈ w.fs, Replacing T f) ∧ ∀ e ∈ w.es, Making T e := by
      clear hu h3 h4 h2 hp
      induction h1 with
      | nil => nofun
      | cons h _ ih =>
        intro w hw
        rcases List.mem_cons.1 hw with rfl | hw
        · rename_i p _ _ _
          have := hc (view p)
          rw [h] at this
          exact this
        · exact ih w hw
    have e1 : replaced t.raw.description (ws.map Done.fs).flatten = replaced t.raw.description (ws'.map Done.fs).flatten := by
      refine (h4.map Done.fs).flatten.foldl_eq' (fun f hf g hg z => ?_) _
      obtain ⟨l, hl, hf⟩ := List.mem_flatten.1 hf
      obtain ⟨w, hw, rfl⟩ := List.mem_map.1 hl
      obtain ⟨l, hl, hg⟩ := List.mem_flatten.1 hg
      obtain ⟨w', hw', rfl⟩ := List.mem_map.1 hl
      obtain ⟨r, hr, h⟩ := (hall w hw).1 f hf
      obtain ⟨r', hr', h'⟩ := (hall w' hw').1 g hg
      exact hO.descriptions r' r g f hr' hr h' h z
    have e2 : (ws.map Done.es).flatten.foldl TagEdit.apply t.comment = (ws'.map Done.es).flatten.foldl TagEdit.apply t.comment := by
      refine (h4.map Done.es).flatten.foldl_eq' (fun f hf g hg z => ?_) _
      obtain ⟨l, hl, hf⟩ := List.mem_flatten.1 hf
      obtain ⟨w, hw, rfl⟩ := List.mem_map.1 hl
      obtain ⟨l, hl, hg⟩ := List.mem_flatten.1 hg
      obtain ⟨w', hw', rfl⟩ := List.mem_map.1 hl
      exact comm_edit hO ((hall w hw).2 f hf) ((hall w' hw').2 g hg) z
    show Looks.hdr _ _ t = Looks.hdr _ _ t
    unfold Looks.hdr
    rw [e1, e2]

/-- **C107, the order of transactions.** With any rules, if the transactions are in another order each becomes what it became before, in its new place. -/
theorem C107_transactions (lower : Str → Str) (T : Table) (fuel : Nat) (ts ts' us : List TransactionPostings) (hp : ts.Perm ts')
    (hu : T.updateTransactions lower fuel ts = .ok us) :
    ∃ us', T.updateTransactions lower fuel ts' = .ok us' ∧ (ts.zip us).Perm (ts'.zip us') := by
  obtain ⟨us', h1, h2, _⟩ := perm_forall₂ hp (updateTransactions_ok.1 hu)
  exact ⟨us', updateTransactions_ok.2 h1, h2⟩

/-- **C107 with files.** Two runs of `apply-rules` with the same rules, in which no operation on files fails, on journals with the same transactions in
different orders: both fail and write nothing, or both write, and each transaction becomes the same in both. -/
theorem C107_command (lower : Str → Str) (T : Table) (fuel : Nat) (sys sys' : Sys) (h h' : HashOrder) (input output input' output' : FileSpec) (L L' : Ledger)
    (ts ts' : List TransactionPostings) (hf : ∀ n, sys.fault n = none) (hf' : ∀ n, sys'.fault n = none)
    (hL : ledgerAt sys sys.start false input = some L) (hL' : ledgerAt sys' sys'.start false input' = some L')
    (ht : TransactionPostings.fromLedger L = some ts) (ht' : TransactionPostings.fromLedger L' = some ts') (hp : ts.Perm ts') :
    (∃ e w e' w', applyRules sys h lower fuel (some T) input output World.start = (.error e, w) ∧ w.log = [] ∧
      applyRules sys' h' lower fuel (some T) input' output' World.start = (.error e', w') ∧ w'.log = []) ∨
    ∃ (us us' : List TransactionPostings) (w w' : World), us.length = ts.length ∧ us'.length = ts'.length ∧ (ts.zip us).Perm (ts'.zip us') ∧
      applyRules sys h lower fuel (some T) input output World.start = (.ok (), w) ∧
      w.log = wholeWrite sys output (sys.render (TransactionPostings.intoLedger h us)) ∧
      applyRules sys' h' lower fuel (some T) input' output' World.start = (.ok (), w') ∧
      w'.log = wholeWrite sys' output' (sys'.render (TransactionPostings.intoLedger h' us')) := by
  cases hu : T.updateTransactions lower fuel ts with
  | ok us =>
    obtain ⟨us', hu', hz⟩ := C107_transactions lower T fuel ts ts' us hp hu
    obtain ⟨w1, h1, h2⟩ := (applyRules_calm (h := h) (output := output) hf hL ht).1 _ hu
    obtain ⟨w3, h3, h4⟩ := (applyRules_calm (h := h') (output := output') hf' hL' ht').1 _ hu'
    exact .inr ⟨us, us', w1, w3, (updateTransactions_ok.1 hu).length_eq.symm, (updateTransactions_ok.1 hu').length_eq.symm, hz, h1, h2, h3, h4⟩
  | error e =>
    cases hu' : T.updateTransactions lower fuel ts' with
    | ok us' =>
      obtain ⟨us, hu2, _⟩ := C107_transactions lower T fuel ts' ts us' hp.symm hu'
      cases hu.symm.trans hu2
    | error e' =>
      obtain ⟨e1, w1, h1, h2⟩ := (applyRules_calm (h := h) (output := output) hf hL ht).2 e hu
      obtain ⟨e3, w3, h3, h4⟩ := (applyRules_calm (h := h') (output := output') hf' hL' ht').2 e' hu'
      exact .inl ⟨e1, w1, e3, w3, h1, h2, h3, h4⟩

/-! ### Examples -/

/-- The rules of /repo/examples/rules.ron meet the hypotheses. -/
theorem C107_example : NotBoth exampleTable ∧ OneWay exampleTable := by
  have hrep : ∀ r, RuleOf exampleTable r → ∀ f, ¬ Replaces r.action f := by
    rintro r ⟨name, ch, hn, hr⟩ f hf
    rcases example_steps _ (example_listed hn) r hr with h | ⟨as, h, hs⟩
    · rcases h with ⟨_, h⟩ | ⟨_, h⟩ | ⟨_, h⟩ | h | h <;> rw [h] at hf <;> cases hf
    · rw [h] at hf
      cases hf with
      | inside hm hf =>
        rcases hs _ hm with ⟨_, rfl⟩ | ⟨_, rfl⟩ | ⟨_, rfl⟩ | rfl | rfl <;> cases hf
  have hmake : ∀ r, RuleOf exampleTable r → ∀ e, ¬ Makes r.action e := by
    rintro r ⟨name, ch, hn, hr⟩ e he
    rcases example_steps _ (example_listed hn) r hr with h | ⟨as, h, hs⟩
    · rcases h with ⟨_, h⟩ | ⟨_, h⟩ | ⟨_, h⟩ | h | h <;> rw [h] at he <;> cases he
    · rw [h] at he
      cases he with
      | inside hm he =>
        rcases hs _ hm with ⟨_, rfl⟩ | ⟨_, rfl⟩ | ⟨_, rfl⟩ | rfl | rfl <;> cases he
  exact ⟨.inl hrep, fun r _ _ hr _ h => absurd h (hmake r hr _), fun r _ _ _ hr _ h => absurd h (hmake r hr _),
    fun r _ _ _ _ hr _ h => absurd h (hmake r hr _), fun r _ _ _ hr _ h => absurd h (hrep r hr _)⟩

/-- The description is replaced and not looked at; the header gets a tag for one posting and a value for another. -/
def Ex.aloneChain : Chain := [
  ⟨.account (.eq "expenses".toList), .all [.addTransactionFlagTag "spent".toList, .setAccount "food".toList], .continue_⟩,
  ⟨.account (.eq "cash".toList), .addTransactionValueTag "from".toList "purse".toList, .continue_⟩,
  ⟨.true_, .replaceTransactionDescription (fun _ => "shop".toList), .continue_⟩]

theorem Ex.table_rule {ch : Chain} {r : Rule} (h : RuleOf (Looks.table ch) r) : r ∈ ch := by
  obtain ⟨name, ch', hn, hr⟩ := h
  have hm : name ∈ Looks.table ch := Std.ExtTreeMap.mem_iff_isSome_getElem?.2 (by rw [hn]; rfl)
  rw [Looks.table, Std.ExtTreeMap.mem_ofList, List.contains_iff_mem] at hm
  cases List.mem_singleton.1 hm
  have := looks_table ch
  rw [Table.getChain, show (Looks.table ch)[startChain]? = some ch' from hn] at this
  cases this
  exact hr

/-- It meets the hypotheses. -/
theorem Ex.alone_table : NotBoth (Looks.table Ex.aloneChain) ∧ OneWay (Looks.table Ex.aloneChain) := by
  have hrules : ∀ {P : Rule → Prop}, (∀ r ∈ Ex.aloneChain, P r) → ∀ r, RuleOf (Looks.table Ex.aloneChain) r → P r := fun h r hr => h r (Ex.table_rule hr)
  have hread : ∀ r ∈ Ex.aloneChain, ¬ Reads r.predicate .description := by
    unfold Ex.aloneChain
    simp only [List.forall_mem_cons, List.not_mem_nil, false_implies, implies_true, and_true]
    exact ⟨nofun, nofun, nofun⟩
  have hmake : ∀ r ∈ Ex.aloneChain, ∀ e, Makes r.action e → e = .add "spent".toList ∨ e = .set "from".toList "purse".toList := by
    unfold Ex.aloneChain
    simp only [List.forall_mem_cons, List.not_mem_nil, false_implies, implies_true, and_true]
    refine ⟨fun e h => ?_, fun e h => ?_, nofun⟩
    · cases h with
      | inside hm h =>
        rcases List.mem_cons.1 hm with rfl | hm
        · cases h
          exact .inl rfl
        · cases List.mem_singleton.1 hm
          cases h
    · cases h
      exact .inr rfl
  have hrep : ∀ r ∈ Ex.aloneChain, ∀ f, Replaces r.action f → f = fun _ => "shop".toList := by
    unfold Ex.aloneChain
    simp only [List.forall_mem_cons, List.not_mem_nil, false_implies, implies_true, and_true]
    refine ⟨fun f h => ?_, nofun, fun f h => ?_⟩
    · cases h with
      | inside hm h =>
        rcases List.mem_cons.1 hm with rfl | hm
        · cases h
        · cases List.mem_singleton.1 hm
          cases h
    · cases h
      rfl
  refine ⟨.inr (hrules hread), fun r r' tag _ hr' _ h => ?_, fun r r' key value _ hr' _ h => ?_, fun r r' key v v' hr hr' h h' => ?_, fun r r' f g hr hr' h h' s => ?_⟩
  · rcases hrules hmake r' hr' _ h with h | h <;> cases h
  · rcases hrules hmake r' hr' _ h with h | h <;> cases h
  · rcases hrules hmake r hr _ h with h | h <;> cases h
    rcases hrules hmake r' hr' _ h' with h | h <;> cases h
    rfl
  · rw [hrules hrep r hr _ h, hrules hrep r' hr' _ h']

set_option maxRecDepth 100000 in
/-- The hypotheses of `C107_command` are met, and both runs succeed. -/
example (h h' : HashOrder) (out out' : FileSpec) : ∃ w w',
    applyRules (Ex.filled [Ex.trn 1 "shop" [Ex.post "expenses" 5 [], Ex.post "cash" (-5) []], Ex.trn 7 "shop" [Ex.post "expenses" 9 [], Ex.post "cash" (-9) []]])
      h id 3 (some Ex.rules) (.path "a".toList) out World.start = (.ok (), w) ∧
    applyRules (Ex.filled [Ex.trn 7 "shop" [Ex.post "expenses" 9 [], Ex.post "cash" (-9) []], Ex.trn 1 "shop" [Ex.post "expenses" 5 [], Ex.post "cash" (-5) []]])
      h' id 3 (some Ex.rules) (.path "b".toList) out' World.start = (.ok (), w') := by
  have hr : ∀ t ∈ [Ex.trn 1 "shop" [Ex.post "expenses" 5 [], Ex.post "cash" (-5) []], Ex.trn 7 "shop" [Ex.post "expenses" 9 [], Ex.post "cash" (-9) []]], Readable1 t := by
    intro t ht
    rcases List.mem_cons.1 ht with rfl | ht
    · exact Ex.shop_simple.1.readable1
    · rw [List.mem_singleton.1 ht]
      exact Ex.shop_simple.2.readable1
  obtain ⟨L, h1, h2⟩ := Ex.filled_content hr "a".toList
  obtain ⟨L', h3, h4⟩ := Ex.filled_content (fun t ht => hr t ((List.Perm.swap _ _ _).mem_iff.1 ht)) "b".toList
  rcases C107_command id Ex.rules 3 _ _ h h' _ out _ out' L L' _ _ (fun _ => rfl) (fun _ => rfl) h1 h3 h2 h4 (.swap _ _ _) with
    ⟨e, w, e', w', h5, _⟩ | ⟨us, us', w, w', _, _, _, h5, _, h6, _⟩
  · obtain ⟨w0, h0, _⟩ := (applyRules_calm (lower := id) (T := Ex.rules) (fuel := 3) (h := h) (output := out) (fun _ => rfl) h1 h2).1
      [Ex.trn 1 "SHOP" [Ex.post "seen" 5 ["s"], Ex.post "cash" (-5) ["s"]], Ex.trn 7 "SHOP" [Ex.post "seen" 9 ["s"], Ex.post "cash" (-9) ["s"]]] (by decide +kernel)
    rw [h5] at h0
    cases h0
  · exact ⟨w, w', h5, h6⟩

set_option maxRecDepth 100000 in
/-- What the rules do: in both orders the header is the same, and the postings are those of the postings alone. -/
example : ∃ t, (Looks.table Ex.aloneChain).updateTransaction id 0 (Ex.trn 1 "a" [Ex.post "expenses" 5 [], Ex.post "cash" (-5) []]) =
      .ok ⟨t, [Ex.post "food" 5 [], Ex.post "cash" (-5) []]⟩ ∧
    (Looks.table Ex.aloneChain).updateTransaction id 0 (Ex.trn 1 "a" [Ex.post "cash" (-5) [], Ex.post "expenses" 5 []]) =
      .ok ⟨t, [Ex.post "cash" (-5) [], Ex.post "food" 5 []]⟩ ∧ "spent".toList ∈ t.comment.tags ∧ t.comment.valueTags["from".toList]? = some "purse".toList ∧
    t.raw.description = "shop".toList ∧
    (∃ t', (Looks.table Ex.aloneChain).updateTransaction id 0 (Ex.trn 1 "a" [Ex.post "expenses" 5 []]) = .ok ⟨t', [Ex.post "food" 5 []]⟩) :=
  ⟨⟨{ (Ex.trn 1 "shop" []).trn.raw with }, ⟨[], Std.ExtTreeSet.empty.insert "spent".toList, Std.ExtTreeMap.empty.insert "from".toList "purse".toList⟩⟩,
    by decide +kernel, by decide +kernel, by decide +kernel, by decide +kernel, rfl,
    ⟨⟨{ (Ex.trn 1 "shop" []).trn.raw with }, ⟨[], Std.ExtTreeSet.empty.insert "spent".toList, Std.ExtTreeMap.empty⟩⟩, by decide +kernel⟩⟩

/-- A tag of the header that one posting adds and another takes away. -/
def Ex.quarrelChain : Chain := [
  ⟨.account (.eq "expenses".toList), .addTransactionFlagTag "t".toList, .continue_⟩,
  ⟨.account (.eq "cash".toList), .removeTransactionFlagTag "t".toList, .continue_⟩]

set_option maxRecDepth 100000 in
/-- Without `OneWay` the header depends on the order of the postings. -/
theorem C107_quarrel : ∃ u u', (Looks.table Ex.quarrelChain).updateTransaction id 0 (Ex.trn 1 "a" [Ex.post "expenses" 5 [], Ex.post "cash" (-5) []]) = .ok u ∧
    (Looks.table Ex.quarrelChain).updateTransaction id 0 (Ex.trn 1 "a" [Ex.post "cash" (-5) [], Ex.post "expenses" 5 []]) = .ok u' ∧
    "t".toList ∉ u.trn.comment.tags ∧ "t".toList ∈ u'.trn.comment.tags :=
  ⟨Ex.trn 1 "a" [Ex.post "expenses" 5 [], Ex.post "cash" (-5) []],
    ⟨⟨(Ex.trn 1 "a" []).trn.raw, ⟨[], Std.ExtTreeSet.empty.insert "t".toList, Std.ExtTreeMap.empty⟩⟩, [Ex.post "cash" (-5) [], Ex.post "expenses" 5 []]⟩,
    by decide +kernel, by decide +kernel, by decide +kernel, by decide +kernel⟩

set_option maxRecDepth 100000 in
/-- Without `NotBoth` what becomes of a posting depends on the posting before it: `cash` is marked `s` after `expenses`, and `end` before it. -/
theorem C107_seen : ∃ t t', Ex.rules.updateTransaction id 3 (Ex.trn 1 "shop" [Ex.post "expenses" 5 [], Ex.post "cash" (-5) []]) =
      .ok ⟨t, [Ex.post "seen" 5 ["s"], Ex.post "cash" (-5) ["s"]]⟩ ∧
    Ex.rules.updateTransaction id 3 (Ex.trn 1 "shop" [Ex.post "cash" (-5) [], Ex.post "expenses" 5 []]) =
      .ok ⟨t', [Ex.post "cash" (-5) ["end"], Ex.post "seen" 5 ["s"]]⟩ :=
  ⟨(Ex.trn 1 "SHOP" []).trn, (Ex.trn 1 "SHOP" []).trn, by decide +kernel, by decide +kernel⟩

end Verif
