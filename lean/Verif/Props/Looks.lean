import Verif.Spec.Looks
import Verif.Props.Rules
import Verif.Props.DaysCmd

/-!
# C104: what rules look at
-/

namespace Verif
open Rules Spec Spec.Looks

/-- What of a context can be changed by rules. -/
structure Looks.State where
  description : Str
  header : List TagEdit
  post : View

/-- A header with that description and these changes of tags. -/
def Looks.hdr (d : Str) (es : List TagEdit) (t : TransactionInternal) : TransactionInternal :=
  ⟨{ t.raw with description := d }, es.foldl TagEdit.apply t.comment⟩

/-- A context with that written into it. -/
def Looks.ctx (s : Looks.State) (t : TransactionInternal) (p : PostingInternal) : Ctx := ⟨hdr s.description s.header t, dress p s.post⟩

open Looks

variable {lower : Str → Str}

mutual
theorem looks_pred (s : Looks.State) (t t' : TransactionInternal) (p p' : PostingInternal) (q : Predicate) :
    q.isMatch lower (ctx s t p) = q.isMatch lower (ctx s t' p') := by
  cases q with
  | all ps => rw [Predicate.isMatch, Predicate.isMatch, looks_all s t t' p p' ps]
  | any ps => rw [Predicate.isMatch, Predicate.isMatch, looks_any s t t' p p' ps]
  | not q => rw [Predicate.isMatch, Predicate.isMatch, looks_pred s t t' p p' q]
  | _ => simp only [Predicate.isMatch, ctx, hdr, dress]
theorem looks_all (s : Looks.State) (t t' : TransactionInternal) (p p' : PostingInternal) (qs : List Predicate) :
    Predicate.allMatch lower qs (ctx s t p) = Predicate.allMatch lower qs (ctx s t' p') := by
  cases qs with
  | nil => simp only [Predicate.allMatch]
  | cons q qs => rw [Predicate.allMatch, Predicate.allMatch, looks_pred s t t' p p' q, looks_all s t t' p p' qs]
theorem looks_any (s : Looks.State) (t t' : TransactionInternal) (p p' : PostingInternal) (qs : List Predicate) :
    Predicate.anyMatch lower qs (ctx s t p) = Predicate.anyMatch lower qs (ctx s t' p') := by
  cases qs with
  | nil => simp only [Predicate.anyMatch]
  | cons q qs => rw [Predicate.anyMatch, Predicate.anyMatch, looks_pred s t t' p p' q, looks_any s t t' p p' qs]
end

/-- The result is the same for every transaction and posting, written into each. -/
def Looks.Uniform (f : Ctx → Res) : Prop := ∀ s, ∃ o : Except RuleErr Looks.State, ∀ t p, f (ctx s t p) = o.map fun s' => ctx s' t p

theorem Looks.Uniform.bind {f g : Ctx → Res} (hf : Uniform f) (hg : Uniform g) : Uniform fun c => match f c with
    | .error e => .error e
    | .ok c => g c := by
  intro s
  obtain ⟨o, ho⟩ := hf s
  match o with
  | .error e => exact ⟨.error e, fun t p => by simp only [ho]; rfl⟩
  | .ok s' =>
    obtain ⟨o', ho'⟩ := hg s'
    exact ⟨o', fun t p => by simp only [ho]; exact ho' t p⟩

mutual
theorem looks_action {J : Str → Ctx → Res} (hJ : ∀ name, Uniform (J name)) (a : Action) : Uniform (a.apply J) := by
  intro s
  obtain ⟨d, es, ⟨acc, tg, vt⟩⟩ := s
  cases a with
  | addPostingFlagTag tag => exact ⟨.ok ⟨d, es, ⟨acc, tg.insert tag, vt⟩⟩, fun t p => rfl⟩
  | addPostingValueTag key value => exact ⟨.ok ⟨d, es, ⟨acc, tg, vt.insert key value⟩⟩, fun t p => rfl⟩
  | removePostingFlagTag tag => exact ⟨.ok ⟨d, es, ⟨acc, tg.erase tag, vt⟩⟩, fun t p => rfl⟩
  | removePostingValueTag key => exact ⟨.ok ⟨d, es, ⟨acc, tg, vt.erase key⟩⟩, fun t p => rfl⟩
  | addTransactionFlagTag tag => exact ⟨.ok ⟨d, es ++ [.add tag], ⟨acc, tg, vt⟩⟩, fun t p => by
      simp only [Action.apply, Except.map, ctx, hdr, List.foldl_append, List.foldl_cons, List.foldl_nil, TagEdit.apply]⟩
  | addTransactionValueTag key value => exact ⟨.ok ⟨d, es ++ [.set key value], ⟨acc, tg, vt⟩⟩, fun t p => by
      simp only [Action.apply, Except.map, ctx, hdr, List.foldl_append, List.foldl_cons, List.foldl_nil, TagEdit.apply]⟩
  | removeTransactionFlagTag tag => exact ⟨.ok ⟨d, es ++ [.remove tag], ⟨acc, tg, vt⟩⟩, fun t p => by
      simp only [Action.apply, Except.map, ctx, hdr, List.foldl_append, List.foldl_cons, List.foldl_nil, TagEdit.apply]⟩
  | removeTransactionValueTag key => exact ⟨.ok ⟨d, es ++ [.unset key], ⟨acc, tg, vt⟩⟩, fun t p => by
      simp only [Action.apply, Except.map, ctx, hdr, List.foldl_append, List.foldl_cons, List.foldl_nil, TagEdit.apply]⟩
  | all as =>
    obtain ⟨o, ho⟩ := looks_actions hJ as ⟨d, es, ⟨acc, tg, vt⟩⟩
    exact ⟨o, fun t p => by rw [Action.apply]; exact ho t p⟩
  | error msg => exact ⟨.error (.reported msg), fun t p => rfl⟩
  | noop => exact ⟨.ok ⟨d, es, ⟨acc, tg, vt⟩⟩, fun t p => rfl⟩
  | jumpChain name =>
    obtain ⟨o, ho⟩ := hJ name ⟨d, es, ⟨acc, tg, vt⟩⟩
    exact ⟨o, fun t p => by rw [Action.apply]; exact ho t p⟩
  | setAccount account => exact ⟨.ok ⟨d, es, ⟨account, tg, vt⟩⟩, fun t p => rfl⟩
  | replaceTransactionDescription f => exact ⟨.ok ⟨f d, es, ⟨acc, tg, vt⟩⟩, fun t p => rfl⟩
theorem looks_actions {J : Str → Ctx → Res} (hJ : ∀ name, Uniform (J name)) (as : List Action) : Uniform (Action.applyAll J as) := by
  cases as with
  | nil => exact fun s => ⟨.ok s, fun t p => rfl⟩
  | cons a as =>
    have := (looks_action hJ a).bind (looks_actions hJ as)
    intro s
    obtain ⟨o, ho⟩ := this s
    exact ⟨o, fun t p => by rw [Action.applyAll]; exact ho t p⟩
end

theorem looks_chain {J : Str → Ctx → Res} (hJ : ∀ name, Uniform (J name)) (ch : Chain) : Uniform (Chain.apply lower J ch) := by
  induction ch with
  | nil => exact fun s => ⟨.ok s, fun t p => rfl⟩
  | cons r rs ih =>
    intro s
    cases hm : r.predicate.isMatch lower (ctx s default default) with
    | false =>
      obtain ⟨o, ho⟩ := ih s
      refine ⟨o, fun t p => ?_⟩
      rw [Chain.apply, Rule.apply, looks_pred s t default p default, hm]
      exact ho t p
    | true =>
      obtain ⟨o, ho⟩ := looks_action hJ r.action s
      match o with
      | .error e =>
        refine ⟨.error e, fun t p => ?_⟩
        rw [Chain.apply, Rule.apply, looks_pred s t default p default, hm, ho t p]
        rfl
      | .ok s' =>
        obtain ⟨q, a, res⟩ := r
        match res with
        | .return_ =>
          refine ⟨.ok s', fun t p => ?_⟩
          rw [Chain.apply, Rule.apply, looks_pred s t default p default, hm, ho t p]
          rfl
        | .continue_ =>
          obtain ⟨o', ho'⟩ := ih s'
          refine ⟨o', fun t p => ?_⟩
          rw [Chain.apply, Rule.apply, looks_pred s t default p default, hm, ho t p]
          exact ho' t p

theorem looks_jump (T : Table) (fuel : Nat) (name : Str) : Uniform (T.jump lower fuel name) := by
  induction fuel generalizing name with
  | zero => exact fun s => ⟨.error .diverged, fun t p => rfl⟩
  | succ n ih =>
    intro s
    cases hc : T.getChain name with
    | error e => exact ⟨.error e, fun t p => by rw [Table.jump, hc]; rfl⟩
    | ok ch =>
      obtain ⟨o, ho⟩ := looks_chain (lower := lower) ih ch s
      exact ⟨o, fun t p => by rw [Table.jump, hc]; exact ho t p⟩

theorem looks_posts (T : Table) (fuel : Nat) (start : Chain) (vs : List View) : ∀ (d : Str) (es : List TagEdit),
    ∃ o : Except RuleErr (Str × List TagEdit × List View), ∀ t ps, ps.map view = vs →
      T.updatePosts lower fuel start (hdr d es t) ps = o.map fun x => (hdr x.1 x.2.1 t, List.zipWith dress ps x.2.2) := by
  induction vs with
  | nil => exact fun d es => ⟨.ok (d, es, []), fun t ps h => by rw [List.map_eq_nil_iff.1 h]; rfl⟩
  | cons v vs ih =>
    intro d es
    obtain ⟨o, ho⟩ := looks_chain (lower := lower) (looks_jump (lower := lower) T fuel) start ⟨d, es, v⟩
    match o with
    | .error e =>
      refine ⟨.error e, fun t ps h => ?_⟩
      obtain ⟨p, ps, rfl, rfl, rfl⟩ := List.map_eq_cons_iff.1 h
      rw [Table.updatePosts, show (⟨hdr d es t, p⟩ : Ctx) = ctx ⟨d, es, view p⟩ t p from rfl, ho]
      rfl
    | .ok ⟨d', es', v'⟩ =>
      obtain ⟨o', ho'⟩ := ih d' es'
      match o' with
      | .error e =>
        refine ⟨.error e, fun t ps h => ?_⟩
        obtain ⟨p, ps, rfl, rfl, rfl⟩ := List.map_eq_cons_iff.1 h
        rw [Table.updatePosts, show (⟨hdr d es t, p⟩ : Ctx) = ctx ⟨d, es, view p⟩ t p from rfl, ho]
        simp only [Except.map, ctx]
        rw [ho' t ps rfl]
        rfl
      | .ok (d'', es'', vs'') =>
        refine ⟨.ok (d'', es'', v' :: vs''), fun t ps h => ?_⟩
        obtain ⟨p, ps, rfl, rfl, rfl⟩ := List.map_eq_cons_iff.1 h
        rw [Table.updatePosts, show (⟨hdr d es t, p⟩ : Ctx) = ctx ⟨d, es, view p⟩ t p from rfl, ho]
        simp only [Except.map, ctx]
        rw [ho' t ps rfl]
        rfl

/-- **C104.** Rules look at nothing but accounts and tags of postings and descriptions of transactions with postings: what they write, or the
error they report, depends on these only (`D`), whatever dates, amounts, comment lines, header tags and all the rest are. All but what they write
remains. -/
theorem C104_depends (lower : Str → Str) (T : Table) (fuel : Nat) :
    ∃ D : Seen → Except RuleErr Written, ∀ t, T.updateTransaction lower fuel t = (D (seen t)).map (put t) := by
  suffices ∀ s, ∃ o : Except RuleErr Written, ∀ t, seen t = s → T.updateTransaction lower fuel t = o.map (put t) by
    obtain ⟨D, hD⟩ := Classical.skolem.1 this
    exact ⟨D, fun t => hD _ t rfl⟩
  intro s
  cases hc : T.getChain startChain with
  | error e => exact ⟨.error e, fun t _ => by rw [Table.updateTransaction, hc]; rfl⟩
  | ok start =>
    obtain ⟨d, vs⟩ := s
    match d with
    | none =>
      refine ⟨.ok ⟨none, [], []⟩, fun t h => ?_⟩
      have h0 : t.posts = [] := Classical.byContradiction fun hx => by
        have := congrArg Seen.description h
        rw [seen, if_neg hx] at this
        cases this
      obtain ⟨trn, posts⟩ := t
      cases h0
      rw [Table.updateTransaction, hc]
      rfl
    | some d =>
      obtain ⟨o, ho⟩ := looks_posts (lower := lower) T fuel start vs d []
      have key : ∀ t : TransactionPostings, seen t = ⟨some d, vs⟩ → T.updatePosts lower fuel start t.trn t.posts =
          o.map fun x => (hdr x.1 x.2.1 t.trn, List.zipWith dress t.posts x.2.2) := by
        intro t h
        have hd : t.trn.raw.description = d := by
          have := congrArg Seen.description h
          unfold seen at this
          simp only at this
          split at this
          · cases this
          · exact Option.some.inj this
        rw [← ho t.trn t.posts (congrArg Seen.posts h), ← hd]
        rfl
      match o, key with
      | .error e, key => exact ⟨.error e, fun t h => by rw [Table.updateTransaction, hc]; simp only; rw [key t h]; rfl⟩
      | .ok (d', es, vs'), key => exact ⟨.ok ⟨some d', es, vs'⟩, fun t h => by rw [Table.updateTransaction, hc]; simp only; rw [key t h]; rfl⟩

/-- Two lists of transactions of which rules see the same: rules report the same error for both, or write the same into both. -/
theorem C104_same (lower : Str → Str) (T : Table) (fuel : Nat) (ts ts' : List TransactionPostings) (h : ts.map seen = ts'.map seen) :
    (∃ e, T.updateTransactions lower fuel ts = .error e ∧ T.updateTransactions lower fuel ts' = .error e) ∨
    ∃ ws : List Written, ws.length = ts.length ∧ T.updateTransactions lower fuel ts = .ok (List.zipWith put ts ws) ∧
      T.updateTransactions lower fuel ts' = .ok (List.zipWith put ts' ws) := by
  obtain ⟨D, hD⟩ := C104_depends lower T fuel
  induction ts generalizing ts' with
  | nil =>
    rw [List.map_nil] at h
    rw [List.map_eq_nil_iff.1 h.symm]
    exact .inr ⟨[], rfl, rfl, rfl⟩
  | cons t ts ih =>
    rw [List.map_cons] at h
    obtain ⟨t', ts', rfl, h1, h2⟩ := List.map_eq_cons_iff.1 h.symm
    rw [Table.updateTransactions, Table.updateTransactions, hD, hD, h1]
    match D (seen t) with
    | .error e => exact .inl ⟨e, rfl, rfl⟩
    | .ok w =>
      rcases ih ts' h2.symm with ⟨e, h3, h4⟩ | ⟨ws, h3, h4, h5⟩
      · exact .inl ⟨e, by rw [h3]; rfl, by rw [h4]; rfl⟩
      · exact .inr ⟨w :: ws, congrArg (· + 1) h3, by rw [h4]; rfl, by rw [h5]; rfl⟩

/-! ### They look at all of it -/

/-- A table with the chain `start` alone. -/
def Looks.table (ch : Chain) : Table := Std.ExtTreeMap.ofList [("start".toList, ch)] compare

theorem looks_table (ch : Chain) : (Looks.table ch).getChain startChain = .ok ch := by
  have : (Looks.table ch)["start".toList]? = some ch := Std.ExtTreeMap.getElem?_ofList_of_mem (k := "start".toList)
    (Std.LawfulEqOrd.compare_eq_iff_eq.2 rfl) (by simp) List.mem_cons_self
  rw [Table.getChain, show startChain = "start".toList from rfl, this]

/-- Reports an error for transactions with postings and that description. -/
def Looks.probeDescription (d : Str) : Chain := [⟨.transactionDescription (.eq d), .error [], .continue_⟩]

theorem looks_fails {ch : Chain} {t : TransactionPostings} {fuel : Nat} : (∃ e, (Looks.table ch).updateTransaction lower fuel t = .error e) ↔
    ∃ e, (Looks.table ch).updatePosts lower fuel ch t.trn t.posts = .error e := by
  rw [Table.updateTransaction, looks_table]
  simp only
  match (Looks.table ch).updatePosts lower fuel ch t.trn t.posts with
  | .error e => exact ⟨fun _ => ⟨e, rfl⟩, fun _ => ⟨e, rfl⟩⟩
  | .ok x => exact ⟨fun ⟨e, h⟩ => (by cases h), fun ⟨e, h⟩ => (by cases h)⟩

theorem looks_probeDescription {d : Str} {t : TransactionPostings} {fuel : Nat} :
    (∃ e, (Looks.table (Looks.probeDescription d)).updateTransaction lower fuel t = .error e) ↔ t.posts ≠ [] ∧ t.trn.raw.description = d := by
  rw [looks_fails]
  generalize Looks.table (Looks.probeDescription d) = T
  have key : ∀ ps : List PostingInternal, (∃ e, T.updatePosts lower fuel (Looks.probeDescription d) t.trn ps = .error e) ↔ ps ≠ [] ∧ t.trn.raw.description = d := by
    intro ps
    induction ps with
    | nil => exact ⟨fun ⟨e, h⟩ => (by cases h), fun h => absurd rfl h.1⟩
    | cons p ps ih =>
      rw [Table.updatePosts, Looks.probeDescription, Chain.apply, Rule.apply, Predicate.isMatch, StringMatch.matchesString]
      by_cases hd : t.trn.raw.description = d
      · rw [if_pos (beq_iff_eq.2 hd.symm)]
        exact ⟨fun _ => ⟨List.cons_ne_nil _ _, hd⟩, fun _ => ⟨_, rfl⟩⟩
      · rw [if_neg (fun hx => hd (beq_iff_eq.1 hx).symm)]
        simp only [Chain.apply]
        rw [← Looks.probeDescription]
        constructor
        · rintro ⟨e, h⟩
          refine absurd (ih.1 ?_).2 hd
          match hx : T.updatePosts lower fuel (Looks.probeDescription d) t.trn ps with
          | .error e => exact ⟨e, rfl⟩
          | .ok x => rw [hx] at h; cases h
        · exact fun h => absurd h.2 hd
  exact key t.posts

/-- Reports an error for the posting number `k` of a transaction with that description, if the predicate holds for it. Counts with the description. -/
def Looks.probePost (d : Str) (k : Nat) (q : Predicate) : Chain :=
  [⟨.all [.transactionDescription (.eq (d ++ List.replicate k '1')), q], .error [], .continue_⟩,
   ⟨.true_, .replaceTransactionDescription (· ++ ['1']), .continue_⟩]

theorem looks_probePost {d : Str} {k : Nat} {q : Predicate} {f : PostingInternal → Bool} (hq : ∀ c, q.isMatch lower c = f c.post)
    {t : TransactionPostings} {fuel : Nat} (ht : t.trn.raw.description = d) :
    (∃ e, (Looks.table (Looks.probePost d k q)).updateTransaction lower fuel t = .error e) ↔ ∃ p, t.posts[k]? = some p ∧ f p = true := by
  rw [looks_fails]
  generalize Looks.table (Looks.probePost d k q) = T
  have key : ∀ (ps : List PostingInternal) (trn : TransactionInternal) (n : Nat), trn.raw.description = d ++ List.replicate n '1' →
      ((∃ e, T.updatePosts lower fuel (Looks.probePost d k q) trn ps = .error e) ↔ ∃ m p, n + m = k ∧ ps[m]? = some p ∧ f p = true) := by
    intro ps
    induction ps with
    | nil => exact fun trn n _ => ⟨fun ⟨e, h⟩ => (by cases h), fun ⟨m, p, _, h, _⟩ => (by simp at h)⟩
    | cons p ps ih =>
      intro trn n hn
      have hm : (Predicate.all [.transactionDescription (.eq (d ++ List.replicate k '1')), q]).isMatch lower ⟨trn, p⟩ = (decide (n = k) && f p) := by
        rw [Predicate.isMatch, Predicate.allMatch, Predicate.isMatch, StringMatch.matchesString, Predicate.allMatch, Predicate.allMatch, Bool.and_true, hq]
        congr 1
        rw [hn, Bool.eq_iff_iff, beq_iff_eq, decide_eq_true_iff, List.append_cancel_left_eq]
        exact ⟨fun h => by simpa using (congrArg List.length h).symm, fun h => by rw [h]⟩
      rw [Table.updatePosts, Looks.probePost, Chain.apply, Rule.apply, hm]
      by_cases hx : n = k ∧ f p = true
      · rw [if_pos (by rw [decide_eq_true hx.1, hx.2]; rfl)]
        exact ⟨fun _ => ⟨0, p, hx.1, rfl, hx.2⟩, fun _ => ⟨_, rfl⟩⟩
      · rw [if_neg (fun h => hx (by simpa using h))]
        simp only [Chain.apply, Rule.apply, Predicate.isMatch, if_true, Action.apply]
        rw [← Looks.probePost]
        have := ih { trn with raw := { trn.raw with description := trn.raw.description ++ ['1'] } } (n + 1)
          (by simp only; rw [hn, List.replicate_succ', List.append_assoc])
        constructor
        · rintro ⟨e, h⟩
          obtain ⟨m, p', h1, h2, h3⟩ := this.1 (by
            split at h
            · rename_i e' he
              exact ⟨e', he⟩
            · cases h)
          exact ⟨m + 1, p', by omega, h2, h3⟩
        · rintro ⟨m, p', h1, h2, h3⟩
          match m, h2 with
          | 0, h2 => cases h2; exact absurd ⟨h1, h3⟩ hx
          | m + 1, h2 =>
            obtain ⟨e, he⟩ := this.2 ⟨m, p', by omega, h2, h3⟩
            exact ⟨e, by rw [he]⟩
  rw [key t.posts t.trn 0 (by rw [ht]; simp)]
  exact ⟨fun ⟨m, p, h1, h2⟩ => ⟨p, by rw [← h1, Nat.zero_add]; exact h2⟩, fun ⟨p, h⟩ => ⟨k, p, Nat.zero_add k, h⟩⟩

theorem looks_value {o : Option Str} {b : Str} : (o.map fun s => b == s).getD false = true ↔ o = some b := by
  match o with
  | none => simp
  | some s => exact ⟨fun h => by rw [beq_iff_eq.1 h], fun h => beq_iff_eq.2 (Option.some.inj h).symm⟩

/-- **C104, exactly.** What rules see of two transactions is the same if and only if there is no table that fails for one of them and not for the
other. So each part that they can see they do look at. -/
theorem C104_exact (lower : Str → Str) (t t' : TransactionPostings) : seen t = seen t' ↔
    ∀ (T : Table) (fuel : Nat), (∃ e, T.updateTransaction lower fuel t = .error e) ↔ ∃ e, T.updateTransaction lower fuel t' = .error e := by
  constructor
  · intro h T fuel
    obtain ⟨D, hD⟩ := C104_depends lower T fuel
    rw [hD, hD, h]
    match D (seen t') with
    | .error e => exact ⟨fun _ => ⟨e, rfl⟩, fun _ => ⟨e, rfl⟩⟩
    | .ok w => exact ⟨fun ⟨e, h⟩ => (by cases h), fun ⟨e, h⟩ => (by cases h)⟩
  · intro h
    have hd : ∀ d, t.posts ≠ [] ∧ t.trn.raw.description = d ↔ t'.posts ≠ [] ∧ t'.trn.raw.description = d := fun d => by
      rw [← looks_probeDescription (lower := lower) (fuel := 0), ← looks_probeDescription (lower := lower) (fuel := 0)]
      exact h _ 0
    by_cases h0 : t.posts = []
    · have h0' : t'.posts = [] := Classical.byContradiction fun hx => ((hd _).2 ⟨hx, rfl⟩).1 h0
      unfold seen
      rw [if_pos h0, if_pos h0', h0, h0']
    obtain ⟨h0', hdd⟩ := (hd _).1 ⟨h0, rfl⟩
    have hp : ∀ (q : Predicate) (f : PostingInternal → Bool), (∀ c, q.isMatch lower c = f c.post) → ∀ k,
        (∃ p, t.posts[k]? = some p ∧ f p = true) ↔ ∃ p, t'.posts[k]? = some p ∧ f p = true := fun q f hq k => by
      rw [← looks_probePost hq (fuel := 0) (t := t) rfl, ← looks_probePost hq (fuel := 0) hdd]
      exact h _ 0
    have hv : t.posts.map view = t'.posts.map view := by
      apply List.ext_getElem?
      intro k
      rw [List.getElem?_map, List.getElem?_map]
      have hall := hp .true_ (fun _ => true) (fun c => by rw [Predicate.isMatch]) k
      have hacc := fun a => hp (.account (.eq a)) (fun p => a == p.raw.account) (fun c => by rw [Predicate.isMatch, StringMatch.matchesString]) k
      have htag := fun a => hp (.postingHasFlagTag a) (fun p => p.comment.tags.contains a) (fun c => by rw [Predicate.isMatch]) k
      have hval := fun a b => hp (.postingValueTag a (.eq b)) (fun p => ((p.comment.valueTags[a]?).map fun s => b == s).getD false)
        (fun c => by rw [Predicate.isMatch]; rfl) k
      generalize t.posts[k]? = x at hall hacc htag hval
      generalize t'.posts[k]? = y at hall hacc htag hval
      match x, y with
      | none, none => rfl
      | none, some p => obtain ⟨p, hx, _⟩ := hall.2 ⟨p, rfl, rfl⟩; cases hx
      | some p, none => obtain ⟨p, hx, _⟩ := hall.1 ⟨p, rfl, rfl⟩; cases hx
      | some p, some p' =>
        simp only [Option.some.injEq, exists_eq_left', beq_iff_eq] at hacc htag hval
        simp only [Option.map_some, Option.some.injEq]
        have e1 : p.raw.account = p'.raw.account := (hacc _).1 rfl
        have e2 : p.comment.tags = p'.comment.tags := by
          apply Std.ExtTreeSet.ext_mem
          intro a
          rw [← Std.ExtTreeSet.contains_iff_mem, ← Std.ExtTreeSet.contains_iff_mem]
          exact htag a
        have e3 : p.comment.valueTags = p'.comment.valueTags := by
          apply Std.ExtTreeMap.ext_getElem?
          intro a
          apply Option.ext
          intro b
          rw [← looks_value, ← looks_value]
          exact hval a b
        unfold view
        rw [e1, e2, e3]
    unfold seen
    rw [if_neg h0, if_neg h0', hdd, hv]

/-- A run of `apply-rules` in which no operation on files fails does what the rules do. -/
theorem applyRules_calm {lower : Str → Str} {T : Table} {fuel : Nat} {sys : Sys} {h : HashOrder} {input output : FileSpec} {L : Ledger}
    {ts : List TransactionPostings} (hf : ∀ n, sys.fault n = none) (hL : ledgerAt sys sys.start false input = some L)
    (ht : TransactionPostings.fromLedger L = some ts) :
    (∀ us, T.updateTransactions lower fuel ts = .ok us → ∃ w, applyRules sys h lower fuel (some T) input output World.start = (.ok (), w) ∧
      w.log = wholeWrite sys output (sys.render (TransactionPostings.intoLedger h us))) ∧
    (∀ x, T.updateTransactions lower fuel ts = .error x → ∃ e w, applyRules sys h lower fuel (some T) input output World.start = (.error e, w) ∧
      w.log = []) := by
  suffices hs : Sat (applyRules sys h lower fuel (some T) input output) World.start
      (fun _ w => ∃ us, T.updateTransactions lower fuel ts = .ok us ∧ w.log = wholeWrite sys output (sys.render (TransactionPostings.intoLedger h us)))
      (fun _ w => w.log = [] ∧ ∃ x, T.updateTransactions lower fuel ts = .error x) by
    rcases hr : applyRules sys h lower fuel (some T) input output World.start with ⟨e | ⟨⟩, w⟩
    · obtain ⟨h1, x, h2⟩ := hs.err hr
      exact ⟨fun us hu => (by rw [h2] at hu; cases hu), fun y hy => ⟨e, w, rfl, h1⟩⟩
    · obtain ⟨us, h1, h2⟩ := hs.ok hr
      exact ⟨fun us' hu => (by cases h1.symm.trans hu; exact ⟨w, rfl, h2⟩), fun y hy => (by rw [h1] at hy; cases hy)⟩
  unfold applyRules
  apply Sat.bind
  apply Sat.ofOption
  · intro T' hT
    cases hT
    apply Sat.bind
    refine (readLedgerFile_sat sys input _).imp ?_ fun e w h => absurd (hL.symm.trans (h.2.2 hf)) (by simp)
    rintro L' w ⟨h1, _, _, h2⟩
    cases h2.symm.trans hL
    have h1 : w.log = [] := h1
    apply Sat.bind
    apply Sat.ofOption
    · intro ts' hts
      cases hts.symm.trans ht
      cases hu : T.updateTransactions lower fuel ts with
      | error e => exact Sat.fail ⟨h1, e, rfl⟩
      | ok us =>
        refine (writeFile_sat sys output _ w).imp ?_ fun e w' h => absurd hf h.2
        rintro _ w' ⟨h3, _⟩
        exact ⟨us, rfl, by rw [h3, h1, List.nil_append]⟩
    · intro hx
      cases hx.symm.trans ht
  · intro hx
    cases hx

/-- **C104 with files.** Two runs of `apply-rules` with the same rules on journals of which rules see the same, in whatever files, with no failing
operation on files: both fail and write nothing, or both succeed and write their journals with the same written into the transactions. -/
theorem C104_command (lower : Str → Str) (T : Table) (fuel : Nat) (sys sys' : Sys) (h h' : HashOrder) (input output input' output' : FileSpec) (L L' : Ledger)
    (ts ts' : List TransactionPostings) (hf : ∀ n, sys.fault n = none) (hf' : ∀ n, sys'.fault n = none)
    (hL : ledgerAt sys sys.start false input = some L) (hL' : ledgerAt sys' sys'.start false input' = some L')
    (ht : TransactionPostings.fromLedger L = some ts) (ht' : TransactionPostings.fromLedger L' = some ts') (hs : ts.map seen = ts'.map seen) :
    (∃ e w e' w', applyRules sys h lower fuel (some T) input output World.start = (.error e, w) ∧ w.log = [] ∧
      applyRules sys' h' lower fuel (some T) input' output' World.start = (.error e', w') ∧ w'.log = []) ∨
    ∃ (ws : List Written) (w w' : World), ws.length = ts.length ∧
      applyRules sys h lower fuel (some T) input output World.start = (.ok (), w) ∧
      w.log = wholeWrite sys output (sys.render (TransactionPostings.intoLedger h (List.zipWith put ts ws))) ∧
      applyRules sys' h' lower fuel (some T) input' output' World.start = (.ok (), w') ∧
      w'.log = wholeWrite sys' output' (sys'.render (TransactionPostings.intoLedger h' (List.zipWith put ts' ws))) := by
  rcases C104_same lower T fuel ts ts' hs with ⟨e, h6, h7⟩ | ⟨ws, h6, h7, h8⟩
  · obtain ⟨e1, w1, h1, h2⟩ := (applyRules_calm (h := h) (output := output) hf hL ht).2 e h6
    obtain ⟨e3, w3, h3, h4⟩ := (applyRules_calm (h := h') (output := output') hf' hL' ht').2 e h7
    exact .inl ⟨e1, w1, e3, w3, h1, h2, h3, h4⟩
  · obtain ⟨w1, h1, h2⟩ := (applyRules_calm (h := h) (output := output) hf hL ht).1 _ h7
    obtain ⟨w3, h3, h4⟩ := (applyRules_calm (h := h') (output := output') hf' hL' ht').1 _ h8
    exact .inr ⟨ws, w1, w3, h6, h1, h2, h3, h4⟩

/-! ### Examples -/

/-- Another day, other amounts, another tag of the header, a comment line. -/
def Ex.otherDay : TransactionPostings :=
  let t := Ex.trn 7 "shop" [Ex.post "expenses" 9 [], Ex.post "cash" (-9) []]
  ⟨{ t.trn with comment := ⟨[], Std.ExtTreeSet.empty.insert "mine".toList, Std.ExtTreeMap.empty⟩ },
    t.posts.map fun p => { p with comment := { p.comment with lines := ["late".toList] } }⟩

/-- The hypothesis of `C104_same` is met, and the rules do something. -/
example : [Ex.trn 1 "shop" [Ex.post "expenses" 5 [], Ex.post "cash" (-5) []]].map seen = [Ex.otherDay].map seen := rfl

set_option maxRecDepth 100000 in
example : Ex.rules.updateTransactions id 3 [Ex.trn 1 "shop" [Ex.post "expenses" 5 [], Ex.post "cash" (-5) []]] =
      .ok [Ex.trn 1 "SHOP" [Ex.post "seen" 5 ["s"], Ex.post "cash" (-5) ["s"]]] ∧
    Ex.rules.updateTransactions id 3 [Ex.otherDay] = .ok [put Ex.otherDay ⟨some "SHOP".toList, [], [view (Ex.post "seen" 5 ["s"]), view (Ex.post "cash" (-5) ["s"])]⟩] := by
  decide +kernel

set_option maxRecDepth 100000 in
/-- Without postings the description is not looked at: no table tells these apart. -/
example (T : Table) (fuel : Nat) : (∃ e, T.updateTransaction id fuel (Ex.trn 1 "shop" []) = .error e) ↔
    ∃ e, T.updateTransaction id fuel (Ex.trn 2 "bus" []) = .error e :=
  (C104_exact id (Ex.trn 1 "shop" []) (Ex.trn 2 "bus" [])).1 rfl T fuel

/-- A system with these transactions in every file. -/
noncomputable def Ex.filled (ts : List TransactionPostings) : Sys := { daySystem with start := fun _ => some (encodeUtf8 (textOf daySystem ts)) }

theorem Ex.filled_content {ts : List TransactionPostings} (hr : ∀ t ∈ ts, Readable1 t) (p : Str) :
    ∃ L, ledgerAt (Ex.filled ts) (Ex.filled ts).start false (.path p) = some L ∧ TransactionPostings.fromLedger L = some ts :=
  Option.bind_eq_some_iff.1 (content_of_text (sys := Ex.filled ts) hr (daySystem_back _) rfl)

set_option maxRecDepth 100000 in
theorem Ex.shop_simple : Simple (Ex.trn 1 "shop" [Ex.post "expenses" 5 [], Ex.post "cash" (-5) []]) ∧
    Simple (Ex.trn 7 "shop" [Ex.post "expenses" 9 [], Ex.post "cash" (-9) []]) := by decide +kernel

set_option maxRecDepth 100000 in
/-- The hypotheses of `C104_command` are met, and both runs succeed. -/
example (h h' : HashOrder) (out out' : FileSpec) : ∃ w w',
    applyRules (Ex.filled [Ex.trn 1 "shop" [Ex.post "expenses" 5 [], Ex.post "cash" (-5) []]]) h id 3 (some Ex.rules) (.path "a".toList) out World.start
      = (.ok (), w) ∧
    applyRules (Ex.filled [Ex.trn 7 "shop" [Ex.post "expenses" 9 [], Ex.post "cash" (-9) []]]) h' id 3 (some Ex.rules) (.path "b".toList) out' World.start
      = (.ok (), w') := by
  obtain ⟨L, h1, h2⟩ := Ex.filled_content (fun t ht => by rw [List.mem_singleton.1 ht]; exact Ex.shop_simple.1.readable1) "a".toList
  obtain ⟨L', h3, h4⟩ := Ex.filled_content (fun t ht => by rw [List.mem_singleton.1 ht]; exact Ex.shop_simple.2.readable1) "b".toList
  rcases C104_command id Ex.rules 3 _ _ h h' _ out _ out' L L' _ _ (fun _ => rfl) (fun _ => rfl) h1 h3 h2 h4 rfl with
    ⟨e, w, e', w', h5, _⟩ | ⟨ws, w, w', _, h5, _, h6, _⟩
  · obtain ⟨w0, h0, _⟩ := (applyRules_calm (lower := id) (T := Ex.rules) (fuel := 3) (h := h) (output := out) (fun _ => rfl) h1 h2).1
      [Ex.trn 1 "SHOP" [Ex.post "seen" 5 ["s"], Ex.post "cash" (-5) ["s"]]] (by decide +kernel)
    rw [h5] at h0
    cases h0
  · exact ⟨w, w', h5, h6⟩

end Verif
