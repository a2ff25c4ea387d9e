import Verif.Spec.RulesAgain
import Verif.Proofs.Rules

/-!
# C105: applying rules again
-/

namespace Verif
open Verif.Rules Spec.Rules Spec.RulesAgain

namespace RulesAgain

/-- What is at a place. -/
def get (c : Ctx) : Place → Option Str
  | .account => some c.post.raw.account
  | .description => some c.trn.raw.description
  | .postTag tag => if tag ∈ c.post.comment.tags then some [] else none
  | .postValue key => c.post.comment.valueTags[key]?
  | .trnTag tag => if tag ∈ c.trn.comment.tags then some [] else none
  | .trnValue key => c.trn.comment.valueTags[key]?

def inHeader : Place → Bool
  | .description | .trnTag _ | .trnValue _ => true
  | _ => false

def stripT (t : TransactionInternal) : TransactionInternal := ⟨{ t.raw with description := [] }, ⟨t.comment.lines, ∅, ∅⟩⟩
def stripP (p : PostingInternal) : PostingInternal := ⟨{ p.raw with account := [] }, ⟨p.comment.lines, ∅, ∅⟩⟩

theorem get_header {t : TransactionInternal} {p q : PostingInternal} {l : Place} (h : inHeader l = true) :
    get ⟨t, p⟩ l = get ⟨t, q⟩ l := by
  cases l <;> first | rfl | cases h

theorem get_post {t u : TransactionInternal} {p : PostingInternal} {l : Place} (h : inHeader l = false) :
    get ⟨t, p⟩ l = get ⟨u, p⟩ l := by
  cases l <;> first | rfl | cases h

theorem tags_ext {s s' : TagSet} (h : ∀ t, (if t ∈ s then some ([] : Str) else none) = if t ∈ s' then some [] else none) : s = s' := by
  apply Std.ExtTreeSet.ext_mem
  intro t
  have := h t
  by_cases h1 : t ∈ s <;> by_cases h2 : t ∈ s' <;> simp_all

theorem ext_header {t u : TransactionInternal} {p : PostingInternal} (hs : stripT t = stripT u)
    (h : ∀ l, inHeader l = true → get ⟨t, p⟩ l = get ⟨u, p⟩ l) : t = u := by
  obtain ⟨tr, tc⟩ := t
  obtain ⟨ur, uc⟩ := u
  obtain ⟨h1, h2⟩ := TransactionInternal.mk.inj hs
  have h3 : tr.description = ur.description := Option.some.inj (h .description rfl)
  have h4 : tc.tags = uc.tags := tags_ext fun tag => h (.trnTag tag) rfl
  have h5 : tc.valueTags = uc.valueTags := Std.ExtTreeMap.ext_getElem? fun key => h (.trnValue key) rfl
  obtain ⟨_, _, _⟩ := tc
  obtain ⟨_, _, _⟩ := uc
  cases tr
  cases ur
  simp_all

theorem ext_post {t : TransactionInternal} {p q : PostingInternal} (hs : stripP p = stripP q)
    (h : ∀ l, inHeader l = false → get ⟨t, p⟩ l = get ⟨t, q⟩ l) : p = q := by
  obtain ⟨tr, tc⟩ := p
  obtain ⟨ur, uc⟩ := q
  obtain ⟨h1, h2⟩ := PostingInternal.mk.inj hs
  have h3 : tr.account = ur.account := Option.some.inj (h .account rfl)
  have h4 : tc.tags = uc.tags := tags_ext fun tag => h (.postTag tag) rfl
  have h5 : tc.valueTags = uc.valueTags := Std.ExtTreeMap.ext_getElem? fun key => h (.postValue key) rfl
  obtain ⟨_, _, _⟩ := tc
  obtain ⟨_, _, _⟩ := uc
  cases tr
  cases ur
  simp_all

/-- Some action of the table writes there. -/
def Written (T : Table) (l : Place) : Prop := ∃ r, RuleOf T r ∧ Writes r.action l

/-- Some action of the table replaces descriptions so. -/
def Replacing (T : Table) (f : Str → Str) : Prop := ∃ r, RuleOf T r ∧ Replaces r.action f

/-- What becomes of each place, as a function of what was there. -/
abbrev Patch := Place → Option Str → Option Str

/-- A patch that the actions of the table can make. -/
def Fits (T : Table) (P : Patch) : Prop := ∀ l, P l = id ∨ (Written T l ∧
  ((l ≠ .description ∧ ∃ v, P l = fun _ => v) ∨ (l = .description ∧ ∃ f, Replacing T f ∧ P l = Option.map f)))

variable {T : Table} {lower : Str → Str}

theorem Fits.id : Fits T fun _ => id := fun _ => .inl rfl

theorem Fits.comp (hT : Separate T) {P Q : Patch} (hP : Fits T P) (hQ : Fits T Q) : Fits T fun l => Q l ∘ P l := by
  intro l
  dsimp only
  rcases hP l with h | ⟨hw, hp⟩
  · rw [h]; exact hQ l
  · rcases hQ l with h | ⟨-, hq⟩
    · rw [h]; exact .inr ⟨hw, hp⟩
    · refine .inr ⟨hw, ?_⟩
      rcases hp with ⟨hl, v, hp⟩ | ⟨hl, f, ⟨r, hr, hf⟩, hp⟩
      · rcases hq with ⟨_, w, hq⟩ | ⟨h', _⟩
        · exact .inl ⟨hl, w, by rw [hq]; rfl⟩
        · exact absurd h' hl
      · rcases hq with ⟨h', _⟩ | ⟨_, g, ⟨r', hr', hg⟩, hq⟩
        · exact absurd hl h'
        · refine .inr ⟨hl, f, ⟨r, hr, hf⟩, ?_⟩
          rw [hq, hp]
          funext o
          cases o with
          | none => rfl
          | some s => exact congrArg some (hT.descriptions _ _ _ _ hr' hr hg hf s)

theorem Fits.idem (hT : Separate T) {P : Patch} (hP : Fits T P) (l : Place) (o : Option Str) : P l (P l o) = P l o := by
  rcases hP l with h | ⟨-, ⟨_, v, h⟩ | ⟨_, f, ⟨r, hr, hf⟩, h⟩⟩
  · rw [h]; rfl
  · rw [h]
  · rw [h]
    cases o with
    | none => rfl
    | some s => exact congrArg some (hT.descriptions _ _ _ _ hr hr hf hf s)

theorem Fits.unwritten {P : Patch} (hP : Fits T P) {l : Place} (hl : ¬ Written T l) (o : Option Str) : P l o = o := by
  rcases hP l with h | ⟨h, -⟩
  · rw [h]; rfl
  · exact absurd h hl

structure After (P : Patch) (c c' : Ctx) : Prop where
  header : stripT c'.trn = stripT c.trn
  post : stripP c'.post = stripP c.post
  get : ∀ l, get c' l = P l (get c l)

def Agree (T : Table) (c d : Ctx) : Prop := ∀ l, ¬ Written T l → get c l = get d l

theorem After.agree {P : Patch} (hP : Fits T P) {c c' : Ctx} (h : After P c c') : Agree T c c' := fun l hl => by
  rw [h.get, hP.unwritten hl]

theorem Agree.trans {c d e : Ctx} (h : Agree T c d) (h' : Agree T d e) : Agree T c e := fun l hl => (h l hl).trans (h' l hl)
theorem Agree.symm {c d : Ctx} (h : Agree T c d) : Agree T d c := fun l hl => (h l hl).symm

theorem After.comp {P Q : Patch} {c d e : Ctx} (h : After P c d) (h' : After Q d e) : After (fun l => Q l ∘ P l) c e :=
  ⟨h'.header.trans h.header, h'.post.trans h.post, fun l => by rw [h'.get, h.get]; rfl⟩

/-- In contexts that agree where nothing is written, the same happens. -/
def Steady (T : Table) (f : Ctx → Res) : Prop := ∀ c,
  (∃ e, ∀ d, Agree T c d → f d = .error e) ∨ ∃ P, Fits T P ∧ ∀ d, Agree T c d → ∃ d', f d = .ok d' ∧ After P d d'

theorem Steady.ok : Steady T fun c => .ok c := fun _ => .inr ⟨_, .id, fun d _ => ⟨d, rfl, rfl, rfl, fun _ => rfl⟩⟩

theorem Steady.bind (hT : Separate T) {f g : Ctx → Res} (hf : Steady T f) (hg : Steady T g) : Steady T fun c => match f c with
    | .error e => .error e
    | .ok c => g c := by
  intro c
  rcases hf c with ⟨e, h⟩ | ⟨P, hP, h⟩
  · exact .inl ⟨e, fun d hd => by simp only [h d hd]⟩
  · obtain ⟨c', hc, hcc⟩ := h c fun _ _ => rfl
    have key : ∀ d, Agree T c d → ∃ d', f d = .ok d' ∧ After P d d' ∧ Agree T c' d' := fun d hd => by
      obtain ⟨d', h1, h2⟩ := h d hd
      exact ⟨d', h1, h2, (hcc.agree hP).symm.trans (hd.trans (h2.agree hP))⟩
    rcases hg c' with ⟨e, h'⟩ | ⟨Q, hQ, h'⟩
    · refine .inl ⟨e, fun d hd => ?_⟩
      obtain ⟨d', h1, -, h3⟩ := key d hd
      simp only [h1, h' d' h3]
    · refine .inr ⟨_, hP.comp hT hQ, fun d hd => ?_⟩
      obtain ⟨d', h1, h2, h3⟩ := key d hd
      obtain ⟨d'', h4, h5⟩ := h' d' h3
      exact ⟨d'', by simp only [h1, h4], h2.comp h5⟩

theorem Steady.write {f : Ctx → Ctx} (l : Place) (g : Option Str → Option Str) (hw : Written T l)
    (hg : (l ≠ .description ∧ ∃ v, g = fun _ => v) ∨ (l = .description ∧ ∃ r, Replacing T r ∧ g = Option.map r))
    (h1 : ∀ d, stripT (f d).trn = stripT d.trn) (h2 : ∀ d, stripP (f d).post = stripP d.post)
    (h3 : ∀ d, get (f d) l = g (get d l)) (h4 : ∀ d l', l' ≠ l → get (f d) l' = get d l') : Steady T fun c => .ok (f c) := by
  intro c
  refine .inr ⟨fun l' => if l' = l then g else id, fun l' => ?_, fun d _ => ⟨f d, rfl, h1 d, h2 d, fun l' => ?_⟩⟩
  · dsimp only
    by_cases h : l' = l
    · subst h
      rw [if_pos rfl]
      exact .inr ⟨hw, hg⟩
    · rw [if_neg h]
      exact .inl rfl
  · by_cases h : l' = l
    · subst h
      rw [if_pos rfl]
      exact h3 d
    · rw [if_neg h]
      exact h4 d l' h

/-! ### Predicates -/

mutual
theorem agree_pred (q : Predicate) {c d : Ctx} (h : ∀ l, Reads q l → get c l = get d l) : q.isMatch lower c = q.isMatch lower d := by
  cases q with
  | all ps => rw [Predicate.isMatch, Predicate.isMatch]; exact agree_all ps fun p hp l hl => h l (.all hp hl)
  | any ps => rw [Predicate.isMatch, Predicate.isMatch]; exact agree_any ps fun p hp l hl => h l (.any hp hl)
  | not p => rw [Predicate.isMatch, Predicate.isMatch, agree_pred p fun l hl => h l (.not hl)]
  | account m => rw [Predicate.isMatch, Predicate.isMatch, Option.some.inj (h .account .account)]
  | postingFlagTag m =>
    rw [Predicate.isMatch, Predicate.isMatch, tags_ext fun tag => h (.postTag tag) .postingFlagTag]
  | postingHasFlagTag tag =>
    have : (if tag ∈ c.post.comment.tags then some ([] : Str) else none) = if tag ∈ d.post.comment.tags then some [] else none :=
      h (.postTag tag) .postingHasFlagTag
    rw [Predicate.isMatch, Predicate.isMatch, Bool.eq_iff_iff, Std.ExtTreeSet.contains_iff_mem, Std.ExtTreeSet.contains_iff_mem]
    by_cases h1 : tag ∈ c.post.comment.tags <;> by_cases h2 : tag ∈ d.post.comment.tags <;> simp_all
  | postingHasValueTag key =>
    have : c.post.comment.valueTags[key]? = d.post.comment.valueTags[key]? := h (.postValue key) .postingHasValueTag
    rw [Predicate.isMatch, Predicate.isMatch, Std.ExtTreeMap.contains_eq_isSome_getElem?, Std.ExtTreeMap.contains_eq_isSome_getElem?,
      this]
  | postingValueTag key m =>
    have : c.post.comment.valueTags[key]? = d.post.comment.valueTags[key]? := h (.postValue key) .postingValueTag
    rw [Predicate.isMatch, Predicate.isMatch, this]
  | transactionDescription m => rw [Predicate.isMatch, Predicate.isMatch, Option.some.inj (h .description .transactionDescription)]
  | true_ => rw [Predicate.isMatch, Predicate.isMatch]
theorem agree_all (qs : List Predicate) {c d : Ctx} (h : ∀ q ∈ qs, ∀ l, Reads q l → get c l = get d l) :
    Predicate.allMatch lower qs c = Predicate.allMatch lower qs d := by
  cases qs with
  | nil => rw [Predicate.allMatch, Predicate.allMatch]
  | cons q qs => rw [Predicate.allMatch, Predicate.allMatch, agree_pred q (h q List.mem_cons_self),
      agree_all qs fun q hq => h q (List.mem_cons_of_mem _ hq)]
theorem agree_any (qs : List Predicate) {c d : Ctx} (h : ∀ q ∈ qs, ∀ l, Reads q l → get c l = get d l) :
    Predicate.anyMatch lower qs c = Predicate.anyMatch lower qs d := by
  cases qs with
  | nil => rw [Predicate.anyMatch, Predicate.anyMatch]
  | cons q qs => rw [Predicate.anyMatch, Predicate.anyMatch, agree_pred q (h q List.mem_cons_self),
      agree_any qs fun q hq => h q (List.mem_cons_of_mem _ hq)]
end

/-! ### Actions, chains and jumps -/

theorem get_insert (s : TagSet) (tag t : Str) (h : t ≠ tag) :
    (if t ∈ s.insert tag then some ([] : Str) else none) = if t ∈ s then some [] else none := by
  simp only [tags_insert, h, false_or]

theorem get_erase (s : TagSet) (tag t : Str) (h : t ≠ tag) :
    (if t ∈ s.erase tag then some ([] : Str) else none) = if t ∈ s then some [] else none := by
  simp only [tags_erase, ne_eq, h, not_false_eq_true, true_and]

theorem get_inserted (s : TagSet) (tag : Str) : (if tag ∈ s.insert tag then some ([] : Str) else none) = some [] := by
  rw [if_pos ((tags_insert _ _ _).2 (.inl rfl))]

theorem get_erased (s : TagSet) (tag : Str) : (if tag ∈ s.erase tag then some ([] : Str) else none) = none := by
  rw [if_neg fun h => ((tags_erase _ _ _).1 h).1 rfl]

mutual
theorem steady_action (hT : Separate T) {J : Str → Ctx → Res} (hJ : ∀ name, Steady T (J name)) (a : Action)
    (hw : ∀ l, Writes a l → Written T l) (hr : ∀ f, Replaces a f → Replacing T f) : Steady T (a.apply J) := by
  cases a with
  | addPostingFlagTag tag =>
    simp only [show (Action.addPostingFlagTag tag).apply J = _ from funext fun c => by rw [Action.apply]]
    refine .write (.postTag tag) (fun _ => some []) (hw _ .addPostingFlagTag) (.inl ⟨nofun, _, rfl⟩) (fun _ => rfl) (fun _ => rfl)
      (fun d => get_inserted _ _) fun d l hl => ?_
    cases l with
    | postTag t => exact get_insert _ _ _ fun h => hl (by rw [h])
    | _ => rfl
  | removePostingFlagTag tag =>
    simp only [show (Action.removePostingFlagTag tag).apply J = _ from funext fun c => by rw [Action.apply]]
    refine .write (.postTag tag) (fun _ => none) (hw _ .removePostingFlagTag) (.inl ⟨nofun, _, rfl⟩) (fun _ => rfl) (fun _ => rfl)
      (fun d => get_erased _ _) fun d l hl => ?_
    cases l with
    | postTag t => exact get_erase _ _ _ fun h => hl (by rw [h])
    | _ => rfl
  | addPostingValueTag key value =>
    simp only [show (Action.addPostingValueTag key value).apply J = _ from funext fun c => by rw [Action.apply]]
    refine .write (.postValue key) (fun _ => some value) (hw _ .addPostingValueTag) (.inl ⟨nofun, _, rfl⟩) (fun _ => rfl)
      (fun _ => rfl) (fun d => values_insert_self _ _ _) fun d l hl => ?_
    cases l with
    | postValue t => exact values_insert_other _ _ _ _ fun h => hl (by rw [h])
    | _ => rfl
  | removePostingValueTag key =>
    simp only [show (Action.removePostingValueTag key).apply J = _ from funext fun c => by rw [Action.apply]]
    refine .write (.postValue key) (fun _ => none) (hw _ .removePostingValueTag) (.inl ⟨nofun, _, rfl⟩) (fun _ => rfl)
      (fun _ => rfl) (fun d => values_erase_self _ _) fun d l hl => ?_
    cases l with
    | postValue t => exact values_erase_other _ _ _ fun h => hl (by rw [h])
    | _ => rfl
  | addTransactionFlagTag tag =>
    simp only [show (Action.addTransactionFlagTag tag).apply J = _ from funext fun c => by rw [Action.apply]]
    refine .write (.trnTag tag) (fun _ => some []) (hw _ .addTransactionFlagTag) (.inl ⟨nofun, _, rfl⟩) (fun _ => rfl) (fun _ => rfl)
      (fun d => get_inserted _ _) fun d l hl => ?_
    cases l with
    | trnTag t => exact get_insert _ _ _ fun h => hl (by rw [h])
    | _ => rfl
  | removeTransactionFlagTag tag =>
    simp only [show (Action.removeTransactionFlagTag tag).apply J = _ from funext fun c => by rw [Action.apply]]
    refine .write (.trnTag tag) (fun _ => none) (hw _ .removeTransactionFlagTag) (.inl ⟨nofun, _, rfl⟩) (fun _ => rfl) (fun _ => rfl)
      (fun d => get_erased _ _) fun d l hl => ?_
    cases l with
    | trnTag t => exact get_erase _ _ _ fun h => hl (by rw [h])
    | _ => rfl
  | addTransactionValueTag key value =>
    simp only [show (Action.addTransactionValueTag key value).apply J = _ from funext fun c => by rw [Action.apply]]
    refine .write (.trnValue key) (fun _ => some value) (hw _ .addTransactionValueTag) (.inl ⟨nofun, _, rfl⟩) (fun _ => rfl)
      (fun _ => rfl) (fun d => values_insert_self _ _ _) fun d l hl => ?_
    cases l with
    | trnValue t => exact values_insert_other _ _ _ _ fun h => hl (by rw [h])
    | _ => rfl
  | removeTransactionValueTag key =>
    simp only [show (Action.removeTransactionValueTag key).apply J = _ from funext fun c => by rw [Action.apply]]
    refine .write (.trnValue key) (fun _ => none) (hw _ .removeTransactionValueTag) (.inl ⟨nofun, _, rfl⟩) (fun _ => rfl)
      (fun _ => rfl) (fun d => values_erase_self _ _) fun d l hl => ?_
    cases l with
    | trnValue t => exact values_erase_other _ _ _ fun h => hl (by rw [h])
    | _ => rfl
  | all as =>
    rw [show (Action.all as).apply J = Action.applyAll J as from funext fun c => by rw [Action.apply]]
    exact steady_actions hT hJ as (fun a ha l hl => hw l (.all ha hl)) fun a ha f hf => hr f (.inside ha hf)
  | error msg => exact fun c => .inl ⟨_, fun d _ => by rw [Action.apply]⟩
  | noop => exact fun _ => .inr ⟨_, .id, fun d _ => ⟨d, by rw [Action.apply], rfl, rfl, fun _ => rfl⟩⟩
  | jumpChain name =>
    rw [show (Action.jumpChain name).apply J = J name from funext fun c => by rw [Action.apply]]
    exact hJ name
  | setAccount account =>
    simp only [show (Action.setAccount account).apply J = _ from funext fun c => by rw [Action.apply]]
    refine .write .account (fun _ => some account) (hw _ .setAccount) (.inl ⟨nofun, _, rfl⟩) (fun _ => rfl)
      (fun _ => rfl) (fun d => rfl) fun d l hl => ?_
    cases l with
    | account => exact absurd rfl hl
    | _ => rfl
  | replaceTransactionDescription f =>
    simp only [show (Action.replaceTransactionDescription f).apply J = _ from funext fun c => by rw [Action.apply]]
    refine .write .description (Option.map f) (hw _ .replaceTransactionDescription) (.inr ⟨rfl, f, hr f .here, rfl⟩) (fun _ => rfl)
      (fun _ => rfl) (fun d => rfl) fun d l hl => ?_
    cases l with
    | description => exact absurd rfl hl
    | _ => rfl
theorem steady_actions (hT : Separate T) {J : Str → Ctx → Res} (hJ : ∀ name, Steady T (J name)) (as : List Action)
    (hw : ∀ a ∈ as, ∀ l, Writes a l → Written T l) (hr : ∀ a ∈ as, ∀ f, Replaces a f → Replacing T f) :
    Steady T (Action.applyAll J as) := by
  cases as with
  | nil => exact fun _ => .inr ⟨_, .id, fun d _ => ⟨d, by rw [Action.applyAll], rfl, rfl, fun _ => rfl⟩⟩
  | cons a as =>
    rw [show Action.applyAll J (a :: as) = _ from funext fun c => by rw [Action.applyAll]]
    exact .bind hT (steady_action hT hJ a (hw a List.mem_cons_self) (hr a List.mem_cons_self))
      (steady_actions hT hJ as (fun a ha => hw a (List.mem_cons_of_mem _ ha)) fun a ha => hr a (List.mem_cons_of_mem _ ha))
end

theorem steady_chain (hT : Separate T) {J : Str → Ctx → Res} (hJ : ∀ name, Steady T (J name)) (ch : Chain)
    (hch : ∀ r ∈ ch, RuleOf T r) : Steady T (Chain.apply lower J ch) := by
  induction ch with
  | nil => exact fun _ => .inr ⟨_, .id, fun d _ => ⟨d, by rw [Chain.apply], rfl, rfl, fun _ => rfl⟩⟩
  | cons r rs ih =>
    have hr := hch r List.mem_cons_self
    have ih := ih fun r hr => hch r (List.mem_cons_of_mem _ hr)
    have ha : Steady T (r.action.apply J) := steady_action hT hJ r.action (fun l hl => ⟨r, hr, hl⟩) fun f hf => ⟨r, hr, hf⟩
    have hp : ∀ c d, Agree T c d → r.predicate.isMatch lower c = r.predicate.isMatch lower d := fun c d h =>
      agree_pred _ fun l hl => h l fun ⟨r', hr', hw⟩ => hT.apart r r' l hr hr' hl hw
    intro c
    match hm : r.predicate.isMatch lower c with
    | false =>
      have : ∀ d, Agree T c d → Chain.apply lower J (r :: rs) d = Chain.apply lower J rs d := fun d hd => by
        rw [Chain.apply, Rule.apply, if_neg (by rw [← hp c d hd, hm]; nofun)]
      rcases ih c with ⟨e, h⟩ | ⟨P, hP, h⟩
      · exact .inl ⟨e, fun d hd => (this d hd).trans (h d hd)⟩
      · exact .inr ⟨P, hP, fun d hd => by rw [this d hd]; exact h d hd⟩
    | true =>
      match hres : r.result with
      | .continue_ =>
        have : ∀ d, Agree T c d → Chain.apply lower J (r :: rs) d = match r.action.apply J d with
            | .error e => .error e
            | .ok c => Chain.apply lower J rs c := fun d hd => by
          rw [Chain.apply, Rule.apply, if_pos (by rw [← hp c d hd, hm]), hres]
          match r.action.apply J d with
          | .error e => rfl
          | .ok c => rfl
        rcases ha.bind hT ih c with ⟨e, h⟩ | ⟨P, hP, h⟩
        · exact .inl ⟨e, fun d hd => (this d hd).trans (h d hd)⟩
        · exact .inr ⟨P, hP, fun d hd => by rw [this d hd]; exact h d hd⟩
      | .return_ =>
        have : ∀ d, Agree T c d → Chain.apply lower J (r :: rs) d = r.action.apply J d := fun d hd => by
          rw [Chain.apply, Rule.apply, if_pos (by rw [← hp c d hd, hm]), hres]
          match r.action.apply J d with
          | .error e => rfl
          | .ok c => rfl
        rcases ha c with ⟨e, h⟩ | ⟨P, hP, h⟩
        · exact .inl ⟨e, fun d hd => (this d hd).trans (h d hd)⟩
        · exact .inr ⟨P, hP, fun d hd => by rw [this d hd]; exact h d hd⟩

theorem steady_jump (hT : Separate T) (fuel : Nat) (name : Str) : Steady T (T.jump lower fuel name) := by
  induction fuel generalizing name with
  | zero => exact fun c => .inl ⟨_, fun d _ => by rw [Table.jump]⟩
  | succ n ih =>
    rw [show T.jump lower (n + 1) name = _ from funext fun c => by rw [Table.jump]]
    match h : T[name]? with
    | none => exact fun c => .inl ⟨_, fun d _ => by rw [Table.getChain, h]⟩
    | some ch =>
      rw [Table.getChain, h]
      exact steady_chain hT ih ch fun r hr => ⟨name, ch, h, hr⟩

/-! ### Transactions -/

structure HAfter (P : Patch) (t t' : TransactionInternal) : Prop where
  strip : stripT t' = stripT t
  get : ∀ p l, inHeader l = true → RulesAgain.get ⟨t', p⟩ l = P l (RulesAgain.get ⟨t, p⟩ l)

def HAgree (T : Table) (t u : TransactionInternal) : Prop :=
  ∀ p l, inHeader l = true → ¬ Written T l → get ⟨t, p⟩ l = get ⟨u, p⟩ l

theorem After.hdr {P : Patch} {c c' : Ctx} (h : After P c c') : HAfter P c.trn c'.trn :=
  ⟨h.header, fun p l hl => by
    rw [get_header (q := c'.post) hl, get_header (q := c.post) (t := c.trn) hl]; exact h.get l⟩

theorem HAfter.agree {P : Patch} (hP : Fits T P) {t t' : TransactionInternal} (h : HAfter P t t') : HAgree T t t' :=
  fun p l hl hw => by rw [h.get p l hl, hP.unwritten hw]

theorem posts_again (hT : Separate T) (fuel : Nat) (start : Chain) (hs : ∀ r ∈ start, RuleOf T r) (ps : List PostingInternal) :
    ∀ t t' ps', T.updatePosts lower fuel start t ps = .ok (t', ps') →
    ∃ P, Fits T P ∧ HAfter P t t' ∧ ∀ u, HAgree T t u → ∃ u', T.updatePosts lower fuel start u ps' = .ok (u', ps') ∧ HAfter P u u' := by
  induction ps with
  | nil =>
    intro t t' ps' h
    rw [Table.updatePosts] at h
    cases h
    exact ⟨_, .id, ⟨rfl, fun _ _ _ => rfl⟩, fun u _ => ⟨u, by rw [Table.updatePosts], rfl, fun _ _ _ => rfl⟩⟩
  | cons p ps ih =>
    intro t t' ps' h
    rw [Table.updatePosts] at h
    match hc : Chain.apply lower (T.jump lower fuel) start ⟨t, p⟩ with
    | .error e => rw [hc] at h; cases h
    | .ok c =>
      match hr : T.updatePosts lower fuel start c.trn ps with
      | .error e => rw [hc] at h; dsimp only at h; rw [hr] at h; cases h
      | .ok (t₂, ps₂) =>
        rw [hc] at h
        dsimp only at h
        rw [hr] at h
        cases h
        rcases steady_chain (lower := lower) hT (steady_jump hT fuel) start hs ⟨t, p⟩ with ⟨e, h⟩ | ⟨P, hP, hall⟩
        · rw [h _ fun _ _ => rfl] at hc; cases hc
        obtain ⟨c', hc', hA⟩ := hall _ fun _ _ => rfl
        rw [hc] at hc'
        cases hc'
        obtain ⟨Q, hQ, hQ1, hQ2⟩ := ih _ _ _ hr
        refine ⟨_, hP.comp hT hQ, ⟨hQ1.strip.trans hA.header, fun p l hl => ?_⟩, fun u hu => ?_⟩
        · rw [hQ1.get p l hl, hA.hdr.get p l hl]; rfl
        · have hag : Agree T ⟨t, p⟩ ⟨u, c.post⟩ := fun l hw => by
            match hl : inHeader l with
            | true => rw [get_header (q := c.post) hl]; exact hu _ l hl hw
            | false => rw [get_post (u := c.trn) hl (p := c.post)]; exact hA.agree hP l hw
          obtain ⟨d, hd, hD⟩ := hall _ hag
          have hpost : d.post = c.post := by
            refine ext_post (t := d.trn) hD.post fun l hl => ?_
            have h1 : get d l = P l (get ⟨u, c.post⟩ l) := hD.get l
            have h2 : get c l = P l (get ⟨t, p⟩ l) := hA.get l
            have h3 : get ⟨u, c.post⟩ l = get c l := get_post (u := c.trn) hl
            rw [h1, h3, h2, hP.idem hT, ← h2]
            exact (get_post (u := c.trn) hl).symm
          obtain ⟨u', hu', hU⟩ := hQ2 d.trn fun q l hl hw => by
            rw [hA.hdr.get q l hl, hD.hdr.get q l hl, hP.unwritten hw, hP.unwritten hw]
            exact hu q l hl hw
          refine ⟨u', ?_, hU.strip.trans hD.header, fun q l hl => ?_⟩
          · rw [Table.updatePosts, hd]
            dsimp only
            rw [hu', hpost]
          · rw [hU.get q l hl, hD.hdr.get q l hl]; rfl

theorem transaction_again (hT : Separate T) {fuel : Nat} {t u : TransactionPostings} (h : T.updateTransaction lower fuel t = .ok u) :
    T.updateTransaction lower fuel u = .ok u := by
  rw [Table.updateTransaction] at h ⊢
  match hs : T[startChain]? with
  | none => rw [Table.getChain, hs] at h; cases h
  | some start =>
    rw [Table.getChain, hs] at h ⊢
    dsimp only at h ⊢
    match hp : T.updatePosts lower fuel start t.trn t.posts with
    | .error e => rw [hp] at h; cases h
    | .ok (t', ps') =>
      rw [hp] at h
      cases h
      obtain ⟨P, hP, hA, hall⟩ := posts_again hT fuel start (fun r hr => ⟨_, start, hs, hr⟩) _ _ _ _ hp
      obtain ⟨u', hu, hU⟩ := hall t' (hA.agree hP)
      have : u' = t' := by
        match ps', t.posts with
        | _, q :: _ => exact ext_header (p := q) hU.strip fun l hl => by rw [hU.get q l hl, hA.get q l hl, hP.idem hT]
        | [], [] =>
          rw [Table.updatePosts] at hu
          cases hu
          rfl
        | q :: _, [] => exact ext_header (p := q) hU.strip fun l hl => by rw [hU.get q l hl, hA.get q l hl, hP.idem hT]
      dsimp only
      rw [hu, this]

end RulesAgain
open RulesAgain

/-- Rules that do not read what they write change nothing when they are applied again. -/
theorem C105_again (lower : Str → Str) (T : Table) (hT : Separate T) (fuel : Nat) (ts us : List TransactionPostings)
    (h : T.updateTransactions lower fuel ts = .ok us) : T.updateTransactions lower fuel us = .ok us := by
  rw [updateTransactions_ok] at h ⊢
  induction h with
  | nil => exact .nil
  | cons h _ ih => exact .cons (transaction_again hT h) ih

/-! ### Rules for marked postings -/

theorem Spec.RulesAgain.Needs.holds {mark : Str} {q : Predicate} (h : Needs mark q) {lower : Str → Str} {c : Ctx} (hq : Holds lower c q) :
    mark ∈ c.post.comment.tags := by
  induction h with
  | here => rw [Holds] at hq; exact hq
  | all hp _ ih => rw [Holds] at hq; exact ih (hq _ hp)
  | any _ ih => rw [Holds] at hq; obtain ⟨p, hp, h⟩ := hq; exact ih p hp h

theorem guarded_skip {mark : Str} {lower : Str → Str} {J : Str → Ctx → Res} {ch : Chain} (h : ∀ r ∈ ch, Needs mark r.predicate)
    {c : Ctx} (hc : mark ∉ c.post.comment.tags) : Chain.apply lower J ch c = .ok c := by
  induction ch with
  | nil => rw [Chain.apply]
  | cons r rs ih =>
    rw [Chain.apply, Rule.apply, if_neg fun hm => hc ((h r List.mem_cons_self).holds ((isMatch_iff _ _ _).1 hm))]
    exact ih fun r hr => h r (List.mem_cons_of_mem _ hr)

theorem guarded_gone {mark : Str} {lower : Str → Str} {J : Str → Ctx → Res} {rules : List Rule} {last : Rule}
    (h : ∀ r ∈ rules, r.result = .continue_) (hp : last.predicate = .postingHasFlagTag mark)
    (ha : last.action = .removePostingFlagTag mark) : ∀ {c c' : Ctx}, Chain.apply lower J (rules ++ [last]) c = .ok c' →
    mark ∉ c'.post.comment.tags := by
  induction rules with
  | nil =>
    intro c c' hc
    rw [List.nil_append, Chain.apply, Rule.apply] at hc
    by_cases hm : last.predicate.isMatch lower c = true
    · rw [if_pos hm, ha, Action.apply] at hc
      match hr : last.result with
      | .continue_ => rw [hr] at hc; dsimp only at hc; rw [Chain.apply] at hc; cases hc; exact fun h => ((tags_erase _ _ _).1 h).1 rfl
      | .return_ => rw [hr] at hc; cases hc; exact fun h => ((tags_erase _ _ _).1 h).1 rfl
    · rw [if_neg hm] at hc
      dsimp only at hc
      rw [Chain.apply] at hc
      cases hc
      rw [isMatch_iff, hp, Holds] at hm
      exact hm
  | cons r rs ih =>
    intro c c' hc
    have ih := @ih fun r hr => h r (List.mem_cons_of_mem _ hr)
    rw [List.cons_append, Chain.apply, Rule.apply] at hc
    by_cases hm : r.predicate.isMatch lower c = true
    · rw [if_pos hm, h r List.mem_cons_self] at hc
      match hr : r.action.apply J c with
      | .error e => rw [hr] at hc; cases hc
      | .ok d => rw [hr] at hc; exact ih hc
    · rw [if_neg hm] at hc
      exact ih hc

/-- Rules for postings with a mark, which is taken away at the end, change nothing when they are applied again, whatever they read
and write. -/
theorem C105_guarded (lower : Str → Str) (T : Table) (mark : Str) (hT : Guarded mark T) (fuel : Nat) (ts us : List TransactionPostings)
    (h : T.updateTransactions lower fuel ts = .ok us) : T.updateTransactions lower fuel us = .ok us := by
  obtain ⟨rules, last, hs, hr, hp, ha⟩ := hT
  have hneeds : ∀ r ∈ rules ++ [last], Needs mark r.predicate := fun r h => by
    rcases List.mem_append.1 h with h | h
    · exact (hr r h).1
    · rw [List.mem_singleton.1 h, hp]; exact .here
  have posts : ∀ ps t t' ps', T.updatePosts lower fuel (rules ++ [last]) t ps = .ok (t', ps') →
      ∀ p ∈ ps', mark ∉ p.comment.tags := by
    intro ps
    induction ps with
    | nil => intro t t' ps' h; rw [Table.updatePosts] at h; cases h; exact fun p hp => absurd hp List.not_mem_nil
    | cons p ps ih =>
      intro t t' ps' h
      rw [Table.updatePosts] at h
      match hc : Chain.apply lower (T.jump lower fuel) (rules ++ [last]) ⟨t, p⟩ with
      | .error e => rw [hc] at h; cases h
      | .ok c =>
        rw [hc] at h
        dsimp only at h
        match hr' : T.updatePosts lower fuel (rules ++ [last]) c.trn ps with
        | .error e => rw [hr'] at h; cases h
        | .ok (t₂, ps₂) =>
          rw [hr'] at h
          cases h
          intro q hq
          rcases List.mem_cons.1 hq with rfl | hq
          · exact guarded_gone (fun r h => (hr r h).2) hp ha hc
          · exact ih _ _ _ hr' q hq
  have still : ∀ t ps, (∀ p ∈ ps, mark ∉ p.comment.tags) → T.updatePosts lower fuel (rules ++ [last]) t ps = .ok (t, ps) := by
    intro t ps
    induction ps with
    | nil => intro _; rw [Table.updatePosts]
    | cons p ps ih =>
      intro h
      rw [Table.updatePosts, guarded_skip hneeds (h p List.mem_cons_self)]
      dsimp only
      rw [ih fun p hp => h p (List.mem_cons_of_mem _ hp)]
  rw [updateTransactions_ok] at h ⊢
  induction h with
  | nil => exact .nil
  | @cons t u _ _ h _ ih =>
    refine .cons ?_ ih
    have hg : T.getChain startChain = .ok (rules ++ [last]) := by
      rw [Table.getChain, show startChain = "start".toList from rfl, hs]
    rw [Table.updateTransaction, hg] at h ⊢
    dsimp only at h ⊢
    match hp : T.updatePosts lower fuel (rules ++ [last]) t.trn t.posts with
    | .error e => rw [hp] at h; cases h
    | .ok (t', ps') =>
      rw [hp] at h
      cases h
      dsimp only
      rw [still _ _ (posts _ _ _ _ hp)]

/-! ### The example of the project -/

/-- /repo/examples/rules.ron:1-105. -/
def exampleChains : List (Str × Chain) := [
  ("start".toList, [⟨.true_, .all [.jumpChain "assign".toList, .jumpChain "clean".toList], .continue_⟩]),
  ("clean".toList, [⟨.true_, .all [.removePostingValueTag "account".toList, .removePostingValueTag "bank".toList,
    .removePostingValueTag "trn_type".toList], .continue_⟩]),
  ("mark-unknown".toList, [⟨.true_, .addPostingFlagTag "unknown-account".toList, .return_⟩]),
  ("assign".toList, [
    ⟨.true_, .removePostingFlagTag "unknown-account".toList, .continue_⟩,
    ⟨.account (.eq "expenses:unknown".toList), .jumpChain "expenses".toList, .return_⟩,
    ⟨.account (.eq "income:unknown".toList), .jumpChain "income".toList, .return_⟩,
    ⟨.postingHasValueTag "bank".toList, .jumpChain "bank_account".toList, .return_⟩,
    ⟨.true_, .jumpChain "mark-unknown".toList, .return_⟩]),
  ("bank_account".toList, [
    ⟨.postingValueTag "bank".toList (.eq "Nationwide".toList),
      .all [.removePostingValueTag "bank".toList, .jumpChain "nationwide".toList], .return_⟩,
    ⟨.true_, .jumpChain "mark-unknown".toList, .return_⟩]),
  ("expenses".toList, [
    ⟨.transactionDescription (.eq "ATM Withdrawal".toList), .setAccount "expenses:petty".toList, .return_⟩,
    ⟨.true_, .jumpChain "mark-unknown".toList, .return_⟩]),
  ("income".toList, [
    ⟨.transactionDescription (.eq "Payroll".toList), .setAccount "income:salary".toList, .return_⟩,
    ⟨.postingValueTag "trn_type".toList (.eq "Interest".toList), .setAccount "income:interest".toList, .return_⟩,
    ⟨.true_, .jumpChain "mark-unknown".toList, .return_⟩]),
  ("nationwide".toList, [
    ⟨.postingValueTag "account".toList (.eq "Current".toList), .setAccount "assets:nationwide:current".toList, .return_⟩,
    ⟨.postingValueTag "account".toList (.eq "Savings".toList), .setAccount "assets:nationwide:savings".toList, .return_⟩,
    ⟨.true_, .jumpChain "mark-unknown".toList, .return_⟩])]

/-- The table loaded from it (/repo/examples/rules.ron:1-105, /repo/src/rules/table/source.rs:37-42). -/
def exampleTable : Table := Std.ExtTreeMap.ofList exampleChains compare

namespace RulesAgain

theorem example_chain {name : Str} {ch : Chain} (h : (name, ch) ∈ exampleChains) : exampleTable.getChain name = .ok ch := by
  have hd : (exampleChains.map Prod.fst).Pairwise fun a b => ¬ compare a b = .eq := by decide +kernel
  have : exampleTable[name]? = some ch := Std.ExtTreeMap.getElem?_ofList_of_mem
    (Std.LawfulEqOrd.compare_eq_iff_eq.2 rfl) (List.pairwise_map.1 hd) h
  rw [Table.getChain, this]

variable {lower : Str → Str} {J : Str → Ctx → Res}

theorem chain_return {q : Predicate} {a : Action} {rs : List Rule} {c : Ctx} :
    Chain.apply lower J (⟨q, a, .return_⟩ :: rs) c = if q.isMatch lower c = true then a.apply J c else Chain.apply lower J rs c := by
  rw [Chain.apply, Rule.apply]
  by_cases h : q.isMatch lower c = true
  · rw [if_pos h, if_pos h]
    match a.apply J c with
    | .error e => rfl
    | .ok c => rfl
  · rw [if_neg h, if_neg h]

theorem chain_last {a : Action} {rs : List Rule} {c : Ctx} : Chain.apply lower J (⟨.true_, a, .return_⟩ :: rs) c = a.apply J c := by
  rw [chain_return, if_pos (by rw [Predicate.isMatch])]

theorem chain_true {a : Action} {rs : List Rule} {c c' : Ctx} (h : a.apply J c = .ok c') :
    Chain.apply lower J (⟨.true_, a, .continue_⟩ :: rs) c = Chain.apply lower J rs c' := by
  rw [Chain.apply, Rule.apply, if_pos (by rw [Predicate.isMatch]), h]

theorem jump_to {T : Table} {name : Str} {ch : Chain} (h : T.getChain name = .ok ch) (n : Nat) (c : Ctx) :
    (Action.jumpChain name).apply (T.jump lower (n + 1)) c = Chain.apply lower (T.jump lower n) ch c := by
  rw [Action.apply, Table.jump, h]

theorem match_eq {want s : Str} : StringMatch.matchesString lower (.eq want) s = true ↔ s = want := by
  rw [StringMatch.matchesString, beq_iff_eq]
  exact eq_comm

theorem example_mark (n : Nat) (c : Ctx) : (Action.jumpChain "mark-unknown".toList).apply (exampleTable.jump lower (n + 1)) c =
    .ok (withPostTags c (c.post.comment.tags.insert "unknown-account".toList)) := by
  rw [jump_to (example_chain (List.mem_cons_of_mem _ (List.mem_cons_of_mem _ List.mem_cons_self))), chain_last, Action.apply]
  rfl

/-- The account that is set, or the mark. -/
def settle (c : Ctx) : Option Str → Ctx
  | some account => ⟨c.trn, ⟨{ c.post.raw with account := account }, c.post.comment⟩⟩
  | none => withPostTags c (c.post.comment.tags.insert "unknown-account".toList)

theorem example_set (n : Nat) (c : Ctx) (account : Str) : (Action.setAccount account).apply (exampleTable.jump lower n) c =
    .ok (settle c (some account)) := by
  rw [Action.apply]; rfl

theorem example_expenses (n : Nat) (c : Ctx) : (Action.jumpChain "expenses".toList).apply (exampleTable.jump lower (n + 2)) c =
    .ok (settle c (if c.trn.raw.description = "ATM Withdrawal".toList then some "expenses:petty".toList else none)) := by
  rw [jump_to (example_chain (List.mem_of_getElem? (i := 5) rfl)), chain_return, chain_last, example_mark, example_set]
  by_cases h : c.trn.raw.description = "ATM Withdrawal".toList
  · rw [if_pos (by rw [Predicate.isMatch]; exact match_eq.2 h), if_pos h]
  · rw [if_neg (by rw [Predicate.isMatch]; exact fun h' => h (match_eq.1 h')), if_neg h]; rfl

theorem match_value {key want : Str} {c : Ctx} : (Predicate.postingValueTag key (.eq want)).isMatch lower c = true ↔
    c.post.comment.valueTags[key]? = some want := by
  rw [isMatch_iff, Holds]
  exact ⟨fun ⟨v, h, h'⟩ => by rw [h, show v = want from h'], fun h => ⟨want, h, rfl⟩⟩

theorem example_income (n : Nat) (c : Ctx) : (Action.jumpChain "income".toList).apply (exampleTable.jump lower (n + 2)) c =
    .ok (settle c (if c.trn.raw.description = "Payroll".toList then some "income:salary".toList else
      if c.post.comment.valueTags["trn_type".toList]? = some "Interest".toList then some "income:interest".toList else none)) := by
  rw [jump_to (example_chain (List.mem_of_getElem? (i := 6) rfl)), chain_return, chain_return, chain_last, example_mark, example_set,
    example_set]
  by_cases h : c.trn.raw.description = "Payroll".toList
  · rw [if_pos (by rw [Predicate.isMatch]; exact match_eq.2 h), if_pos h]
  · rw [if_neg (by rw [Predicate.isMatch]; exact fun h' => h (match_eq.1 h')), if_neg h]
    by_cases h : c.post.comment.valueTags["trn_type".toList]? = some "Interest".toList
    · rw [if_pos (match_value.2 h), if_pos h]
    · rw [if_neg (fun h' => h (match_value.1 h')), if_neg h]; rfl

theorem example_nationwide (n : Nat) (c : Ctx) : (Action.jumpChain "nationwide".toList).apply (exampleTable.jump lower (n + 2)) c =
    .ok (settle c (if c.post.comment.valueTags["account".toList]? = some "Current".toList then some "assets:nationwide:current".toList else
      if c.post.comment.valueTags["account".toList]? = some "Savings".toList then some "assets:nationwide:savings".toList else none)) := by
  rw [jump_to (example_chain (List.mem_of_getElem? (i := 7) rfl)), chain_return, chain_return, chain_last, example_mark, example_set,
    example_set]
  by_cases h : c.post.comment.valueTags["account".toList]? = some "Current".toList
  · rw [if_pos (match_value.2 h), if_pos h]
  · rw [if_neg (fun h' => h (match_value.1 h')), if_neg h]
    by_cases h : c.post.comment.valueTags["account".toList]? = some "Savings".toList
    · rw [if_pos (match_value.2 h), if_pos h]
    · rw [if_neg (fun h' => h (match_value.1 h')), if_neg h]; rfl

/-- The bank account by the tags. -/
def bankOf (m : StrMap) : Option Str :=
  if m["account".toList]? = some "Current".toList then some "assets:nationwide:current".toList
  else if m["account".toList]? = some "Savings".toList then some "assets:nationwide:savings".toList else none

theorem example_bank (n : Nat) (c : Ctx) : (Action.jumpChain "bank_account".toList).apply (exampleTable.jump lower (n + 3)) c =
    .ok (if c.post.comment.valueTags["bank".toList]? = some "Nationwide".toList then
      settle (withPostValues c (c.post.comment.valueTags.erase "bank".toList)) (bankOf c.post.comment.valueTags)
    else settle c none) := by
  rw [jump_to (example_chain (List.mem_of_getElem? (i := 4) rfl)), chain_return, chain_last, example_mark]
  by_cases h : c.post.comment.valueTags["bank".toList]? = some "Nationwide".toList
  · rw [if_pos (match_value.2 h), if_pos h, Action.apply, Action.applyAll, Action.apply]
    dsimp only
    rw [Action.applyAll, example_nationwide]
    dsimp only
    rw [Action.applyAll, values_erase_other _ _ _ (by decide +kernel)]
    rfl
  · rw [if_neg (fun h' => h (match_value.1 h')), if_neg h]; rfl

/-- What the chain `assign` finds. -/
def found (d : Str) (p : PostingInternal) : Option Str :=
  if p.raw.account = "expenses:unknown".toList then
    if d = "ATM Withdrawal".toList then some "expenses:petty".toList else none
  else if p.raw.account = "income:unknown".toList then
    if d = "Payroll".toList then some "income:salary".toList
    else if p.comment.valueTags["trn_type".toList]? = some "Interest".toList then some "income:interest".toList else none
  else if p.comment.valueTags["bank".toList]? = some "Nationwide".toList then bankOf p.comment.valueTags
  else none

theorem found_income {d : Str} {p : PostingInternal} (h1 : ¬ p.raw.account = "expenses:unknown".toList)
    (h2 : p.raw.account = "income:unknown".toList) : found d p = if d = "Payroll".toList then some "income:salary".toList
      else if p.comment.valueTags["trn_type".toList]? = some "Interest".toList then some "income:interest".toList else none := by
  rw [found, if_neg h1, if_pos h2]

theorem found_bank {d : Str} {p : PostingInternal} (h1 : ¬ p.raw.account = "expenses:unknown".toList)
    (h2 : ¬ p.raw.account = "income:unknown".toList) : found d p =
      if p.comment.valueTags["bank".toList]? = some "Nationwide".toList then bankOf p.comment.valueTags else none := by
  rw [found, if_neg h1, if_neg h2]

/-- After `assign`: what was found, without the mark or with it; the tag `bank` may be gone. -/
theorem example_assign (n : Nat) (t : TransactionInternal) (p : PostingInternal) : ∃ m : StrMap,
    (∀ k, k ≠ "bank".toList → m[k]? = p.comment.valueTags[k]?) ∧
    (Action.jumpChain "assign".toList).apply (exampleTable.jump lower (n + 4)) ⟨t, p⟩ =
      .ok (settle ⟨t, ⟨p.raw, ⟨p.comment.lines, p.comment.tags.erase "unknown-account".toList, m⟩⟩⟩ (found t.raw.description p)) := by
  rw [jump_to (example_chain (List.mem_of_getElem? (i := 3) rfl)), chain_true (Action.apply.eq_10 ..), chain_return, chain_return,
    chain_return, chain_last, example_mark, example_expenses, example_income, example_bank]
  by_cases h1 : p.raw.account = "expenses:unknown".toList
  · refine ⟨p.comment.valueTags, fun _ _ => rfl, ?_⟩
    rw [if_pos (by rw [Predicate.isMatch]; exact match_eq.2 h1), found, if_pos h1]
  rw [if_neg (by rw [Predicate.isMatch]; exact fun h' => h1 (match_eq.1 h'))]
  by_cases h2 : p.raw.account = "income:unknown".toList
  · refine ⟨p.comment.valueTags, fun _ _ => rfl, ?_⟩
    rw [if_pos (by rw [Predicate.isMatch]; exact match_eq.2 h2), found_income h1 h2]
  rw [if_neg (by rw [Predicate.isMatch]; exact fun h' => h2 (match_eq.1 h')), found_bank h1 h2]
  by_cases h3 : p.comment.valueTags["bank".toList]? = some "Nationwide".toList
  · refine ⟨p.comment.valueTags.erase "bank".toList, values_erase_other _ _, ?_⟩
    rw [if_pos, if_pos h3, if_pos h3]
    · rfl
    · rw [isMatch_iff, Holds]
      exact Std.ExtTreeMap.mem_iff_isSome_getElem?.2 (by rw [h3]; rfl)
  · refine ⟨p.comment.valueTags, fun _ _ => rfl, ?_⟩
    rw [if_neg h3, if_neg h3]
    exact ite_self _

theorem erase_three {m m' : StrMap} (h : ∀ k, k ≠ "bank".toList → m'[k]? = m[k]?) :
    ((m'.erase "account".toList).erase "bank".toList).erase "trn_type".toList =
    ((m.erase "account".toList).erase "bank".toList).erase "trn_type".toList := by
  apply Std.ExtTreeMap.ext_getElem?
  intro k
  by_cases h1 : k = "trn_type".toList
  · rw [h1, values_erase_self, values_erase_self]
  rw [values_erase_other _ _ _ h1, values_erase_other _ _ _ h1]
  by_cases h2 : k = "bank".toList
  · rw [h2, values_erase_self, values_erase_self]
  rw [values_erase_other _ _ _ h2, values_erase_other _ _ _ h2]
  by_cases h3 : k = "account".toList
  · rw [h3, values_erase_self, values_erase_self]
  rw [values_erase_other _ _ _ h3, values_erase_other _ _ _ h3, h k h2]

theorem exampleResult_eq (d : Str) (p : PostingInternal) : exampleResult d p =
    ⟨{ p.raw with account := (found d p).getD p.raw.account }, ⟨p.comment.lines,
      if found d p = none then (p.comment.tags.erase "unknown-account".toList).insert "unknown-account".toList
      else p.comment.tags.erase "unknown-account".toList,
      ((p.comment.valueTags.erase "account".toList).erase "bank".toList).erase "trn_type".toList⟩⟩ := rfl

theorem example_start (n : Nat) (t : TransactionInternal) (p : PostingInternal) :
    Chain.apply lower (exampleTable.jump lower (n + 4)) [⟨.true_, .all [.jumpChain "assign".toList, .jumpChain "clean".toList], .continue_⟩]
      ⟨t, p⟩ = .ok ⟨t, exampleResult t.raw.description p⟩ := by
  obtain ⟨m, hm, h⟩ := example_assign (lower := lower) n t p
  rw [chain_true (c' := ⟨t, exampleResult t.raw.description p⟩) ?_, Chain.apply]
  rw [Action.apply, Action.applyAll, h]
  dsimp only
  rw [Action.applyAll, jump_to (example_chain (List.mem_of_getElem? (i := 1) rfl)), chain_true, Chain.apply]
  · dsimp only
    rw [Action.applyAll]
  · rw [Action.apply, Action.applyAll, Action.apply]
    dsimp only
    rw [Action.applyAll, Action.apply]
    dsimp only
    rw [Action.applyAll, Action.apply]
    dsimp only
    rw [Action.applyAll, exampleResult_eq, ← erase_three hm]
    match found t.raw.description p with
    | none => rfl
    | some a => rfl

theorem example_posts (n : Nat) (t : TransactionInternal) (ps : List PostingInternal) :
    exampleTable.updatePosts lower (n + 4) [⟨.true_, .all [.jumpChain "assign".toList, .jumpChain "clean".toList], .continue_⟩] t ps =
      .ok (t, ps.map (exampleResult t.raw.description)) := by
  induction ps with
  | nil => rw [Table.updatePosts]; rfl
  | cons p ps ih =>
    rw [Table.updatePosts, example_start]
    dsimp only
    rw [ih]
    rfl

theorem bankOf_none {m : StrMap} (h : m["account".toList]? = none) : bankOf m = none := by
  rw [bankOf, h, if_neg nofun, if_neg nofun]

theorem found_account {d : Str} {p : PostingInternal} {a : Str} (h : found d p = some a) :
    a ≠ "expenses:unknown".toList ∧ a ≠ "income:unknown".toList := by
  have hb : ∀ m, bankOf m = some a → a = "assets:nationwide:current".toList ∨ a = "assets:nationwide:savings".toList := fun m h => by
    rw [bankOf] at h
    split at h
    · exact .inl (Option.some.inj h).symm
    · split at h
      · exact .inr (Option.some.inj h).symm
      · cases h
  have : a = "assets:nationwide:current".toList ∨ a = "assets:nationwide:savings".toList ∨ a = "expenses:petty".toList ∨
      a = "income:salary".toList ∨ a = "income:interest".toList := by
    rw [found] at h
    split at h
    · split at h
      · exact .inr (.inr (.inl (Option.some.inj h).symm))
      · cases h
    · split at h
      · split at h
        · exact .inr (.inr (.inr (.inl (Option.some.inj h).symm)))
        · split at h
          · exact .inr (.inr (.inr (.inr (Option.some.inj h).symm)))
          · cases h
      · split at h
        · rcases hb _ h with h | h
          · exact .inl h
          · exact .inr (.inl h)
        · cases h
  rcases this with h | h | h | h | h <;> subst h <;> exact ⟨by decide +kernel, by decide +kernel⟩

theorem example_values (d : Str) (p : PostingInternal) (k : Str) (hk : k = "account".toList ∨ k = "bank".toList ∨ k = "trn_type".toList) :
    (exampleResult d p).comment.valueTags[k]? = none := by
  rw [exampleResult_eq]
  dsimp only
  by_cases h1 : k = "trn_type".toList
  · rw [h1, values_erase_self]
  rw [values_erase_other _ _ _ h1]
  by_cases h2 : k = "bank".toList
  · rw [h2, values_erase_self]
  rw [values_erase_other _ _ _ h2]
  rcases hk with rfl | h | h
  · rw [values_erase_self]
  · exact absurd h h2
  · exact absurd h h1

/-- In what the rules gave they find nothing more. -/
theorem found_again (d : Str) (p : PostingInternal) : found d (exampleResult d p) = none := by
  have ha : (exampleResult d p).raw.account = (found d p).getD p.raw.account := rfl
  have hb : found d (exampleResult d p) = if (exampleResult d p).raw.account = "expenses:unknown".toList then
      if d = "ATM Withdrawal".toList then some "expenses:petty".toList else none
      else if (exampleResult d p).raw.account = "income:unknown".toList then
        if d = "Payroll".toList then some "income:salary".toList else none else none := by
    rw [found, example_values _ _ _ (.inr (.inr rfl)), example_values _ _ _ (.inr (.inl rfl)), if_neg (c := none = some "Interest".toList) nofun,
      if_neg (c := none = some "Nationwide".toList) nofun]
  rw [hb]
  match hf : found d p with
  | some a =>
    rw [ha, hf, Option.getD_some, if_neg (found_account hf).1, if_neg (found_account hf).2]
  | none =>
    rw [ha, hf, Option.getD_none]
    by_cases h1 : p.raw.account = "expenses:unknown".toList
    · rw [found, if_pos h1] at hf
      rw [if_pos h1, hf]
    · rw [if_neg h1]
      by_cases h2 : p.raw.account = "income:unknown".toList
      · rw [found_income h1 h2] at hf
        rw [if_pos h2]
        by_cases h3 : d = "Payroll".toList
        · rw [if_pos h3] at hf; cases hf
        · rw [if_neg h3]
      · rw [if_neg h2]

end RulesAgain

/-- What the rules of the example do to each posting; they change nothing else and never fail. -/
theorem C105_example_once (lower : Str → Str) (n : Nat) (ts : List TransactionPostings) :
    exampleTable.updateTransactions lower (n + 4) ts =
      .ok (ts.map fun t => ⟨t.trn, t.posts.map (exampleResult t.trn.raw.description)⟩) := by
  rw [updateTransactions_ok, List.forall₂_map_right_iff]
  refine List.forall₂_same.2 fun t _ => ?_
  rw [Table.updateTransaction, show startChain = "start".toList from rfl,
    example_chain (List.mem_cons_self : ("start".toList, _) ∈ exampleChains)]
  dsimp only
  rw [example_posts]

theorem example_marks (d : Str) (p : PostingInternal) (h : found d p = none) (hv : ∀ k, k = "account".toList ∨ k = "bank".toList ∨
    k = "trn_type".toList → p.comment.valueTags[k]? = none) : exampleResult d p =
    ⟨p.raw, ⟨p.comment.lines, p.comment.tags.insert "unknown-account".toList, p.comment.valueTags⟩⟩ := by
  have ht : (p.comment.tags.erase "unknown-account".toList).insert "unknown-account".toList =
      p.comment.tags.insert "unknown-account".toList := by
    apply Std.ExtTreeSet.ext_mem
    intro t
    rw [tags_insert, tags_insert, tags_erase]
    by_cases h : t = "unknown-account".toList
    · exact iff_of_true (.inl h) (.inl h)
    · exact or_congr_right ⟨fun h => h.2, fun h' => ⟨h, h'⟩⟩
  have he : ((p.comment.valueTags.erase "account".toList).erase "bank".toList).erase "trn_type".toList = p.comment.valueTags := by
    apply Std.ExtTreeMap.ext_getElem?
    intro k
    by_cases h1 : k = "trn_type".toList
    · rw [h1, values_erase_self, hv _ (.inr (.inr rfl))]
    rw [values_erase_other _ _ _ h1]
    by_cases h2 : k = "bank".toList
    · rw [h2, values_erase_self, hv _ (.inr (.inl rfl))]
    rw [values_erase_other _ _ _ h2]
    by_cases h3 : k = "account".toList
    · rw [h3, values_erase_self, hv _ (.inl rfl)]
    rw [values_erase_other _ _ _ h3]
  rw [exampleResult_eq, h, if_pos rfl, ht, he]
  rfl

/-- Applied again, the rules of the example mark every posting as one whose account is not known; after that they change nothing. -/
theorem C105_example (lower : Str → Str) (n : Nat) (ts us : List TransactionPostings)
    (h : exampleTable.updateTransactions lower (n + 4) ts = .ok us) :
    exampleTable.updateTransactions lower (n + 4) us = .ok (us.map allUnknown) ∧
    exampleTable.updateTransactions lower (n + 4) (us.map allUnknown) = .ok (us.map allUnknown) := by
  rw [C105_example_once] at h
  cases h
  have h2 : ∀ d p, exampleResult d (exampleResult d p) = ⟨(exampleResult d p).raw, ⟨(exampleResult d p).comment.lines,
      (exampleResult d p).comment.tags.insert "unknown-account".toList, (exampleResult d p).comment.valueTags⟩⟩ := fun d p =>
    example_marks d _ (found_again d p) (example_values d p)
  have h3 : ∀ d p, exampleResult d (exampleResult d (exampleResult d p)) = exampleResult d (exampleResult d p) := fun d p => by
    rw [h2 d (exampleResult d p), h2 d p]
    have : ∀ s : TagSet, (s.insert "unknown-account".toList).insert "unknown-account".toList = s.insert "unknown-account".toList :=
      fun s => Std.ExtTreeSet.ext_mem fun t => by
        rw [tags_insert, tags_insert]
        exact ⟨fun h => h.elim .inl id, .inr⟩
    dsimp only
    rw [this]
  have hm : (ts.map fun t => (⟨t.trn, t.posts.map (exampleResult t.trn.raw.description)⟩ : TransactionPostings)).map allUnknown =
      (ts.map fun t => (⟨t.trn, t.posts.map (exampleResult t.trn.raw.description)⟩ : TransactionPostings)).map
        fun t => ⟨t.trn, t.posts.map (exampleResult t.trn.raw.description)⟩ := by
    rw [List.map_map, List.map_map]
    refine List.map_congr_left fun t _ => ?_
    refine congrArg (TransactionPostings.mk t.trn) ?_
    dsimp only
    rw [List.map_map, List.map_map]
    exact List.map_congr_left fun p _ => (h2 _ p).symm
  refine ⟨by rw [C105_example_once, hm], ?_⟩
  rw [C105_example_once, hm]
  refine congrArg Except.ok ?_
  rw [List.map_map, List.map_map, List.map_map]
  refine List.map_congr_left fun t _ => ?_
  refine congrArg (TransactionPostings.mk t.trn) ?_
  dsimp only [Function.comp_apply]
  rw [List.map_map, List.map_map, List.map_map]
  exact List.map_congr_left fun p _ => h3 _ p

end Verif
