import Verif.Spec.RulesMerge
import Verif.Props.Days
import Verif.Props.NewRules
import Verif.Proofs.Overlap

/-!
# C93: rules before or after merging
-/

namespace Verif
open Spec Spec.Book Spec.Rules Verif.Rules

/-! ### Merging files that are unlike -/

theorem Spec.SoftMatch.sums {p q : PostingInternal} (h : SoftMatch p q) : SameSums p q := h.2

/-- A book that just lists the transactions. -/
structure Lists (J : Book) (done : List TransactionPostings) : Prop where
  reached : Reached J
  entries : J.entries = done
  recs : ∀ r ∈ J.recs, ∃ t ∈ done, r.post ∈ t.posts ∧ r.date = dateOf t

theorem Lists.new {J : Book} {done g : List TransactionPostings} (hJ : Lists J done) (hu : Unlike done g) :
    ∀ t ∈ g, ∀ p ∈ t.posts, J.verdict (dateOf t) p = .new := by
  intro t ht p hp
  rw [verdict_new_iff]
  intro r hr
  obtain ⟨u, hu', hru, hd⟩ := hJ.recs r hr
  obtain ⟨h1, h2⟩ := hu u hu' _ hru t ht p hp
  exact ⟨h1, fun h => h2 ⟨hd ▸ h.1, h.2.sums⟩⟩

theorem new_dests {J : Book} {t : TransactionPostings} (h : ∀ p ∈ t.posts, J.verdict (dateOf t) p = .new) : J.dests t = [] :=
  dests_nil_iff.2 fun p hp => by rw [h p hp]; rfl

theorem new_undecided {J : Book} {t : TransactionPostings} (h : ∀ p ∈ t.posts, J.verdict (dateOf t) p = .new) :
    Undecided J t ↔ t.posts = [] := by
  unfold Undecided verdicts
  constructor
  · rintro (h' | ⟨v, hv, ha⟩)
    · exact h'
    · obtain ⟨p, hp, rfl⟩ := List.mem_map.1 hv
      rw [h p hp] at ha; cases ha
  · exact Or.inl

theorem new_bad {J : Book} {g : List TransactionPostings} (h : ∀ t ∈ g, ∀ p ∈ t.posts, J.verdict (dateOf t) p = .new) :
    J.Bad g ↔ HasCandidate g ∨ LacksFingerprint g ∨ DuplicateFp g := by
  unfold Bad
  constructor
  · rintro (hx | hx | hx | hx | hx | hx)
    · exact .inl hx
    · exact .inr (.inl hx)
    · exact .inr (.inr hx)
    · obtain ⟨t, ht, hv⟩ := hx
      obtain ⟨p, hp, hv⟩ := List.mem_map.1 hv
      rw [h t ht p hp] at hv; cases hv
    · obtain ⟨t, ht, _, i, hi, _⟩ := hx
      rw [new_dests (h t ht)] at hi; cases hi
    · exfalso
      apply hx
      unfold allDests
      have : (g.filter (fun t => ¬ Undecided J t)).flatMap J.dests = [] := by
        rw [List.flatMap_eq_nil_iff]
        intro t ht
        exact new_dests (h t (List.mem_filter.1 ht).1)
      rw [this]; exact List.nodup_nil
  · rintro (hx | hx | hx)
    · exact .inl hx
    · exact .inr (.inl hx)
    · exact .inr (.inr (.inl hx))

theorem new_recs {J : Book} {g : List TransactionPostings} (hnew : ∀ t ∈ g, ∀ p ∈ t.posts, J.verdict (dateOf t) p = .new) :
    (J.after g).recs = J.recs ++ J.news J.hdrs.length g := by
  have hhits : ∀ i, J.hits g i = [] := by
    intro i
    rw [List.eq_nil_iff_forall_not_mem]
    intro p hp
    obtain ⟨t, ht, _, hpt, hv⟩ := mem_hits.1 hp
    rw [hnew t ht p hpt] at hv; cases hv
  rw [after_recs]
  congr 1
  apply List.ext_getElem?
  intro i
  rw [List.getElem?_mapIdx]
  cases J.recs[i]? with
  | none => rfl
  | some r => simp only [Option.map_some, hhits i]; rfl

theorem Lists.after_new {J : Book} {done g : List TransactionPostings} (hJ : Lists J done)
    (hnew : ∀ t ∈ g, ∀ p ∈ t.posts, J.verdict (dateOf t) p = .new) (hb : ¬ J.Bad g)
    (hne : ∀ t ∈ g, t.posts ≠ []) : Lists (J.after g) (done ++ g) := by
  have hrecs := new_recs hnew
  refine ⟨hJ.reached.after hb, ?_, ?_⟩
  · obtain ⟨old, ho, hf⟩ := entries_after hJ.reached.wf g
    have hold : old = J.entries := by
      have hlen : old.length = J.entries.length := hf.length_eq.symm
      have hl : J.entries.length = J.hdrs.length := by simp [Spec.Book.entries]
      have h1 : old = (J.after g).entries.take J.entries.length := by rw [ho, ← hlen]; simp
      rw [h1]
      apply List.ext_getElem?
      intro j
      rw [List.getElem?_take]
      split
      · rename_i hj
        unfold Spec.Book.entries
        rw [List.getElem?_mapIdx, List.getElem?_mapIdx, after_hdrs, List.getElem?_append_left (by omega)]
        cases J.hdrs[j]? with
        | none => rfl
        | some hd =>
          simp only [Option.map_some, Option.some.injEq]
          congr 1
          rw [hrecs, List.filter_append]
          have : (J.news J.hdrs.length g).filter (·.trn = j) = [] := by
            rw [List.filter_eq_nil_iff]
            intro r hr
            obtain ⟨t, ht, _, _, _, _, c', hc', hh⟩ := mem_news hr
            rw [home_fresh (new_dests (hnew t ht))] at hh
            simp; omega
          rw [this, List.append_nil]
      · rename_i hj
        rw [List.getElem?_eq_none (by omega)]
    rw [ho, hold, hJ.entries]
    congr 1
    rw [List.filter_eq_self]
    intro t ht
    have : Spec.Book.Fresh J t := ⟨fun hx => hne t ht ((new_undecided (hnew t ht)).1 hx), new_dests (hnew t ht)⟩
    simpa using this
  · intro r hr
    rw [hrecs] at hr
    rcases List.mem_append.1 hr with hr | hr
    · obtain ⟨t, ht, h⟩ := hJ.recs r hr
      exact ⟨t, List.mem_append_left _ ht, h⟩
    · obtain ⟨t, ht, _, hp, _, hd, _⟩ := mem_news hr
      exact ⟨t, List.mem_append_right _ ht, hp, hd⟩

theorem Lists.after {J : Book} {done g : List TransactionPostings} (hJ : Lists J done) (hu : Unlike done g) (hb : ¬ J.Bad g)
    (hne : ∀ t ∈ g, t.posts ≠ []) : Lists (J.after g) (done ++ g) := hJ.after_new (hJ.new hu) hb hne

theorem allPosts_append (A B : List TransactionPostings) : allPosts (A ++ B) = allPosts A ++ allPosts B := List.flatMap_append

theorem inOrder_append {A B : List TransactionPostings} (hu : Unlike A B) : InOrder (A ++ B) ↔ InOrder A ∧ InOrder B := by
  constructor
  · intro h
    have hd := h.distinct
    rw [allPosts_append, List.pairwise_append] at hd
    refine ⟨⟨fun t ht => h.nonempty t (List.mem_append_left _ ht), fun p hp => h.clean p ?_, fun p hp => h.marked p ?_, hd.1⟩,
      ⟨fun t ht => h.nonempty t (List.mem_append_right _ ht), fun p hp => h.clean p ?_, fun p hp => h.marked p ?_, hd.2.1⟩⟩ <;>
    rw [allPosts_append, List.mem_append] <;> simp [hp]
  · rintro ⟨hA, hB⟩
    refine ⟨?_, ?_, ?_, ?_⟩
    · intro t ht
      rcases List.mem_append.1 ht with ht | ht
      · exact hA.nonempty t ht
      · exact hB.nonempty t ht
    · intro p hp
      rw [allPosts_append] at hp
      rcases List.mem_append.1 hp with hp | hp
      · exact hA.clean p hp
      · exact hB.clean p hp
    · intro p hp
      rw [allPosts_append] at hp
      rcases List.mem_append.1 hp with hp | hp
      · exact hA.marked p hp
      · exact hB.marked p hp
    · rw [allPosts_append, List.pairwise_append]
      refine ⟨hA.distinct, hB.distinct, ?_⟩
      intro p hp q hq
      obtain ⟨t, ht, hp⟩ := mem_allPosts.1 hp
      obtain ⟨u, hu', hq⟩ := mem_allPosts.1 hq
      exact (hu t ht p hp u hu' q hq).1

theorem not_bad_inOrder {J : Book} {g : List TransactionPostings} (h : ∀ t ∈ g, ∀ p ∈ t.posts, J.verdict (dateOf t) p = .new) :
    (¬ J.Bad g ∧ ∀ t ∈ g, ¬ Undecided J t) ↔ InOrder g := by
  rw [new_bad h]
  constructor
  · rintro ⟨hb, hn⟩
    refine ⟨fun t ht he => hn t ht (.inl he), fun p hp tag ht hc => hb (.inl ⟨p, hp, tag, ht, hc⟩), fun p hp hf => hb (.inr (.inl ⟨p, hp, hf⟩)), ?_⟩
    exact Classical.not_not.1 fun hx => hb (.inr (.inr hx))
  · intro hi
    refine ⟨?_, fun t ht hx => hi.nonempty t ht ((new_undecided (h t ht)).1 hx)⟩
    rintro (⟨p, hp, tag, ht, hc⟩ | ⟨p, hp, hf⟩ | hx)
    · exact hi.clean p hp tag ht hc
    · exact hi.marked p hp hf
    · exact hx hi.distinct

theorem unlike_append {A B C : List TransactionPostings} (h : Unlike A C) (h' : Unlike B C) : Unlike (A ++ B) C := by
  intro t ht
  rcases List.mem_append.1 ht with ht | ht
  · exact h t ht
  · exact h' t ht

theorem Lists.calls {J : Book} {done : List TransactionPostings} (hJ : Lists J done) {gs : List (List TransactionPostings)}
    (h : ∀ g ∈ gs, Unlike done g) (hp : gs.Pairwise Unlike) :
    (¬ Refused J gs ∧ leftOver J gs = [] ↔ ∀ g ∈ gs, InOrder g) ∧
    ((∀ g ∈ gs, InOrder g) → (gs.foldl Book.after J).entries = done ++ gs.flatten) := by
  induction gs generalizing J done with
  | nil =>
    refine ⟨⟨fun _ g hg => (by cases hg), fun _ => ⟨id, rfl⟩⟩, fun _ => ?_⟩
    rw [List.flatten_nil, List.append_nil]
    exact hJ.entries
  | cons g gs ih =>
    obtain ⟨hp1, hp2⟩ := List.pairwise_cons.1 hp
    have hg := h g List.mem_cons_self
    have hnew := hJ.new hg
    have hi := not_bad_inOrder hnew
    have next : InOrder g → _ := fun ho => ih (hJ.after hg (hi.2 ho).1 ho.nonempty)
      (fun g' hg' => unlike_append (h g' (List.mem_cons_of_mem _ hg')) (hp1 g' hg')) hp2
    rw [List.forall_mem_cons]
    constructor
    · rw [leftOver_cons_nil]
      constructor
      · rintro ⟨hr, hn, hl⟩
        have ho := hi.1 ⟨fun hb => hr (.inl hb), hn⟩
        exact ⟨ho, (next ho).1.1 ⟨fun hx => hr (.inr hx), hl⟩⟩
      · rintro ⟨ho, hs⟩
        obtain ⟨h1, h2⟩ := (next ho).1.2 hs
        exact ⟨fun hx => hx.elim (hi.2 ho).1 h1, (hi.2 ho).2, h2⟩
    · rintro ⟨ho, hs⟩
      rw [List.foldl_cons, (next ho).2 hs, List.flatten_cons, List.append_assoc]

/-- The journal of files that are unlike each other: their transactions, sorted by date. -/
theorem journalOf_unlike {calls : History} (hp : (inputs calls).Pairwise Unlike) (j : List TransactionPostings) :
    journalOf calls = some j ↔ (∀ g ∈ inputs calls, InOrder g) ∧
      j = (inputs calls).flatten.mergeSort fun a b => (compare (dateOf a) (dateOf b)).isLE := by
  have h0 : Lists Book.empty [] := ⟨reached_empty, rfl, fun r hr => by cases hr⟩
  obtain ⟨h1, h2⟩ := h0.calls (gs := inputs calls) (fun g _ t ht => by cases ht) hp
  rw [journalOf_books, ← and_assoc, h1]
  refine and_congr_right fun hs => ?_
  rw [journal_eq, show (bookAfter (inputs calls)).entries = _ from h2 hs, List.nil_append]
  rfl

/-! ### Rules -/

/-- What rules that leave fingerprints alone do not change of a transaction: its date and, of its postings, sums and marks. -/
structure Untouched (t t' : TransactionPostings) : Prop where
  date : dateOf t' = dateOf t
  posts : List.Forall₂ (fun p p' => SamePosting p p' ∧ SameMarks p p') t.posts t'.posts

theorem forall₂_and {α β : Type} {P Q : α → β → Prop} {l : List α} {l' : List β} (h : List.Forall₂ P l l') (h' : List.Forall₂ Q l l') :
    List.Forall₂ (fun a b => P a b ∧ Q a b) l l' := by
  induction h with
  | nil => exact .nil
  | cons h _ ih => cases h' with | cons h1 h2 => exact .cons ⟨h, h1⟩ (ih h2)

theorem untouched {lower : Str → Str} {T : Table} (hT : LeavesFingerprints T) {fuel : Nat} {A A' : List TransactionPostings}
    (hA : T.updateTransactions lower fuel A = .ok A') : List.Forall₂ Untouched A A' :=
  (forall₂_and (C34_unchanged _ _ _ _ _ hA) (updateTransactions_marks hT hA)).imp
    fun _ _ ⟨⟨h1, h2⟩, h3⟩ => ⟨h1.date, forall₂_and h2 h3⟩

/-- Rules that leave fingerprints alone do not make files alike. -/
theorem unlike_untouched {A A' B B' : List TransactionPostings} (hA : List.Forall₂ Untouched A A') (hB : List.Forall₂ Untouched B B')
    (h : Unlike A B) : Unlike A' B' := by
  intro t' ht' p' hp' u' hu' q' hq'
  obtain ⟨t, ht, h1⟩ := forall₂_mem_right hA ht'
  obtain ⟨u, hu, h2⟩ := forall₂_mem_right hB hu'
  obtain ⟨p, hp, hp1, hp2⟩ := forall₂_mem_right h1.posts hp'
  obtain ⟨q, hq, hq1, hq2⟩ := forall₂_mem_right h2.posts hq'
  obtain ⟨a1, a2⟩ := h t ht p hp u hu q hq
  refine ⟨fun hs => a1 (hp2.shares hq2 hs), fun ⟨hd, hs⟩ => a2 ⟨?_, ?_⟩⟩
  · rw [← h1.date, ← h2.date]; exact hd
  · unfold SameSums at hs ⊢
    rwa [← hp1.amount, ← hq1.amount, ← hp1.balance, ← hq1.balance]

theorem pairwise_transfer {α β : Type} {R : α → α → Prop} {R' : β → β → Prop} {S : α → β → Prop} {l : List α} {l' : List β}
    (h : List.Forall₂ S l l') (hR : ∀ a b a' b', S a a' → S b b' → R a b → R' a' b') (hp : l.Pairwise R) : l'.Pairwise R' := by
  induction h with
  | nil => exact .nil
  | cons h hs ih =>
    obtain ⟨h1, h2⟩ := List.pairwise_cons.1 hp
    refine List.pairwise_cons.2 ⟨?_, ih h2⟩
    intro b' hb'
    obtain ⟨b, hb, hs'⟩ := forall₂_mem_right hs hb'
    exact hR _ _ _ _ h hs' (h1 b hb)

theorem inOrder_untouched {A A' : List TransactionPostings} (h : List.Forall₂ Untouched A A') : InOrder A ↔ InOrder A' := by
  have hall : List.Forall₂ SameMarks (allPosts A) (allPosts A') :=
    forall₂_allPosts (h.imp fun _ _ h => h.posts.imp fun _ _ h => h.2)
  have hall' : List.Forall₂ SameMarks (allPosts A') (allPosts A) := hall.flip.imp fun _ _ h => SameMarks.symm h
  have go : ∀ {A A' : List TransactionPostings}, List.Forall₂ (fun t t' => t.posts.length = t'.posts.length) A A' →
      List.Forall₂ SameMarks (allPosts A) (allPosts A') → InOrder A → InOrder A' := by
    intro A A' h hall hi
    refine ⟨?_, ?_, ?_, ?_⟩
    · intro t' ht'
      obtain ⟨t, ht, hl⟩ := forall₂_mem_right h ht'
      have := hi.nonempty t ht
      rw [← List.length_pos_iff] at this ⊢
      omega
    · intro p' hp' tag ht hc
      obtain ⟨p, hp, hm⟩ := forall₂_mem_right hall hp'
      exact hi.clean p hp tag ((hm tag (.inr hc)).1 ht) hc
    · intro p' hp' he
      obtain ⟨p, hp, hm⟩ := forall₂_mem_right hall hp'
      obtain ⟨f, hf⟩ := List.exists_mem_of_ne_nil _ (hi.marked p hp)
      have := (hm.fps f).2 hf
      rw [he] at this; cases this
    · exact pairwise_transfer hall (fun _ _ _ _ h1 h2 hn hs => hn (h1.shares h2 hs)) hi.distinct
  exact ⟨go (h.imp fun _ _ h => h.posts.length_eq) hall, go (h.flip.imp fun _ _ h => h.posts.length_eq.symm) hall'⟩

theorem forall₂_flatten {α β : Type} {R : α → β → Prop} {l : List (List α)} {l' : List (List β)} (h : List.Forall₂ (List.Forall₂ R) l l') :
    List.Forall₂ R l.flatten l'.flatten := by
  induction h with
  | nil => exact .nil
  | cons h _ ih => exact List.rel_append h ih

/-- C93: files with postings that could not be taken for each other, whatever their accounts, and rules that leave fingerprints alone. It
makes no difference whether the rules are applied to the files (the journal among them) before they are merged, or to the journal that
comes of merging them: if one way gives a journal so does the other, and the journals are the same, order included. -/
theorem C93_either_way (lower : Str → Str) (T : Table) (fuel : Nat) (hT : LeavesFingerprints T) (calls calls' : History)
    (hr : List.Forall₂ (fun A A' => T.updateTransactions lower fuel A = .ok A') (inputs calls) (inputs calls'))
    (hp : (inputs calls).Pairwise Unlike) (j' : List TransactionPostings) :
    journalOf calls' = some j' ↔ ∃ j, journalOf calls = some j ∧ T.updateTransactions lower fuel j = .ok j' := by
  have hU : List.Forall₂ (List.Forall₂ Untouched) (inputs calls) (inputs calls') := hr.imp fun _ _ h => untouched hT h
  have hp' : (inputs calls').Pairwise Unlike := pairwise_transfer hU (fun _ _ _ _ h1 h2 h => unlike_untouched h1 h2 h) hp
  have hin : (∀ g ∈ inputs calls, InOrder g) ↔ ∀ g ∈ inputs calls', InOrder g := by
    constructor
    · intro h g' hg'
      obtain ⟨g, hg, hu⟩ := forall₂_mem_right hU hg'
      exact (inOrder_untouched hu).1 (h g hg)
    · intro h g hg
      obtain ⟨g', hg', hu⟩ := forall₂_mem_left hU hg
      exact (inOrder_untouched hu).2 (h g' hg')
  have hall : List.Forall₂ (fun t t' => T.updateTransaction lower fuel t = .ok t') (inputs calls).flatten (inputs calls').flatten :=
    forall₂_flatten (hr.imp fun _ _ h => updateTransactions_ok.1 h)
  have hdate : ∀ a b, T.updateTransaction lower fuel a = .ok b → dateOf a = dateOf b := by
    intro a b h
    have : T.updateTransactions lower fuel [a] = .ok [b] := updateTransactions_ok.2 (.cons h .nil)
    cases untouched hT this with | cons h _ => exact h.date.symm
  have hsort := updateTransactions_ok.2 (forall₂_mergeSort dateOf dateOf hdate hall)
  rw [journalOf_unlike hp']
  constructor
  · rintro ⟨h1, rfl⟩
    exact ⟨_, (journalOf_unlike hp _).2 ⟨hin.2 h1, rfl⟩, hsort⟩
  · rintro ⟨j, h1, h2⟩
    obtain ⟨h3, rfl⟩ := (journalOf_unlike hp _).1 h1
    rw [hsort] at h2
    cases h2
    exact ⟨hin.1 h3, rfl⟩

theorem rules_error_iff {lower : Str → Str} {T : Table} {fuel : Nat} {ts : List TransactionPostings} :
    (∃ e, T.updateTransactions lower fuel ts = .error e) ↔ ∃ t ∈ ts, ∃ e, T.updateTransaction lower fuel t = .error e := by
  constructor
  · rintro ⟨e, h⟩
    obtain ⟨pre, t, post, _, rfl, _, h⟩ := updateTransactions_error.1 h
    exact ⟨t, by simp, e, h⟩
  · rintro ⟨t, ht, e, he⟩
    cases h : T.updateTransactions lower fuel ts with
    | error e' => exact ⟨e', rfl⟩
    | ok ts' =>
      obtain ⟨t', _, h'⟩ := forall₂_mem_left (updateTransactions_ok.1 h) ht
      rw [he] at h'; cases h'

/-- C93: for such files, whatever the rules, an error of the rules is reported either way. -/
theorem C93_errors (lower : Str → Str) (T : Table) (fuel : Nat) (calls : History) (hp : (inputs calls).Pairwise Unlike)
    (j : List TransactionPostings) (hj : journalOf calls = some j) :
    (∃ e, T.updateTransactions lower fuel j = .error e) ↔ ∃ A ∈ inputs calls, ∃ e, T.updateTransactions lower fuel A = .error e := by
  obtain ⟨_, rfl⟩ := (journalOf_unlike hp _).1 hj
  simp only [rules_error_iff, List.mem_mergeSort, List.mem_flatten]
  constructor
  · rintro ⟨t, ⟨A, hA, ht⟩, e⟩
    exact ⟨A, hA, t, ht, e⟩
  · rintro ⟨A, hA, t, ht, e⟩
    exact ⟨t, ⟨A, hA, ht⟩, e⟩

/-- C93: rules that find nothing to do in the journal. Importing a file, applying the rules to it and merging it gives the journal that
comes of merging the file as it is and applying the rules to the whole journal. -/
theorem C93_new_file (lower : Str → Str) (T : Table) (fuel : Nat) (hT : LeavesFingerprints T) (h h₁ h' h₁' : HashOrder)
    (js W W' : List TransactionPostings) (hjs : T.updateTransactions lower fuel js = .ok js)
    (hW : T.updateTransactions lower fuel W = .ok W') (hu : Unlike js W) (j' : List TransactionPostings) :
    journalOf [(h', js), (h₁', W')] = some j' ↔
      ∃ j, journalOf [(h, js), (h₁, W)] = some j ∧ T.updateTransactions lower fuel j = .ok j' :=
  C93_either_way lower T fuel hT [(h, js), (h₁, W)] [(h', js), (h₁', W')] (.cons hjs (.cons hW .nil))
    (List.pairwise_cons.2 ⟨fun B hB => by rw [List.mem_singleton.1 hB]; exact hu, List.pairwise_singleton _ _⟩) j'

theorem Ex.betterRules_leave : LeavesFingerprints Ex.betterRules := by
  intro name ch h r hr tag ht
  rw [Ex.only_chain h] at hr
  rw [List.mem_singleton] at hr
  subst hr
  cases ht with
  | inside hm ht =>
    simp only [List.mem_cons, List.not_mem_nil, or_false] at hm
    rcases hm with rfl | rfl
    · cases ht
    · cases ht
      decide +kernel

/-- A journal with the shop on another day, its account known. -/
def Ex.shopJournal : List TransactionPostings :=
  [Ex.trn 2 "shop" [Ex.post "assets:a" (-5) ["fp-3"], Ex.post "expenses:food" 5 ["fp-4"]]]

set_option maxRecDepth 100000 in
/-- The hypotheses of `C93_new_file` are met, and either way the journal is the one with the account filled in. -/
example : LeavesFingerprints Ex.betterRules ∧ Ex.betterRules.updateTransactions id 2 Ex.shopJournal = .ok Ex.shopJournal ∧
    Unlike Ex.shopJournal Ex.shopStatement ∧ ∃ W' j j', Ex.betterRules.updateTransactions id 2 Ex.shopStatement = .ok W' ∧ W' ≠ Ex.shopStatement ∧
      journalOf [(.sorted, Ex.shopJournal), (.sorted, Ex.shopStatement)] = some j ∧ Ex.betterRules.updateTransactions id 2 j = .ok j' ∧
      journalOf [(.rev, Ex.shopJournal), (.rev, W')] = some j' ∧ j'.map dateOf = [⟨2020, 1, 1⟩, ⟨2020, 1, 2⟩] := by
  have hu : Unlike Ex.shopJournal Ex.shopStatement := by decide +kernel
  have hjs : Ex.betterRules.updateTransactions id 2 Ex.shopJournal = .ok Ex.shopJournal := by decide +kernel
  have hW : Ex.betterRules.updateTransactions id 2 Ex.shopStatement =
      .ok [Ex.trn 1 "shop" [Ex.post "assets:a" (-5) ["fp-1"], Ex.post "expenses:food" 5 ["fp-2"]]] := by decide +kernel
  have hj : journalOf [(.sorted, Ex.shopJournal), (.sorted, Ex.shopStatement)] = some (Ex.shopStatement ++ Ex.shopJournal) := by
    unfold journalOf
    simp only [Ex.build_eval]
    decide +kernel
  have hr : Ex.betterRules.updateTransactions id 2 (Ex.shopStatement ++ Ex.shopJournal) =
      .ok (Ex.trn 1 "shop" [Ex.post "assets:a" (-5) ["fp-1"], Ex.post "expenses:food" 5 ["fp-2"]] :: Ex.shopJournal) := by decide +kernel
  exact ⟨Ex.betterRules_leave, hjs, hu, _, _, _, hW, by decide +kernel, hj, hr,
    (C93_new_file id _ 2 Ex.betterRules_leave .sorted .sorted .rev .rev _ _ _ hjs hW hu _).2 ⟨_, hj, hr⟩, by decide +kernel⟩

set_option maxRecDepth 100000 in
/-- The hypotheses of `C93_either_way` are met by two files that the rules change. -/
example : ∃ W' j j', Ex.betterRules.updateTransactions id 2 Ex.shopStatement = .ok W' ∧ W' ≠ Ex.shopStatement ∧ Unlike Ex.shopStatement Ex.shopJournal ∧
    journalOf [(.sorted, Ex.shopStatement), (.sorted, Ex.shopJournal)] = some j ∧ Ex.betterRules.updateTransactions id 2 j = .ok j' ∧
    journalOf [(.rev, W'), (.rev, Ex.shopJournal)] = some j' := by
  have hu : Unlike Ex.shopStatement Ex.shopJournal := by decide +kernel
  have hjs : Ex.betterRules.updateTransactions id 2 Ex.shopJournal = .ok Ex.shopJournal := by decide +kernel
  have hW : Ex.betterRules.updateTransactions id 2 Ex.shopStatement =
      .ok [Ex.trn 1 "shop" [Ex.post "assets:a" (-5) ["fp-1"], Ex.post "expenses:food" 5 ["fp-2"]]] := by decide +kernel
  have hj : journalOf [(.sorted, Ex.shopStatement), (.sorted, Ex.shopJournal)] = some (Ex.shopStatement ++ Ex.shopJournal) := by
    unfold journalOf
    simp only [Ex.build_eval]
    decide +kernel
  have hr : Ex.betterRules.updateTransactions id 2 (Ex.shopStatement ++ Ex.shopJournal) =
      .ok (Ex.trn 1 "shop" [Ex.post "assets:a" (-5) ["fp-1"], Ex.post "expenses:food" 5 ["fp-2"]] :: Ex.shopJournal) := by decide +kernel
  exact ⟨_, _, _, hW, by decide +kernel, hu, hj, hr, (C93_either_way id _ 2 Ex.betterRules_leave [(.sorted, Ex.shopStatement), (.sorted, Ex.shopJournal)]
    [(.rev, _), (.rev, Ex.shopJournal)] (.cons hW (.cons hjs .nil)) (List.pairwise_pair.2 hu) _).2 ⟨_, hj, hr⟩⟩

/-- Rules with an error for the shop. -/
def Ex.strictRules : Table := Std.ExtTreeMap.ofList
  [("start".toList, [⟨.transactionDescription (.eq "shop".toList), .error "shop".toList, .continue_⟩])] compare

set_option maxRecDepth 100000 in
/-- The hypotheses of `C93_errors` are met, by rules that fail for one of the files, so for the journal too. -/
example : ∃ j e, journalOf [(.sorted, Ex.shopStatement), (.sorted, [Ex.trn 2 "cafe" [Ex.post "assets:a" (-7) ["fp-5"]]])] = some j ∧
    Unlike Ex.shopStatement [Ex.trn 2 "cafe" [Ex.post "assets:a" (-7) ["fp-5"]]] ∧
    Ex.strictRules.updateTransactions id 2 [Ex.trn 2 "cafe" [Ex.post "assets:a" (-7) ["fp-5"]]] =
      .ok [Ex.trn 2 "cafe" [Ex.post "assets:a" (-7) ["fp-5"]]] ∧
    Ex.strictRules.updateTransactions id 2 j = .error e := by
  have hj : (journalOf [(.sorted, Ex.shopStatement), (.sorted, [Ex.trn 2 "cafe" [Ex.post "assets:a" (-7) ["fp-5"]]])]).isSome := by
    unfold journalOf
    simp only [Ex.build_eval]
    decide +kernel
  obtain ⟨j, hj⟩ := Option.isSome_iff_exists.1 hj
  have hu : Unlike Ex.shopStatement [Ex.trn 2 "cafe" [Ex.post "assets:a" (-7) ["fp-5"]]] := by decide +kernel
  obtain ⟨e, he⟩ := (C93_errors id Ex.strictRules 2 [(.sorted, Ex.shopStatement), (.sorted, [Ex.trn 2 "cafe" [Ex.post "assets:a" (-7) ["fp-5"]]])] (List.pairwise_pair.2 hu) j hj).2
    ⟨Ex.shopStatement, List.mem_cons_self, .reported "shop".toList, by decide +kernel⟩
  exact ⟨j, e, hj, hu, by decide +kernel, he⟩

/-- The bill of the shop, with the account that it says. -/
def Ex.shopBill : List TransactionPostings := [Ex.trn 1 "bill" [Ex.post "expenses:clothes" 5 ["fp-9"]]]

set_option maxRecDepth 100000 in
/-- C93: for postings that can be taken for each other it does make a difference: merging first, the unknown account is taken to be that of
the bill; applying the rules first, the account is known and the bill is another transaction. -/
theorem C93_matters : LeavesFingerprints Ex.betterRules ∧ Ex.betterRules.updateTransactions id 2 Ex.shopBill = .ok Ex.shopBill ∧
    ∃ W' j j', Ex.betterRules.updateTransactions id 2 Ex.shopStatement = .ok W' ∧
      journalOf [(.sorted, Ex.shopStatement), (.sorted, Ex.shopBill)] = some j ∧ Ex.betterRules.updateTransactions id 2 j = .ok j ∧
      journalOf [(.sorted, W'), (.sorted, Ex.shopBill)] = some j' ∧ j.length = 1 ∧ j'.length = 2 := by
  have hj : journalOf [(.sorted, Ex.shopStatement), (.sorted, Ex.shopBill)] =
      some [Ex.trn 1 "shop" [Ex.post "assets:a" (-5) ["fp-1"], Ex.post "expenses:clothes" 5 ["fp-2", "fp-9"]]] := by
    unfold journalOf
    simp only [Ex.build_eval]
    decide +kernel
  have hj' : journalOf [(.sorted, [Ex.trn 1 "shop" [Ex.post "assets:a" (-5) ["fp-1"], Ex.post "expenses:food" 5 ["fp-2"]]]), (.sorted, Ex.shopBill)] =
      some (Ex.trn 1 "shop" [Ex.post "assets:a" (-5) ["fp-1"], Ex.post "expenses:food" 5 ["fp-2"]] :: Ex.shopBill) := by
    unfold journalOf
    simp only [Ex.build_eval]
    decide +kernel
  exact ⟨Ex.betterRules_leave, by decide +kernel, _, _, _, by decide +kernel, hj, by decide +kernel, hj', rfl, rfl⟩

end Verif
