import Verif.Spec.ReorderCmd
import Verif.Proofs.Apart
import Verif.Props.MergeAgain

/-!
# Lemmas about what the `merge` command does, but for order
-/

namespace Verif
open Spec Spec.Book

theorem Spec.SameQuery.trans {x y z : Query} (h : SameQuery x y) (h' : SameQuery y z) : SameQuery x z :=
  ⟨h.1.trans h'.1, ButOrder.trans (fun _ _ _ a b => ⟨a.1.trans b.1, a.2.trans b.2⟩) h.2 h'.2⟩

theorem Spec.SameQuery.refl (x : Query) : SameQuery x x := ⟨rfl, ButOrder.of_perm (fun _ => ⟨rfl, .refl _⟩) (.refl _)⟩

theorem sameQueries_trans {X Y Z : List Query} (h : ButOrder SameQuery X Y) (h' : ButOrder SameQuery Y Z) : ButOrder SameQuery X Z :=
  ButOrder.trans (R := SameQuery) (T := SameQuery) (U := SameQuery) (fun _ _ _ a b => a.trans b) h h'

/-- What one merge call hands back, with the candidates. -/
def Spec.Book.asked (J : Book) (g : List TransactionPostings) : List Query :=
  (g.filter (Undecided J)).map (fun t => (t.trn, t.posts.map fun p => (p, J.candidates (dateOf t) p)))

theorem queries_cons (J : Book) (g : List TransactionPostings) (gs : List (List TransactionPostings)) :
    queries J (g :: gs) = J.asked g ++ queries (J.after g) gs := by
  rw [queries]
  unfold Spec.Book.asked
  simp only [candidates_eq]

theorem asks_queries {J : Book} {gs : List (List TransactionPostings)} {u : List TransactionPostings} (h : HandedBackAll J gs u) :
    List.Forall₂ Asks (queries J gs) u := by
  induction gs generalizing J u with
  | nil => cases h; exact .nil
  | cons g gs ih =>
    obtain ⟨u₁, u₂, rfl, h1, h2⟩ := h
    unfold queries
    refine List.rel_append ?_ (ih h2)
    rw [List.forall₂_map_left_iff]
    refine h1.imp fun t v hv => ⟨hv.1.1, ?_⟩
    rw [List.forall₂_map_left_iff]
    exact hv.2

theorem queries_length (J : Book) (gs : List (List TransactionPostings)) : (queries J gs).length = (leftOver J gs).length := by
  induction gs generalizing J with
  | nil => rfl
  | cons g gs ih => rw [queries, leftOver, List.length_append, List.length_append, List.length_map, ih]

theorem Alike.asked {J K : Book} (h : Alike J K) {g g' : List TransactionPostings} (hg : Reordered g g') :
    ButOrder SameQuery (J.asked g) (K.asked g') := by
  unfold Spec.Book.asked
  have : ButOrder Shuffled (g.filter (Undecided J)) (g'.filter (Undecided K)) :=
    ButOrder.filter hg _ _ fun a b hr => by rw [decide_eq_decide]; exact h.undecided hr
  refine ButOrder.map this _ _ fun t _ t' hs => ⟨hs.1, ?_⟩
  refine ButOrder.map (R := Eq) ⟨t.posts, List.forall₂_same.2 fun _ _ => rfl, hs.2⟩ _ _ ?_
  rintro p _ _ rfl
  exact ⟨rfl, by rw [hs.date]; exact h.candidates _ _⟩

theorem Spec.Apart.asked {J : Book} {A B : List TransactionPostings} (h : Apart J A B) : (J.after A).asked B = J.asked B := by
  unfold Spec.Book.asked
  have : B.filter (fun t => decide (Undecided (J.after A) t)) = B.filter (fun t => decide (Undecided J t)) := by
    apply List.filter_congr
    intro t ht
    rw [decide_eq_decide, h.undecided ht]
  rw [this]
  apply List.map_congr_left
  intro t ht
  rw [Prod.mk.injEq]
  refine ⟨rfl, ?_⟩
  apply List.map_congr_left
  intro p hp
  rw [h.candidates (mem_datedPosts.2 ⟨t, (List.mem_filter.1 ht).1, p, hp, rfl⟩)]

/-- The merge calls end the same way but for order. -/
def SameOutcome (J : Book) (gs : List (List TransactionPostings)) (K : Book) (gs' : List (List TransactionPostings)) : Prop :=
  (Refused J gs ↔ Refused K gs') ∧
  (¬ Refused J gs → Alike (gs.foldl Book.after J) (gs'.foldl Book.after K) ∧ ButOrder SameQuery (queries J gs) (queries K gs'))

theorem SameOutcome.trans {J K L : Book} {gs gs' gs'' : List (List TransactionPostings)} (h : SameOutcome J gs K gs') (h' : SameOutcome K gs' L gs'') :
    SameOutcome J gs L gs'' := by
  refine ⟨h.1.trans h'.1, fun hn => ?_⟩
  obtain ⟨a, b⟩ := h.2 hn
  obtain ⟨a', b'⟩ := h'.2 fun x => hn (h.1.2 x)
  exact ⟨a.trans a', sameQueries_trans b b'⟩

theorem R_after {m : Merger} {J : Book} (h : R m J) {g : List TransactionPostings} (hb : ¬ J.Bad g) : ∃ m', R m' (J.after g) := by
  rcases merge_spec h HashOrder.sorted g with ⟨hb', _⟩ | ⟨_, m', _, hR⟩
  · exact absurd hb' hb
  · exact ⟨m', hR⟩

theorem sameOutcome_alike {J K : Book} {m m' : Merger} (h : Alike J K) (hJ : R m J) (hK : R m' K) {gs gs' : List (List TransactionPostings)}
    (hg : List.Forall₂ Reordered gs gs') : SameOutcome J gs K gs' := by
  induction hg generalizing J K m m' with
  | nil => exact ⟨Iff.rfl, fun _ => ⟨h, [], .nil, .refl _⟩⟩
  | @cons g g' gs gs' hg _ ih =>
    have hb := h.bad hg
    by_cases hJb : J.Bad g
    · exact ⟨⟨fun _ => .inl (hb.1 hJb), fun _ => .inl hJb⟩, fun hn => absurd (.inl hJb) hn⟩
    · have hKb : ¬ K.Bad g' := fun x => hJb (hb.2 x)
      obtain ⟨m₁, h1⟩ := R_after hJ hJb
      obtain ⟨m₂, h2⟩ := R_after hK hKb
      have ha := h.after hg (good_iff.2 hJb) (good_iff.2 hKb) h1.wf h2.wf
      obtain ⟨i1, i2⟩ := ih ha h1 h2
      refine ⟨?_, fun hn => ?_⟩
      · exact or_congr hb i1
      · obtain ⟨a, b⟩ := i2 fun x => hn (.inr x)
        refine ⟨a, ?_⟩
        rw [queries_cons, queries_cons]
        exact ButOrder.append (h.asked hg) b

theorem sameOutcome_refl {J : Book} {m : Merger} (hJ : R m J) (gs : List (List TransactionPostings)) : SameOutcome J gs J gs :=
  sameOutcome_alike (Alike.refl hJ.wf) hJ hJ (List.forall₂_same.2 fun g _ => Reordered.refl g)

theorem sameOutcome_cons {J : Book} {g : List TransactionPostings} {gs gs' : List (List TransactionPostings)}
    (h : ¬ J.Bad g → SameOutcome (J.after g) gs (J.after g) gs') : SameOutcome J (g :: gs) J (g :: gs') := by
  by_cases hb : J.Bad g
  · exact ⟨⟨fun _ => .inl hb, fun _ => .inl hb⟩, fun hn => absurd (.inl hb) hn⟩
  · obtain ⟨i1, i2⟩ := h hb
    refine ⟨or_congr Iff.rfl i1, fun hn => ?_⟩
    obtain ⟨a, b⟩ := i2 fun x => hn (.inr x)
    refine ⟨a, ?_⟩
    rw [queries_cons, queries_cons]
    exact ButOrder.append (ButOrder.of_perm SameQuery.refl (.refl _)) b

theorem sameOutcome_swap {J : Book} {m : Merger} (hJ : R m J) {A B : List TransactionPostings} (h : Apart J A B)
    (gs : List (List TransactionPostings)) : SameOutcome J (A :: B :: gs) J (B :: A :: gs) := by
  by_cases hb : J.Bad A ∨ J.Bad B
  · have h1 : Refused J (A :: B :: gs) := hb.elim .inl fun x => .inr (.inl (h.bad.2 x))
    have h2 : Refused J (B :: A :: gs) := hb.elim (fun x => .inr (.inl (h.symm.bad.2 x))) .inl
    exact ⟨⟨fun _ => h2, fun _ => h1⟩, fun hn => absurd h1 hn⟩
  · have hA : ¬ J.Bad A := fun x => hb (.inl x)
    have hB : ¬ J.Bad B := fun x => hb (.inr x)
    obtain ⟨m₁, r1⟩ := R_after hJ hA
    obtain ⟨m₂, r2⟩ := R_after hJ hB
    obtain ⟨m₃, r3⟩ := R_after r1 fun x => hB (h.bad.1 x)
    obtain ⟨m₄, r4⟩ := R_after r2 fun x => hA (h.symm.bad.1 x)
    have hAB : ¬ J.Bad (A ++ B) := fun x => hb (h.bad_append.1 x)
    have hBA : ¬ J.Bad (B ++ A) := fun x => hb (h.symm.bad_append.1 x).symm
    have ha : Alike ((J.after A).after B) ((J.after B).after A) := by
      have w3 := r3.wf
      have w4 := r4.wf
      rw [h.after_after] at w3 ⊢
      rw [h.symm.after_after] at w4 ⊢
      exact (Alike.refl hJ.wf).after (.of_perm List.perm_append_comm) (good_iff.2 hAB) (good_iff.2 hBA) w3 w4
    obtain ⟨i1, i2⟩ := sameOutcome_alike ha r3 r4 (List.forall₂_same.2 fun g (_ : g ∈ gs) => Reordered.refl g)
    have e1 : Refused J (A :: B :: gs) ↔ Refused ((J.after A).after B) gs :=
      ⟨fun x => x.elim (fun y => absurd y hA) fun y => y.elim (fun z => absurd (h.bad.1 z) hB) id, fun x => .inr (.inr x)⟩
    have e2 : Refused J (B :: A :: gs) ↔ Refused ((J.after B).after A) gs :=
      ⟨fun x => x.elim (fun y => absurd y hB) fun y => y.elim (fun z => absurd (h.symm.bad.1 z) hA) id, fun x => .inr (.inr x)⟩
    refine ⟨by rw [e1, e2, i1], fun hn => ?_⟩
    obtain ⟨a, b⟩ := i2 fun x => hn (e1.2 x)
    refine ⟨a, ?_⟩
    rw [queries_cons, queries_cons, queries_cons, queries_cons, h.asked, h.symm.asked, ← List.append_assoc, ← List.append_assoc]
    exact ButOrder.append (ButOrder.of_perm SameQuery.refl List.perm_append_comm) b

/-- A merge call moves past others that have nothing to do with it. -/
theorem sameOutcome_past {J : Book} {m : Merger} (hJ : R m J) {A : List TransactionPostings} {bs : List (List TransactionPostings)}
    (h : ∀ B ∈ bs, Apart J A B) (gs : List (List TransactionPostings)) : SameOutcome J (A :: (bs ++ gs)) J (bs ++ A :: gs) := by
  induction bs generalizing J m with
  | nil => exact sameOutcome_refl hJ _
  | cons B bs ih =>
    have hAB := h B (by simp)
    refine (sameOutcome_swap hJ hAB (bs ++ gs)).trans (sameOutcome_cons fun hb => ?_)
    obtain ⟨m', r⟩ := R_after hJ hb
    exact ih r fun C hC => Apart.preserved hAB.symm (h C (by simp [hC]))

/-- The merge calls of one file move past those of another. -/
theorem sameOutcome_blocks {J : Book} {m : Merger} (hJ : R m J) {as bs : List (List TransactionPostings)}
    (h : ∀ A ∈ as, ∀ B ∈ bs, Apart J A B) (gs : List (List TransactionPostings)) : SameOutcome J (as ++ (bs ++ gs)) J (bs ++ (as ++ gs)) := by
  induction as generalizing J m with
  | nil => exact sameOutcome_refl hJ _
  | cons A as ih =>
    refine SameOutcome.trans (gs' := A :: (bs ++ (as ++ gs))) (sameOutcome_cons fun hb => ?_)
      (sameOutcome_past hJ (fun B hB => h A (by simp) B hB) (as ++ gs))
    obtain ⟨m', r⟩ := R_after hJ hb
    refine ih r fun C hC B hB => ?_
    exact (Apart.preserved (h A (by simp) B hB) (h C (by simp [hC]) B hB).symm).symm

/-- The merge calls that the transactions of a file ask for. -/
def callsOf (b : Str × List TransactionPostings) : List (List TransactionPostings) := Sources.groups HashOrder.sorted b.1 b.2

theorem mem_callsOf {b : Str × List TransactionPostings} {A : List TransactionPostings} (hA : A ∈ callsOf b) {x : Date × PostingInternal}
    (hx : x ∈ datedPosts A) : x ∈ datedPosts b.2 := by
  obtain ⟨t, ht, p, hp, rfl⟩ := mem_datedPosts.1 hx
  have : t ∈ (callsOf b).flatten := List.mem_flatten.2 ⟨A, hA, ht⟩
  unfold callsOf at this
  rw [(C23_nothing_lost _ _ _).1.mem_iff] at this
  obtain ⟨t', ht', rfl⟩ := List.mem_map.1 this
  exact mem_datedPosts.2 ⟨t', ht', p, hp, rfl⟩

theorem apart_calls {J : Book} {b c : Str × List TransactionPostings} (h : Apart J b.2 c.2) :
    ∀ A ∈ callsOf b, Apart J A c.2 := fun _ hA a ha x hx => h a (mem_callsOf hA ha) x hx

theorem apart_calls' {J : Book} {b c : Str × List TransactionPostings} (h : Apart J b.2 c.2) :
    ∀ A ∈ callsOf b, ∀ B ∈ callsOf c, Apart J A B := fun _ hA _ hB a ha x hx => h a (mem_callsOf hA ha) x (mem_callsOf hB hx)

theorem sameOutcome_prefix {l : List (Str × List TransactionPostings)} {gs gs' : List (List TransactionPostings)}
    (hc : ∀ (J : Book) (m : Merger), R m J → l.Pairwise (fun b c => Apart J b.2 c.2) → SameOutcome J gs J gs')
    {J : Book} {m : Merger} (hJ : R m J) {as : List (List TransactionPostings)} (h : ∀ A ∈ as, ∀ c ∈ l, Apart J A c.2)
    (hp : l.Pairwise (fun b c => Apart J b.2 c.2)) : SameOutcome J (as ++ gs) J (as ++ gs') := by
  induction as generalizing J m with
  | nil => exact hc J m hJ hp
  | cons A as ih =>
    refine sameOutcome_cons fun hb => ?_
    obtain ⟨m', r⟩ := R_after hJ hb
    refine ih r (fun C hC c hc => ?_) ?_
    · exact (Apart.preserved (h A (by simp) c hc) (h C (by simp [hC]) c hc).symm).symm
    · exact hp.imp_of_mem fun hb hc hbc => Apart.preserved (h A (by simp) _ hb) hbc

/-- Files that have nothing to do with each other, in any order. -/
theorem sameOutcome_perm {l l' : List (Str × List TransactionPostings)} (hp : l.Perm l') : ∀ (J : Book) (m : Merger), R m J →
    l.Pairwise (fun b c => Apart J b.2 c.2) → SameOutcome J (l.flatMap callsOf) J (l'.flatMap callsOf) := by
  induction hp with
  | nil => exact fun J m hJ _ => sameOutcome_refl hJ _
  | @cons b l l' _ ih =>
    intro J m hJ ha
    obtain ⟨h1, h2⟩ := List.pairwise_cons.1 ha
    rw [List.flatMap_cons, List.flatMap_cons]
    exact sameOutcome_prefix ih hJ (fun A hA c hc => apart_calls (h1 c hc) A hA) h2
  | swap b c l =>
    intro J m hJ ha
    obtain ⟨h1, _⟩ := List.pairwise_cons.1 ha
    simp only [List.flatMap_cons]
    exact sameOutcome_blocks hJ (apart_calls' (h1 b (by simp))) _
  | @trans l₁ l₂ l₃ h12 _ ih ih' =>
    intro J m hJ ha
    exact (ih J m hJ ha).trans (ih' J m hJ (h12.pairwise ha fun {_ _} x => Apart.symm x))

theorem mergeInputs_filesRead (sys : Sys) (again : Bool) (fs : List FileSpec) :
    mergeInputs sys again fs = (filesRead sys again fs).map (·.flatMap callsOf) := by
  induction fs generalizing again with
  | nil => rfl
  | cons f fs ih =>
    rw [mergeInputs, filesRead, ih]
    cases ledgerAt sys sys.start again f with
    | none => rfl
    | some L =>
      simp only [Option.bind_some]
      cases TransactionPostings.fromLedger L with
      | none => rfl
      | some ts =>
        simp only [Option.bind_some, Option.map_map]
        rfl

theorem filesRead_perm {sys : Sys} {fs fs' : List FileSpec} (hp : fs.Perm fs') : ∀ (again : Bool) (bs : List (Str × List TransactionPostings)),
    filesRead sys again fs = some bs → ∃ bs', filesRead sys again fs' = some bs' ∧ bs.Perm bs' := by
  have key : ∀ (f : FileSpec) (fs : List FileSpec) (again : Bool) (bs : List (Str × List TransactionPostings)), filesRead sys again (f :: fs) = some bs ↔
      ∃ L ts bs', ledgerAt sys sys.start again f = some L ∧ TransactionPostings.fromLedger L = some ts ∧
        filesRead sys (again || f = .stdio) fs = some bs' ∧ bs = (f.display sys, ts) :: bs' := by
    intro f fs again bs
    rw [filesRead, Option.bind_eq_some_iff]
    constructor
    · rintro ⟨L, h1, h⟩
      rw [Option.bind_eq_some_iff] at h
      obtain ⟨ts, h2, h⟩ := h
      rw [Option.map_eq_some_iff] at h
      obtain ⟨bs', h3, rfl⟩ := h
      exact ⟨L, ts, bs', h1, h2, h3, rfl⟩
    · rintro ⟨L, ts, bs', h1, h2, h3, rfl⟩
      refine ⟨L, h1, ?_⟩
      rw [h2, Option.bind_some, h3]; rfl
  induction hp with
  | nil => exact fun _ bs h => ⟨bs, h, .refl _⟩
  | @cons f fs fs' _ ih =>
    intro again bs h
    obtain ⟨L, ts, bs₁, h1, h2, h3, rfl⟩ := (key _ _ _ _).1 h
    obtain ⟨bs₂, h4, h5⟩ := ih _ _ h3
    exact ⟨_, (key _ _ _ _).2 ⟨L, ts, bs₂, h1, h2, h4, rfl⟩, h5.cons _⟩
  | swap f g fs =>
    intro again bs h
    obtain ⟨L, ts, bs₁, h1, h2, h3, rfl⟩ := (key _ _ _ _).1 h
    obtain ⟨L', ts', bs₂, h4, h5, h6, rfl⟩ := (key _ _ _ _).1 h3
    by_cases hs : f = .stdio ∧ g = .stdio
    · obtain ⟨rfl, rfl⟩ := hs
      exact ⟨_, h, .refl _⟩
    · refine ⟨(f.display sys, ts') :: (g.display sys, ts) :: bs₂, ?_, List.Perm.swap _ _ _⟩
      have h6' : filesRead sys ((again || f = .stdio) || g = .stdio) fs = some bs₂ := by
        rw [← h6]; congr 1; cases again <;> simp [Bool.or_comm]
      refine (key _ _ _ _).2 ⟨L', ts', _, ?_, h5, (key _ _ _ _).2 ⟨L, ts, bs₂, ?_, h2, h6', rfl⟩, rfl⟩
      · rw [← h4]
        cases f with
        | path p => rfl
        | stdio =>
          cases g with
          | path q => simp
          | stdio => exact absurd ⟨rfl, rfl⟩ hs
      · rw [← h1]
        cases g with
        | path p => rfl
        | stdio =>
          cases f with
          | path q => simp
          | stdio => exact absurd ⟨rfl, rfl⟩ hs
  | trans _ _ ih ih' =>
    intro again bs h
    obtain ⟨bs', h1, h2⟩ := ih again bs h
    obtain ⟨bs'', h3, h4⟩ := ih' again bs' h1
    exact ⟨bs'', h3, h2.trans h4⟩

/-! ### Ledgers and groups -/

theorem ofTransaction_shuffled {t t' : Transaction} (h : ShuffledTrn t t') :
    Shuffled (TransactionPostings.ofTransaction t) (TransactionPostings.ofTransaction t') := by
  obtain ⟨h1, h2⟩ := h
  cases t; cases t'
  simp only [Transaction.mk.injEq, and_true] at h1
  obtain ⟨rfl, rfl, rfl, rfl, rfl, rfl⟩ := h1
  exact ⟨rfl, h2.map _⟩

theorem intoTransaction_shuffled (h h' : HashOrder) {t t' : TransactionPostings} (hs : Shuffled t t') :
    ShuffledTrn (TransactionPostings.intoTransaction h t) (TransactionPostings.intoTransaction h' t') := by
  have hc : ∀ c, Comment.intoOptComment h c = Comment.intoOptComment h' c := by intro c; rw [C30_layout, C30_layout]
  have hp : PostingInternal.intoPosting h = PostingInternal.intoPosting h' := by
    funext p; unfold PostingInternal.intoPosting; rw [hc]
  unfold TransactionPostings.intoTransaction TransactionInternal.intoTransaction
  rw [hc, hp, hs.1]
  exact ⟨rfl, hs.2.map _⟩

theorem sameLedger_into (h h' : HashOrder) {ts ts' : List TransactionPostings} (hs : Reordered ts ts') :
    SameLedger (TransactionPostings.intoLedger h ts) (TransactionPostings.intoLedger h' ts') := by
  refine ⟨?_, ?_⟩
  · rw [(C62_write h ts).1, (C62_write h' ts').1]
    exact ButOrder.map hs _ _ fun t _ t' ht => intoTransaction_shuffled h h' ht
  · have : ∀ h ts, (TransactionPostings.intoLedger h ts).items.any isOther = false := by
      intro h ts
      rw [List.any_eq_false]
      intro i hi
      rw [(C62_write h ts).2.1 i hi]; decide
    rw [this, this]

theorem fromLedger_same {L L' : Ledger} (h : SameLedger L L') : (TransactionPostings.fromLedger L = none ∧ TransactionPostings.fromLedger L' = none) ∨
    ∃ ts ts', TransactionPostings.fromLedger L = some ts ∧ TransactionPostings.fromLedger L' = some ts' ∧ Reordered ts ts' := by
  rw [C62_read, C62_read, h.2]
  split
  · exact .inl ⟨rfl, rfl⟩
  · exact .inr ⟨_, _, rfl, rfl, ButOrder.map h.1 _ _ fun t _ t' ht => ofTransaction_shuffled ht⟩

theorem calls_reordered (d : Str) {ts ts' : List TransactionPostings} (h : Reordered ts ts') :
    List.Forall₂ Reordered (callsOf (d, ts)) (callsOf (d, ts')) := by
  obtain ⟨ks, h1, h2, h3⟩ := C23_groups HashOrder.sorted d ts
  obtain ⟨ks', h1', h2', h3'⟩ := C23_groups HashOrder.sorted d ts'
  unfold callsOf
  have hsrc : ∀ t t', Shuffled t t' → sourceOf d t = sourceOf d t' := by
    intro t t' ht; unfold sourceOf; rw [ht.1]
  have hmem : ∀ s, s ∈ ks ↔ s ∈ ks' := by
    intro s
    rw [h2, h2']
    constructor
    · rintro ⟨t, ht, rfl⟩
      obtain ⟨t', ht', hs⟩ := ButOrder.mem_left h ht
      exact ⟨t', ht', (hsrc _ _ hs).symm⟩
    · rintro ⟨t, ht, rfl⟩
      obtain ⟨t', ht', hs⟩ := ButOrder.mem_right h ht
      exact ⟨t', ht', hsrc _ _ hs⟩
  have hnd : ∀ ks : List Str, ks.Pairwise (fun a b => compare a b = .lt) → ks.Nodup := by
    intro ks h
    refine h.imp ?_
    rintro a b hab rfl
    simp at hab
  have hk : ks = ks' := by
    refine List.Perm.eq_of_pairwise ?_ h1 h1' ((List.perm_ext_iff_of_nodup (hnd _ h1) (hnd _ h1')).2 hmem)
    intro a b _ _ hab hba
    have := Std.OrientedCmp.eq_swap (cmp := (compare : Str → Str → Ordering)) (a := a) (b := b)
    rw [hab, hba] at this; cases this
  subst hk
  show List.Forall₂ Reordered (Sources.groups HashOrder.sorted d ts) (Sources.groups HashOrder.sorted d ts')
  rw [h3, h3', List.forall₂_map_left_iff, List.forall₂_map_right_iff, List.forall₂_same]
  intro s _
  unfold ofSource
  refine ButOrder.map (R := Shuffled) (ButOrder.filter h _ _ ?_) _ _ ?_
  · intro a b hr
    rw [decide_eq_decide, hsrc _ _ hr]
  · intro t _ t' ht
    refine ⟨?_, ht.2⟩
    unfold sourced
    rw [hsrc _ _ ht, ht.1]

/-- Files that are the same but for order ask for the same merge calls but for order. -/
theorem mergeInputs_same {sys sys' : Sys} {fs : List FileSpec}
    (hr : ∀ f ∈ fs, ∀ again, SameReading (ledgerAt sys sys.start again f) (ledgerAt sys' sys'.start again f))
    (hd : ∀ f ∈ fs, f.display sys = f.display sys') (again : Bool) :
    (mergeInputs sys again fs = none ∧ mergeInputs sys' again fs = none) ∨
    ∃ gs gs', mergeInputs sys again fs = some gs ∧ mergeInputs sys' again fs = some gs' ∧ List.Forall₂ Reordered gs gs' := by
  induction fs generalizing again with
  | nil => exact .inr ⟨[], [], rfl, rfl, .nil⟩
  | cons f fs ih =>
    have h1 := hr f (by simp) again
    have h2 := hd f (by simp)
    have ih := ih (fun g hg => hr g (by simp [hg])) (fun g hg => hd g (by simp [hg])) (again || f = .stdio)
    rw [mergeInputs, mergeInputs]
    cases hL : ledgerAt sys sys.start again f with
    | none =>
      cases hL' : ledgerAt sys' sys'.start again f with
      | none => exact .inl ⟨rfl, rfl⟩
      | some L' => rw [hL, hL'] at h1; exact h1.elim
    | some L =>
      cases hL' : ledgerAt sys' sys'.start again f with
      | none => rw [hL, hL'] at h1; exact h1.elim
      | some L' =>
        rw [hL, hL'] at h1
        simp only [Option.bind_some]
        rcases fromLedger_same h1 with ⟨e1, e2⟩ | ⟨ts, ts', e1, e2, hs⟩
        · rw [e1, e2]; exact .inl ⟨rfl, rfl⟩
        · rw [e1, e2]
          simp only [Option.bind_some]
          rcases ih with ⟨e3, e4⟩ | ⟨gs, gs', e3, e4, hg⟩
          · rw [e3, e4]; exact .inl ⟨rfl, rfl⟩
          · rw [e3, e4]
            refine .inr ⟨_, _, rfl, rfl, List.rel_append ?_ hg⟩
            rw [← h2]
            exact calls_reordered _ hs

/-- Runs of the `merge` command whose merge calls end the same way but for order. -/
theorem sameRuns_of {sys sys' : Sys} (hf : ∀ n, sys.fault n = none) (hf' : ∀ n, sys'.fault n = none) (ho ho' : Nat → HashOrder)
    {args args' : MergeCmd.Args} (hu : args.unmerged = args'.unmerged)
    (h : (mergeInputs sys false args.inputs = none ∧ mergeInputs sys' false args'.inputs = none) ∨
      ∃ gs gs', mergeInputs sys false args.inputs = some gs ∧ mergeInputs sys' false args'.inputs = some gs' ∧
        SameOutcome Book.empty gs Book.empty gs') :
    SameRuns sys sys' args args' (MergeCmd.run sys ho args World.start) (MergeCmd.run sys' ho' args' World.start) := by
  have fails : ∀ (sys : Sys) (ho : Nat → HashOrder) (args : MergeCmd.Args), (mergeInputs sys false args.inputs = none ∨
      ∃ gs, mergeInputs sys false args.inputs = some gs ∧ (Refused Book.empty gs ∨ (leftOver Book.empty gs ≠ [] ∧ args.unmerged = none))) →
      (MergeCmd.run sys ho args World.start).1 ≠ .ok () ∧ (MergeCmd.run sys ho args World.start).2.log = [] := by
    intro sys ho args hbad
    rcases hrun : MergeCmd.run sys ho args World.start with ⟨r, w⟩
    obtain ⟨⟨e, rfl⟩, hl, _⟩ := C25_fails_before_writing sys ho args r w hrun hbad
    exact ⟨by simp, hl⟩
  have both : (MergeCmd.run sys ho args World.start).1 ≠ .ok () ∧ (MergeCmd.run sys ho args World.start).2.log = [] →
      (MergeCmd.run sys' ho' args' World.start).1 ≠ .ok () ∧ (MergeCmd.run sys' ho' args' World.start).2.log = [] →
      SameRuns sys sys' args args' (MergeCmd.run sys ho args World.start) (MergeCmd.run sys' ho' args' World.start) :=
    fun a b => ⟨⟨fun x => absurd x a.1, fun x => absurd x b.1⟩, fun _ => ⟨a.2, b.2⟩, fun x => absurd x a.1⟩
  rcases h with ⟨h1, h2⟩ | ⟨gs, gs', h1, h2, h3, h4⟩
  · exact both (fails _ _ _ (.inl h1)) (fails _ _ _ (.inl h2))
  by_cases hr : Refused Book.empty gs
  · exact both (fails _ _ _ (.inr ⟨gs, h1, .inl hr⟩)) (fails _ _ _ (.inr ⟨gs', h2, .inl (h3.1 hr)⟩))
  have hr' : ¬ Refused Book.empty gs' := fun x => hr (h3.2 x)
  obtain ⟨ha, hq⟩ := h4 hr
  have hlen : (leftOver Book.empty gs).length = (leftOver Book.empty gs').length := by
    rw [← queries_length, ← queries_length]
    obtain ⟨X, hX, hp⟩ := hq
    rw [hX.length_eq, hp.length_eq]
  have hnil : leftOver Book.empty gs = [] ↔ leftOver Book.empty gs' = [] := by
    rw [← List.length_eq_zero_iff, ← List.length_eq_zero_iff, hlen]
  by_cases hl : leftOver Book.empty gs ≠ [] ∧ args.unmerged = none
  · exact both (fails _ _ _ (.inr ⟨gs, h1, .inr hl⟩)) (fails _ _ _ (.inr ⟨gs', h2, .inr ⟨fun x => hl.1 (hnil.2 x), hu ▸ hl.2⟩⟩))
  have hl1 : leftOver Book.empty gs = [] ∨ args.unmerged ≠ none := by
    by_cases hx : leftOver Book.empty gs = []
    · exact .inl hx
    · exact .inr fun hy => hl ⟨hx, hy⟩
  have hl2 : leftOver Book.empty gs' = [] ∨ args'.unmerged ≠ none := by rw [← hnil, ← hu]; exact hl1
  have ok1 := C25_succeeds_otherwise sys ho args gs hf h1 hr hl1
  have ok2 := C25_succeeds_otherwise sys' ho' args' gs' hf' h2 hr' hl2
  obtain ⟨g, u, o, e1, _, e2, _, e3⟩ := (mergeCmd_sat sys ho args).ok (Prod.ext ok1 rfl)
  obtain ⟨g', u', o', e1', _, e2', _, e3'⟩ := (mergeCmd_sat sys' ho' args').ok (Prod.ext ok2 rfl)
  obtain rfl : g = gs := Option.some.inj (e1.symm.trans h1)
  obtain rfl : g' = gs' := Option.some.inj (e1'.symm.trans h2)
  refine ⟨⟨fun _ => ok2, fun _ => ok1⟩, fun x => absurd ok1 x, fun _ => ?_⟩
  refine ⟨_, _, u, u', _, _, o, o', hq, asks_queries e2, asks_queries e2', sameLedger_into o o' ?_, e3, e3'⟩
  exact ButOrder.map (show ButOrder Shuffled _ _ from ha.journal) _ _ fun t _ t' ht => ⟨by unfold unsourced; rw [ht.1], ht.2⟩

end Verif
