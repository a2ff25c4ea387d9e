import Verif.Proofs.Reorder
import Verif.Props.BalanceExact

/-!
# Files that have nothing to do with each other
-/

namespace Verif
open Spec Spec.Book

theorem softMatch_absorb {d s q : PostingInternal} (h : SoftMatch (absorb d s) q) : SoftMatch d q := by
  obtain ⟨h1, h2, h3⟩ := h
  refine ⟨?_, h2, ?_⟩
  · by_cases hd : UnknownAccount d
    · exact .inl hd
    · rcases h1 with h1 | h1 | h1
      · exact absurd (unknown_absorb.1 h1).1 hd
      · exact .inr (.inl h1)
      · have : (absorb d s).raw.account = d.raw.account := if_neg fun x => hd x.1
        rw [this] at h1
        exact .inr (.inr h1)
  · have : (absorb d s).raw.balance = d.raw.balance.or s.raw.balance := rfl
    rw [this] at h3
    cases hb : d.raw.balance with
    | none => trivial
    | some b => rw [hb] at h3; exact h3

theorem softMatch_foldl {l : List PostingInternal} {d q : PostingInternal} (h : SoftMatch (l.foldl absorb d) q) : SoftMatch d q := by
  induction l generalizing d with
  | nil => exact h
  | cons s l ih => exact softMatch_absorb (ih h)

/-- What grows by other postings is near to nothing else than it was, but for the fingerprints of those. -/
theorem near_foldl {l : List PostingInternal} {d : Date} {x : PostingInternal} {y : Date × PostingInternal}
    (h : Likely (d, l.foldl absorb x) y) : Likely (d, x) y ∨ ∃ a ∈ l, SharesFp a y.2 := by
  rcases h with ⟨f, h1, h2⟩ | ⟨h1, h2⟩
  · rcases mem_fps_foldl.1 h1 with h | ⟨a, ha, h⟩
    · exact .inl (.inl ⟨f, h, h2⟩)
    · exact .inr ⟨a, ha, f, h, h2⟩
  · exact .inl (.inr ⟨h1, softMatch_foldl h2⟩)

theorem mem_datedPosts {ts : List TransactionPostings} {x : Date × PostingInternal} :
    x ∈ datedPosts ts ↔ ∃ t ∈ ts, ∃ p ∈ t.posts, x = (dateOf t, p) := by
  unfold datedPosts
  rw [List.mem_flatMap]
  constructor
  · rintro ⟨t, ht, hx⟩
    obtain ⟨p, hp, rfl⟩ := List.mem_map.1 hx
    exact ⟨t, ht, p, hp, rfl⟩
  · rintro ⟨t, ht, p, hp, rfl⟩
    exact ⟨t, ht, List.mem_map.2 ⟨p, hp, rfl⟩⟩

theorem near_of_into {J : Book} {d : Date} {p : PostingInternal} {i : Nat} {r : Rec} (hv : J.verdict d p = .into i) (hr : J.recs[i]? = some r) :
    Likely (r.date, r.post) (d, p) := by
  rcases (into_iff (by rw [hv]; rfl) (by rw [hv]; intro x; cases x) hr).1 hv with h | ⟨_, h1, h2⟩
  · exact .inl h
  · exact .inr ⟨h1, h2⟩

theorem where_congr {J K : Book} {P : Rec → Bool} (hl : J.recs.length ≤ K.recs.length)
    (h : ∀ i < J.recs.length, (K.recs[i]?).any P = (J.recs[i]?).any P) (h' : ∀ i, J.recs.length ≤ i → (K.recs[i]?).any P = false) :
    K.where_ P = J.where_ P := by
  unfold where_
  obtain ⟨k, hk⟩ := Nat.exists_eq_add_of_le hl
  rw [hk, List.range_add, List.filter_append]
  have h2 : ((List.range k).map (J.recs.length + ·)).filter (fun i => (K.recs[i]?).any P) = [] := by
    rw [List.filter_eq_nil_iff]
    intro i hi
    obtain ⟨j, _, rfl⟩ := List.mem_map.1 hi
    rw [h' _ (by omega)]; simp
  rw [h2, List.append_nil]
  apply List.filter_congr
  intro i hi
  exact h i (List.mem_range.1 hi)

theorem after_length_le (J : Book) (A : List TransactionPostings) : J.recs.length ≤ (J.after A).recs.length := by
  rw [after_recs]; simp

/-- A record of the book after a merge call: an old one with what went into it, or a posting of the input. -/
theorem after_get {J : Book} {A : List TransactionPostings} {i : Nat} {r : Rec} (hr : (J.after A).recs[i]? = some r) :
    (∃ r₀, J.recs[i]? = some r₀ ∧ r.trn = r₀.trn ∧ r.date = r₀.date ∧ r.post = (J.hits A i).foldl absorb r₀.post) ∨
      J.recs.length ≤ i ∧ (r.date, r.post) ∈ datedPosts A := by
  by_cases hi : i < J.recs.length
  · rw [after_old J A hi] at hr
    cases hr
    exact .inl ⟨_, List.getElem?_eq_getElem hi, rfl, rfl, rfl⟩
  · right
    rw [after_recs, List.getElem?_append_right (by simp; omega)] at hr
    obtain ⟨t, ht, _, hp, _, hd, _⟩ := mem_news (List.mem_of_getElem? hr)
    exact ⟨by omega, mem_datedPosts.2 ⟨t, ht, _, hp, by rw [hd]⟩⟩

theorem near_symm {x y : Date × PostingInternal} (h : Likely x y) : Likely y x := by
  rcases h with h | ⟨h1, h2⟩
  · exact .inl (sharesFp_comm.1 h)
  · exact .inr ⟨h1.symm, softMatch_comm h2⟩

theorem or_six (a b c d e f a' b' c' d' e' f' : Prop) : ((a ∨ a') ∨ (b ∨ b') ∨ (c ∨ c') ∨ (d ∨ d') ∨ (e ∨ e') ∨ (f ∨ f')) ↔
    (a ∨ b ∨ c ∨ d ∨ e ∨ f) ∨ (a' ∨ b' ∨ c' ∨ d' ∨ e' ∨ f') := by
  constructor
  · rintro ((h | h) | (h | h) | (h | h) | (h | h) | (h | h) | (h | h)) <;> simp [h]
  · rintro ((h | h | h | h | h | h) | (h | h | h | h | h | h)) <;> simp [h]

namespace Spec.Apart
variable {J : Book} {A B C : List TransactionPostings}

theorem symm (h : Apart J A B) : Apart J B A := by
  intro b hb a ha
  obtain ⟨h1, h2⟩ := h a ha b hb
  exact ⟨fun x => h1 (near_symm x), fun r hr x => h2 r hr ⟨x.2, x.1⟩⟩

/-- A record of the book after `A` that is near to a posting of `B` is an old one that is near to it and that nothing went into. -/
theorem near_old (h : Apart J A B) {i : Nat} {r : Rec} (hr : (J.after A).recs[i]? = some r) {b : Date × PostingInternal}
    (hb : b ∈ datedPosts B) (hn : Likely (r.date, r.post) b) : J.hits A i = [] ∧ J.recs[i]? = some r := by
  rcases after_get hr with ⟨r₀, hr₀, ht, hd, hp⟩ | ⟨_, hm⟩
  · have hits : ∀ a ∈ J.hits A i, ∃ x ∈ datedPosts A, x.2 = a ∧ Likely (r₀.date, r₀.post) x := by
      intro a ha
      obtain ⟨t, htA, _, hpt, hv⟩ := mem_hits.1 ha
      exact ⟨(dateOf t, a), mem_datedPosts.2 ⟨t, htA, a, hpt, rfl⟩, rfl, near_of_into hv hr₀⟩
    have hn₀ : Likely (r₀.date, r₀.post) b := by
      rw [hd, hp] at hn
      rcases near_foldl hn with hn | ⟨a, ha, hs⟩
      · exact hn
      · obtain ⟨x, hx, rfl, _⟩ := hits a ha
        exact absurd (.inl hs) (h x hx b hb).1
    have he : J.hits A i = [] := by
      rw [List.eq_nil_iff_forall_not_mem]
      intro a ha
      obtain ⟨x, hx, _, hn'⟩ := hits a ha
      exact (h x hx b hb).2 r₀ (List.mem_of_getElem? hr₀) ⟨hn', hn₀⟩
    refine ⟨he, ?_⟩
    rw [he] at hp
    rw [hr₀]
    cases r; cases r₀; simp_all
  · exact absurd hn (h _ hm b hb).1

/-- A record of the book that is near to a posting of `B` stays as it is. -/
theorem near_new (h : Apart J A B) {i : Nat} {r : Rec} (hr : J.recs[i]? = some r) {b : Date × PostingInternal}
    (hb : b ∈ datedPosts B) (hn : Likely (r.date, r.post) b) : (J.after A).recs[i]? = some r := by
  have hi : i < J.recs.length := by
    by_contra hx
    rw [List.getElem?_eq_none (by omega)] at hr; cases hr
  have he : J.hits A i = [] := by
    rw [List.eq_nil_iff_forall_not_mem]
    intro a ha
    obtain ⟨t, htA, _, hpt, hv⟩ := mem_hits.1 ha
    exact (h (dateOf t, a) (mem_datedPosts.2 ⟨t, htA, a, hpt, rfl⟩) b hb).2 r (List.mem_of_getElem? hr) ⟨near_of_into hv hr, hn⟩
  rw [after_old J A hi, he]
  rw [List.getElem?_eq_getElem hi] at hr
  cases hr; rfl

theorem where_eq (h : Apart J A B) {b : Date × PostingInternal} (hb : b ∈ datedPosts B) (P : Rec → Bool)
    (hP : ∀ r, P r = true → Likely (r.date, r.post) b) : (J.after A).where_ P = J.where_ P := by
  have key : ∀ i : Nat, ((J.after A).recs[i]?).any P = true ↔ (J.recs[i]?).any P = true := by
    intro i
    rw [Option.any_eq_true, Option.any_eq_true]
    constructor
    · rintro ⟨r, hr, hp⟩; exact ⟨r, (h.near_old hr hb (hP r hp)).2, hp⟩
    · rintro ⟨r, hr, hp⟩; exact ⟨r, h.near_new hr hb (hP r hp), hp⟩
  apply where_congr (after_length_le J A)
  · intro i _
    exact Bool.eq_iff_iff.2 (key i)
  · intro i hi
    rw [← Bool.not_eq_true, key, List.getElem?_eq_none hi]
    simp

theorem verdict (h : Apart J A B) {d : Date} {p : PostingInternal} (hb : (d, p) ∈ datedPosts B) :
    (J.after A).verdict d p = J.verdict d p := by
  have h1 : (J.after A).fpHits p = J.fpHits p :=
    h.where_eq hb _ fun r hr => .inl (of_decide_eq_true hr)
  have h2 : (J.after A).softHits d p = J.softHits d p :=
    h.where_eq hb _ fun r hr => .inr (of_decide_eq_true hr)
  unfold Spec.Book.verdict
  rw [h1, h2]

theorem verdicts (h : Apart J A B) {t : TransactionPostings} (ht : t ∈ B) : (J.after A).verdicts t = J.verdicts t := by
  unfold Spec.Book.verdicts
  apply List.map_congr_left
  intro p hp
  exact h.verdict (mem_datedPosts.2 ⟨t, ht, p, hp, rfl⟩)

theorem undecided (h : Apart J A B) {t : TransactionPostings} (ht : t ∈ B) : Undecided (J.after A) t ↔ Undecided J t := by
  unfold Undecided
  rw [h.verdicts ht]

theorem dests (h : Apart J A B) {t : TransactionPostings} (ht : t ∈ B) : (J.after A).dests t = J.dests t := by
  unfold Spec.Book.dests
  rw [h.verdicts ht]

theorem trnOf {i : Nat} (hi : i < J.recs.length) : (J.after A).trnOf i = J.trnOf i := by
  unfold Spec.Book.trnOf
  rw [after_old J A hi, List.getElem?_eq_getElem hi]; rfl

theorem putTrn (h : Apart J A B) {t : TransactionPostings} (ht : t ∈ B) (K : Book) : (J.after A).putTrn K t = J.putTrn K t := by
  have hb : ((J.after A).dests t).head?.bind (J.after A).trnOf = (J.dests t).head?.bind J.trnOf := by
    rw [h.dests ht]
    cases hl : J.dests t with
    | nil => rfl
    | cons i l =>
      rw [List.head?_cons, Option.bind_some, Option.bind_some]
      exact trnOf (dests_lt (t := t) (by rw [hl]; simp))
  unfold Spec.Book.putTrn
  rw [hb, h.verdicts ht]
  by_cases hu : Undecided J t
  · rw [if_pos hu, if_pos ((h.undecided ht).2 hu)]
  · rw [if_neg hu, if_neg fun x => hu ((h.undecided ht).1 x)]

/-- Files that are apart can be merged one after the other or as one. -/
theorem after_after (h : Apart J A B) : (J.after A).after B = J.after (A ++ B) := by
  have key : ∀ (l : List TransactionPostings) (K : Book), (∀ t ∈ l, t ∈ B) → l.foldl ((J.after A).putTrn ·) K = l.foldl (J.putTrn ·) K := by
    intro l
    induction l with
    | nil => intros; rfl
    | cons t l ih =>
      intro K hl
      rw [List.foldl_cons, List.foldl_cons, h.putTrn (hl t (by simp))]
      exact ih _ fun x hx => hl x (by simp [hx])
  have e1 : (J.after A).after B = B.foldl ((J.after A).putTrn ·) (J.after A) := rfl
  have e2 : J.after (A ++ B) = (A ++ B).foldl (J.putTrn ·) J := rfl
  rw [e1, e2, List.foldl_append, key B _ fun _ x => x]
  rfl

theorem bad (h : Apart J A B) : (J.after A).Bad B ↔ J.Bad B := by
  have h1 : (J.after A).Conflicting B ↔ J.Conflicting B := by
    unfold Conflicting
    refine exists_congr fun t => and_congr_right fun ht => ?_
    rw [h.verdicts ht]
  have h2 : (J.after A).Split B ↔ J.Split B := by
    unfold Split
    refine exists_congr fun t => and_congr_right fun ht => ?_
    rw [h.undecided ht, h.dests ht]
    refine and_congr_right fun _ => exists_congr fun i => and_congr_right fun hi => exists_congr fun j => and_congr_right fun hj => ?_
    rw [trnOf (dests_lt hi), trnOf (dests_lt hj)]
  have h3 : (J.after A).SameDest B ↔ J.SameDest B := by
    have : (J.after A).allDests B = J.allDests B := by
      unfold allDests
      have e : B.filter (fun t => ¬ Undecided (J.after A) t) = B.filter (fun t => ¬ Undecided J t) := by
        apply List.filter_congr
        intro t ht
        rw [decide_eq_decide, h.undecided ht]
      rw [e]
      apply List.flatMap_congr
      intro t ht
      exact h.dests (List.mem_filter.1 ht).1
    unfold SameDest
    rw [this]
  unfold Bad
  rw [h1, h2, h3]

/-- Two files that are apart are refused together if and only if one of them is. -/
theorem bad_append (h : Apart J A B) : J.Bad (A ++ B) ↔ J.Bad A ∨ J.Bad B := by
  have hA : ∀ p ∈ allPosts A, ∃ d, (d, p) ∈ datedPosts A := by
    intro p hp
    obtain ⟨t, ht, hp⟩ := List.mem_flatMap.1 hp
    exact ⟨_, mem_datedPosts.2 ⟨t, ht, p, hp, rfl⟩⟩
  have hB : ∀ p ∈ allPosts B, ∃ d, (d, p) ∈ datedPosts B := by
    intro p hp
    obtain ⟨t, ht, hp⟩ := List.mem_flatMap.1 hp
    exact ⟨_, mem_datedPosts.2 ⟨t, ht, p, hp, rfl⟩⟩
  have happ : allPosts (A ++ B) = allPosts A ++ allPosts B := by unfold allPosts; rw [List.flatMap_append]
  have h0 : HasCandidate (A ++ B) ↔ HasCandidate A ∨ HasCandidate B := by
    unfold HasCandidate; rw [happ]; simp only [List.mem_append, or_and_right, exists_or]
  have h1 : LacksFingerprint (A ++ B) ↔ LacksFingerprint A ∨ LacksFingerprint B := by
    unfold LacksFingerprint; rw [happ]; simp only [List.mem_append, or_and_right, exists_or]
  have h2 : DuplicateFp (A ++ B) ↔ DuplicateFp A ∨ DuplicateFp B := by
    unfold DuplicateFp
    rw [happ, List.pairwise_append, ← not_and_or, not_iff_not]
    constructor
    · rintro ⟨x, y, _⟩; exact ⟨x, y⟩
    · rintro ⟨x, y⟩
      refine ⟨x, y, ?_⟩
      intro p hp q hq hs
      obtain ⟨d, hd⟩ := hA p hp
      obtain ⟨e, he⟩ := hB q hq
      exact (h _ hd _ he).1 (.inl hs)
  have h3 : J.Conflicting (A ++ B) ↔ J.Conflicting A ∨ J.Conflicting B := by
    unfold Conflicting; simp only [List.mem_append, or_and_right, exists_or]
  have h4 : J.Split (A ++ B) ↔ J.Split A ∨ J.Split B := by
    unfold Split; simp only [List.mem_append, or_and_right, exists_or]
  have h5 : J.SameDest (A ++ B) ↔ J.SameDest A ∨ J.SameDest B := by
    have he : J.allDests (A ++ B) = J.allDests A ++ J.allDests B := by
      unfold allDests; rw [List.filter_append, List.flatMap_append]
    have hm : ∀ {ts : List TransactionPostings} {i : Nat}, i ∈ J.allDests ts → ∃ t ∈ ts, ∃ p ∈ t.posts, J.verdict (dateOf t) p = .into i := by
      intro ts i hi
      obtain ⟨t, ht, hi⟩ := List.mem_flatMap.1 hi
      exact ⟨t, (List.mem_filter.1 ht).1, mem_dests.1 hi⟩
    unfold SameDest
    rw [he, List.nodup_append, ← not_and_or, not_iff_not]
    constructor
    · rintro ⟨x, y, _⟩; exact ⟨x, y⟩
    · rintro ⟨x, y⟩
      refine ⟨x, y, ?_⟩
      rintro i hi _ hj rfl
      obtain ⟨t, ht, p, hp, hv⟩ := hm hi
      obtain ⟨u, hu, q, hq, hv'⟩ := hm hj
      have hr := List.getElem?_eq_getElem (verdict_into_lt hv)
      exact (h _ (mem_datedPosts.2 ⟨t, ht, p, hp, rfl⟩) _ (mem_datedPosts.2 ⟨u, hu, q, hq, rfl⟩)).2 _ (List.mem_of_getElem? hr)
        ⟨near_of_into hv hr, near_of_into hv' hr⟩
  unfold Bad
  rw [h0, h1, h2, h3, h4, h5]
  exact or_six _ _ _ _ _ _ _ _ _ _ _ _

/-- Two files stay apart when a third is merged that is apart from one of them. -/
theorem preserved (hAB : Apart J A B) (hBC : Apart J B C) : Apart (J.after A) B C := by
  intro b hb c hc
  refine ⟨(hBC b hb c hc).1, ?_⟩
  rintro r hr ⟨h1, h2⟩
  obtain ⟨i, hi⟩ := List.mem_iff_getElem?.1 hr
  exact (hBC b hb c hc).2 r (List.mem_of_getElem? (hAB.near_old hi hb h1).2) ⟨h1, h2⟩

theorem softMatches (h : Apart J A B) {d : Date} {p : PostingInternal} (hb : (d, p) ∈ datedPosts B) :
    (J.after A).softMatches d p = J.softMatches d p := by
  have h2 : (J.after A).softHits d p = J.softHits d p := h.where_eq hb _ fun r hr => .inr (of_decide_eq_true hr)
  rw [← softHits_posts, ← softHits_posts, h2]
  unfold Spec.Book.postsAt
  apply List.filterMap_congr
  intro i hi
  obtain ⟨r, hr, hs⟩ := mem_softHits.1 hi
  rw [hr, h.near_new hr hb (.inr hs)]

theorem candidates (h : Apart J A B) {d : Date} {p : PostingInternal} (hb : (d, p) ∈ datedPosts B) :
    (J.after A).candidates d p = J.candidates d p := by
  unfold Spec.Book.candidates
  rw [h.verdict hb]
  split
  · rename_i is hv
    unfold Spec.Book.postsAt
    apply List.filterMap_congr
    intro i hi
    rw [(ambiguous_softHits hv).2.1] at hi
    obtain ⟨r, hr, hs⟩ := mem_softHits.1 hi
    rw [hr, h.near_new hr hb (.inr hs)]
  · rfl

theorem append_right (h : Apart J A B) (h' : Apart J A C) : Apart J A (B ++ C) := by
  intro a ha b hb
  unfold datedPosts at hb
  rw [List.flatMap_append] at hb
  rcases List.mem_append.1 hb with hb | hb
  · exact h a ha b hb
  · exact h' a ha b hb

theorem flatten {fs : List (List TransactionPostings)} (h : ∀ f ∈ fs, Apart J A f) : Apart J A fs.flatten := by
  induction fs with
  | nil => intro a _ b hb; cases hb
  | cons f fs ih => exact (h f (by simp)).append_right (ih fun g hg => h g (by simp [hg]))

end Spec.Apart

open Classical in
/-- The transactions of the files that can be merged, as one file. -/
noncomputable def Spec.Book.accepted (J : Book) (fs : List (List TransactionPostings)) : List TransactionPostings :=
  (fs.filter fun f => ¬ J.Bad f).flatten

/-- Files that are apart, one after the other: those that can be merged are merged, as if they were one file. -/
theorem steps_apart {J : Book} {fs : List (List TransactionPostings)} (h : fs.Pairwise (Apart J)) :
    fs.foldl Book.step J = J.after (J.accepted fs) := by
  classical
  induction fs generalizing J with
  | nil => rfl
  | cons f fs ih =>
    obtain ⟨h1, h2⟩ := List.pairwise_cons.1 h
    rw [List.foldl_cons]
    unfold Spec.Book.accepted
    by_cases hb : J.Bad f
    · have e : J.step f = J := by unfold Book.step; exact if_pos hb
      rw [e, ih h2, List.filter_cons_of_neg (by simpa using hb)]
      rfl
    · have e : J.step f = J.after f := by unfold Book.step; exact if_neg hb
      have hp : fs.Pairwise (Apart (J.after f)) := by
        refine List.Pairwise.imp_of_mem ?_ h2
        intro a b ha _ hab
        exact (h1 a ha).preserved hab
      have ha : (J.after f).accepted fs = J.accepted fs := by
        unfold Spec.Book.accepted
        congr 1
        apply List.filter_congr
        intro g hg
        rw [decide_eq_decide, (h1 g hg).bad]
      rw [e, ih hp, ha, List.filter_cons_of_pos (by simpa using hb), List.flatten_cons]
      unfold Spec.Book.accepted
      refine (Apart.flatten ?_).after_after
      intro g hg
      exact h1 g (List.mem_filter.1 hg).1

theorem accepted_good {J : Book} {fs : List (List TransactionPostings)} (h : fs.Pairwise (Apart J)) : ¬ J.Bad (J.accepted fs) := by
  classical
  induction fs with
  | nil =>
    rintro (⟨_, h, _⟩ | ⟨_, h, _⟩ | h | ⟨_, h, _⟩ | ⟨_, h, _⟩ | h)
    · cases h
    · cases h
    · exact h List.Pairwise.nil
    · cases h
    · cases h
    · exact h List.nodup_nil
  | cons f fs ih =>
    obtain ⟨h1, h2⟩ := List.pairwise_cons.1 h
    have := ih h2
    unfold Spec.Book.accepted at *
    by_cases hb : J.Bad f
    · rw [List.filter_cons_of_neg (by simpa using hb)]; exact this
    · rw [List.filter_cons_of_pos (by simpa using hb), List.flatten_cons, Apart.bad_append]
      · rintro (x | x)
        · exact hb x
        · exact this x
      · exact Apart.flatten fun g hg => h1 g (List.mem_filter.1 hg).1

theorem accepted_perm {J : Book} {fs fs' : List (List TransactionPostings)} (h : fs.Perm fs') : (J.accepted fs).Perm (J.accepted fs') := by
  unfold Spec.Book.accepted
  exact (h.filter _).flatten

/-- Files that are apart, in any order. -/
theorem alike_apart {J : Book} {m : Merger} (hR : R m J) {fs fs' : List (List TransactionPostings)} (h : fs.Pairwise (Apart J))
    (hp : fs.Perm fs') : Alike (fs.foldl Book.step J) (fs'.foldl Book.step J) := by
  have h' : fs'.Pairwise (Apart J) := hp.pairwise h fun {_ _} x => Apart.symm x
  have hw := wf_continue hR fs
  have hw' := wf_continue hR fs'
  rw [steps_apart h] at hw ⊢
  rw [steps_apart h'] at hw' ⊢
  exact (Alike.refl hR.wf).after (.of_perm (accepted_perm hp)) (good_iff.2 (accepted_good h)) (good_iff.2 (accepted_good h')) hw hw'

end Verif
