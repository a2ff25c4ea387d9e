import Verif.Proofs.Rename
import Verif.Props.Edits

/-!
# Proofs for C102: which ways of writing things change nothing
-/

namespace Verif
open Spec Spec.Book Comment

/-- Two calls with a transaction of one posting each. -/
theorem oneRun_pair (o o' : HashOrder) (x y : TransactionInternal) (p q : PostingInternal) (hi : InOrder [⟨x, [p]⟩, ⟨y, [q]⟩]) :
    ∃ j us, oneRun [(o, [⟨x, [p]⟩]), (o', [⟨y, [q]⟩])] = some (j, us) ∧
      (x.raw.date = y.raw.date ∧ SoftMatch p q → j = [⟨x, [absorb p q]⟩]) ∧
      (¬ (x.raw.date = y.raw.date ∧ SoftMatch p q) →
        j = if (compare x.raw.date y.raw.date).isLE then [⟨x, [p]⟩, ⟨y, [q]⟩] else [⟨y, [q]⟩, ⟨x, [p]⟩]) := by
  have hn : ¬ SharesFp p q := (List.pairwise_cons.1 hi.distinct).1 q (List.mem_singleton.2 rfl)
  have i1 : InOrder [⟨x, [p]⟩] := ⟨fun t ht => hi.nonempty t (List.mem_cons.2 (.inl (List.mem_singleton.1 ht))),
    fun r hr => hi.clean r (List.mem_cons.2 (.inl (List.mem_singleton.1 hr))),
    fun r hr => hi.marked r (List.mem_cons.2 (.inl (List.mem_singleton.1 hr))), List.pairwise_singleton _ _⟩
  have i2 : InOrder [⟨y, [q]⟩] := ⟨fun t ht => hi.nonempty t (List.mem_cons_of_mem _ ht),
    fun r hr => hi.clean r (List.mem_cons_of_mem _ hr), fun r hr => hi.marked r (List.mem_cons_of_mem _ hr), List.pairwise_singleton _ _⟩
  have hnew : ∀ d r, Book.empty.verdict d r = .new := fun d r => rfl
  obtain ⟨b1, d1⟩ := (not_bad_inOrder (J := Book.empty) (fun t _ r _ => hnew _ r)).2 i1
  have ha : Book.empty.after [⟨x, [p]⟩] = ⟨[x], [⟨0, x.raw.date, p⟩]⟩ := by
    show Book.empty.putTrn Book.empty ⟨x, [p]⟩ = _
    unfold putTrn
    rw [if_neg (d1 _ (List.mem_singleton.2 rfl))]
    rfl
  have hv : (⟨[x], [⟨0, x.raw.date, p⟩]⟩ : Book).verdict y.raw.date q = if x.raw.date = y.raw.date ∧ SoftMatch p q then .into 0 else .new := by
    have h1 : (⟨[x], [⟨0, x.raw.date, p⟩]⟩ : Book).fpHits q = [] := by
      unfold fpHits where_
      simp [hn]
    have h2 : (⟨[x], [⟨0, x.raw.date, p⟩]⟩ : Book).softHits y.raw.date q = if x.raw.date = y.raw.date ∧ SoftMatch p q then [0] else [] := by
      unfold softHits where_
      by_cases hs : x.raw.date = y.raw.date ∧ SoftMatch p q
      · simp [hs, List.range_succ]
      · rw [if_neg hs]
        simp [hs]
    unfold verdict
    rw [h1, h2]
    by_cases hs : x.raw.date = y.raw.date ∧ SoftMatch p q
    · simp only [if_pos hs]
    · simp only [if_neg hs]
  generalize hJ : (⟨[x], [⟨0, x.raw.date, p⟩]⟩ : Book) = J at ha hv
  have hvs : J.verdicts ⟨y, [q]⟩ = [J.verdict y.raw.date q] := rfl
  by_cases hs : x.raw.date = y.raw.date ∧ SoftMatch p q
  · rw [if_pos hs] at hv
    rw [hv] at hvs
    have hd : J.dests ⟨y, [q]⟩ = [0] := by
      unfold dests
      rw [hvs]
      rfl
    have hu : ¬ Undecided J ⟨y, [q]⟩ := by
      rintro (h | ⟨v, h1, h2⟩)
      · cases h
      · rw [hvs, List.mem_singleton] at h1
        subst h1
        cases h2
    have b2 : ¬ J.Bad [⟨y, [q]⟩] := by
      rintro (⟨r, hr, t, ht, hc⟩ | ⟨r, hr, hf⟩ | hd' | ⟨t, ht, hc⟩ | ⟨t, ht, _, i, hi, j, hj, hij⟩ | hsd)
      · exact i2.clean r hr t ht hc
      · exact i2.marked r hr hf
      · exact hd' i2.distinct
      · rw [List.mem_singleton] at ht
        subst ht
        rw [hvs] at hc
        cases List.mem_singleton.1 hc
      · rw [List.mem_singleton] at ht
        subst ht
        rw [hd, List.mem_singleton] at hi hj
        exact hij (by rw [hi, hj])
      · apply hsd
        unfold allDests
        rw [List.filter_cons_of_pos (by simpa using hu)]
        show ([⟨y, [q]⟩].flatMap J.dests).Nodup
        rw [List.flatMap_singleton, hd]
        exact List.nodup_singleton _
    have href : ¬ Refused Book.empty (inputs [(o, [⟨x, [p]⟩]), (o', [⟨y, [q]⟩])]) := by
      rintro (h | h | h)
      · exact b1 h
      · rw [ha] at h
        exact b2 h
      · exact h
    obtain ⟨us, h1, _⟩ := oneRun_all href
    refine ⟨_, us, h1, fun _ => ?_, fun h => absurd hs h⟩
    have he : (bookAfter (inputs [(o, [⟨x, [p]⟩]), (o', [⟨y, [q]⟩])])).entries = [⟨x, [absorb p q]⟩] := by
      show ((Book.empty.after [⟨x, [p]⟩]).after [⟨y, [q]⟩]).entries = _
      rw [ha]
      show (J.putTrn J ⟨y, [q]⟩).entries = _
      unfold putTrn
      rw [if_neg hu, hd, hvs]
      subst hJ
      rfl
    rw [journal_eq, he]
    unfold byDate
    simp only [Ex.mergeSort_eval dateOf]
    rfl
  · rw [if_neg hs] at hv
    obtain ⟨b2, d2⟩ := (not_bad_inOrder (J := J) (g := [⟨y, [q]⟩]) (by
      intro t ht r hr
      rw [List.mem_singleton] at ht
      subst ht
      rw [List.mem_singleton.1 hr]
      exact hv)).2 i2
    have href : ¬ Refused Book.empty (inputs [(o, [⟨x, [p]⟩]), (o', [⟨y, [q]⟩])]) := by
      rintro (h | h | h)
      · exact b1 h
      · rw [ha] at h
        exact b2 h
      · exact h
    obtain ⟨us, h1, _⟩ := oneRun_all href
    refine ⟨_, us, h1, fun h => absurd h hs, fun _ => ?_⟩
    have he : (bookAfter (inputs [(o, [⟨x, [p]⟩]), (o', [⟨y, [q]⟩])])).entries = [⟨x, [p]⟩, ⟨y, [q]⟩] := by
      show ((Book.empty.after [⟨x, [p]⟩]).after [⟨y, [q]⟩]).entries = _
      rw [ha]
      show (J.putTrn J ⟨y, [q]⟩).entries = _
      unfold putTrn dests
      rw [if_neg (d2 _ (List.mem_singleton.2 rfl)), hvs, hv]
      subst hJ
      rfl
    rw [journal_eq, he]
    unfold byDate
    simp only [Ex.mergeSort_eval dateOf]
    rfl


/-- The posting has a fingerprint and no candidate tag. -/
def Spec.Fit (p : PostingInternal) : Prop := (∀ t ∈ tagsOf p, ¬ IsCand t) ∧ ∃ f ∈ tagsOf p, IsFp f

theorem fps_ne_nil {p : PostingInternal} : fps p ≠ [] ↔ ∃ f ∈ tagsOf p, IsFp f := by
  rw [← List.isEmpty_eq_false_iff, List.isEmpty_eq_false_iff_exists_mem]
  simp only [mem_fps_iff]

theorem inOrder_one {x : TransactionInternal} {p : PostingInternal} : InOrder [⟨x, [p]⟩] ↔ Fit p := by
  constructor
  · intro h
    exact ⟨h.clean p (List.mem_singleton.2 rfl), fps_ne_nil.1 (h.marked p (List.mem_singleton.2 rfl))⟩
  · rintro ⟨h1, h2⟩
    refine ⟨fun t ht => ?_, fun q hq => ?_, fun q hq => ?_, List.pairwise_singleton _ _⟩
    · rw [List.mem_singleton.1 ht]
      exact List.cons_ne_nil _ _
    · rw [List.mem_singleton.1 hq]
      exact h1
    · rw [List.mem_singleton.1 hq]
      exact fps_ne_nil.2 h2

theorem inOrder_both {x : TransactionInternal} {p q : PostingInternal} : InOrder [⟨x, [p, q]⟩] ↔ Fit p ∧ Fit q ∧ ¬ SharesFp p q := by
  have hm : ∀ r, r ∈ allPosts [⟨x, [p, q]⟩] ↔ r = p ∨ r = q := fun r => by
    show r ∈ [p, q] ↔ _
    rw [List.mem_cons, List.mem_singleton]
  constructor
  · intro h
    exact ⟨⟨h.clean p ((hm p).2 (.inl rfl)), fps_ne_nil.1 (h.marked p ((hm p).2 (.inl rfl)))⟩,
      ⟨h.clean q ((hm q).2 (.inr rfl)), fps_ne_nil.1 (h.marked q ((hm q).2 (.inr rfl)))⟩,
      (List.pairwise_cons.1 h.distinct).1 q (List.mem_singleton.2 rfl)⟩
  · rintro ⟨h1, h2, h3⟩
    refine ⟨fun t ht => ?_, fun r hr => ?_, fun r hr => ?_, ?_⟩
    · rw [List.mem_singleton.1 ht]
      exact List.cons_ne_nil _ _
    · rcases (hm r).1 hr with rfl | rfl
      · exact h1.1
      · exact h2.1
    · rcases (hm r).1 hr with rfl | rfl
      · exact fps_ne_nil.2 h1.2
      · exact fps_ne_nil.2 h2.2
    · refine List.pairwise_cons.2 ⟨fun r hr => ?_, List.pairwise_singleton _ _⟩
      rw [List.mem_singleton.1 hr]
      exact h3

theorem inOrder_pair {x y : TransactionInternal} {p q : PostingInternal} (h1 : Fit p) (h2 : Fit q) (h3 : ¬ SharesFp p q) :
    InOrder [⟨x, [p]⟩, ⟨y, [q]⟩] := by
  have h := (inOrder_both (x := x)).2 ⟨h1, h2, h3⟩
  refine ⟨fun t ht => ?_, h.clean, h.marked, h.distinct⟩
  rcases List.mem_cons.1 ht with rfl | ht
  · exact List.cons_ne_nil _ _
  · rw [List.mem_singleton.1 ht]
    exact List.cons_ne_nil _ _

theorem oneRun_single (o : HashOrder) {t : TransactionPostings} (ht : t.posts ≠ []) : (oneRun [(o, [t])]).isSome ↔ InOrder [t] := by
  have hu : ∀ u ∈ [t], ¬ Undecided Book.empty u := by
    intro u hu
    rw [List.mem_singleton.1 hu]
    rintro (h | ⟨v, h1, h2⟩)
    · exact ht h
    · obtain ⟨r, _, rfl⟩ := List.mem_map.1 h1
      cases h2
  rw [← not_bad_inOrder (J := Book.empty) (fun _ _ _ _ => rfl)]
  have href : Refused Book.empty (inputs [(o, [t])]) ↔ Book.empty.Bad [t] := by
    show Book.empty.Bad [t] ∨ False ↔ _
    rw [or_false]
  by_cases hb : Book.empty.Bad [t]
  · rw [oneRun_refused (href.2 hb)]
    exact ⟨fun h => (by cases h), fun h => absurd hb h.1⟩
  · obtain ⟨us, h1, _⟩ := oneRun_all fun h => hb (href.1 h)
    rw [h1]
    exact ⟨fun _ => ⟨hb, hu⟩, fun _ => rfl⟩

/-- A posting to try things out with. -/
def Spec.probe (a : Str) (x : Amount) (ls ts : List Str) : PostingInternal :=
  ⟨⟨a, .real, some ⟨x, none, none⟩, none, none, none⟩, ⟨ls, Std.ExtTreeSet.ofList ts compare, ∅⟩⟩

/-- A header to try things out with. -/
def Spec.probeHead (d : Date) : TransactionInternal := ⟨⟨none, d, none, none, none, [], []⟩, ⟨[], ∅, ∅⟩⟩

theorem mem_probe {a : Str} {x : Amount} {ls ts : List Str} {t : Str} : t ∈ tagsOf (probe a x ls ts) ↔ t ∈ ts := by
  show t ∈ Std.ExtTreeSet.ofList ts compare ↔ _
  rw [Std.ExtTreeSet.mem_ofList, List.contains_iff_mem]

theorem not_fp_cand {t : Str} (h : IsFp t) : ¬ IsCand t := by
  rintro ⟨s, hs⟩
  obtain ⟨s', hs'⟩ := h
  rw [← hs] at hs'
  have := congrArg List.head? hs'
  exact absurd this (by
    show ¬ (some 'f' = some 'c')
    decide)

theorem not_fp_unknown : ¬ IsFp unknownTag := by decide +kernel
theorem not_cand_unknown : ¬ IsCand unknownTag := by decide +kernel

section
variable {ρ : Renaming} (hh : ρ.Harmless)
include hh

theorem harmless_inOrder {t : TransactionPostings} (ht : t.posts ≠ []) : InOrder [ρ.trn t] ↔ InOrder [t] := by
  have h := hh [(HashOrder.sorted, [t])] [(HashOrder.sorted, [ρ.trn t])] rfl
  rw [← oneRun_single HashOrder.sorted ht, ← oneRun_single HashOrder.sorted (t := ρ.trn t) (by
    show t.posts.map ρ.post ≠ []
    simpa using ht)]
  revert h
  cases oneRun [(HashOrder.sorted, [t])] <;> cases oneRun [(HashOrder.sorted, [ρ.trn t])] <;> simp

theorem harmless_fit (p : PostingInternal) : Fit (ρ.post p) ↔ Fit p := by
  have h := harmless_inOrder hh (t := ⟨probeHead default, [p]⟩) (List.cons_ne_nil _ _)
  rw [inOrder_one] at h
  exact inOrder_one.symm.trans h

theorem harmless_shares {p q : PostingInternal} (hp : Fit p) (hq : Fit q) : SharesFp (ρ.post p) (ρ.post q) ↔ SharesFp p q := by
  have h := harmless_inOrder hh (t := ⟨probeHead default, [p, q]⟩) (List.cons_ne_nil _ _)
  rw [inOrder_both] at h
  have h' := inOrder_both.symm.trans h
  simp only [hp, hq, (harmless_fit hh p).2 hp, (harmless_fit hh q).2 hq, true_and] at h'
  exact not_iff_not.1 h'

theorem harmless_fp (t : Str) : IsFp (ρ.tag t) ↔ IsFp t := by
  have h := harmless_fit hh (probe [] default [] [t])
  have h1 : Fit (probe [] default [] [t]) ↔ IsFp t := by
    unfold Fit
    simp only [mem_probe, List.mem_singleton, forall_eq, exists_eq_left]
    exact ⟨fun h => h.2, fun h => ⟨not_fp_cand h, h⟩⟩
  have h2 : Fit (ρ.post (probe [] default [] [t])) ↔ IsFp (ρ.tag t) := by
    unfold Fit
    simp only [mem_tags_post, mem_probe, List.mem_singleton, exists_eq_left, exists_eq_left', forall_eq']
    exact ⟨fun h => h.2, fun h => ⟨not_fp_cand h, h⟩⟩
  rw [← h1, ← h2, h]

theorem harmless_cand (t : Str) : IsCand (ρ.tag t) ↔ IsCand t := by
  have hf : IsFp "fp-a".toList := by decide +kernel
  have h := harmless_fit hh (probe [] default [] ["fp-a".toList, t])
  have h1 : Fit (probe [] default [] ["fp-a".toList, t]) ↔ ¬ IsCand t := by
    unfold Fit
    simp only [mem_probe, List.mem_cons, List.not_mem_nil, or_false, forall_eq_or_imp, forall_eq, exists_eq_or_imp, exists_eq_left]
    exact ⟨fun h => h.1.2, fun h => ⟨⟨not_fp_cand hf, h⟩, .inl hf⟩⟩
  have h2 : Fit (ρ.post (probe [] default [] ["fp-a".toList, t])) ↔ ¬ IsCand (ρ.tag t) := by
    unfold Fit
    have hf' := (harmless_fp hh _).2 hf
    constructor
    · rintro ⟨h, _⟩
      exact h _ (mem_tags_post.2 ⟨t, mem_probe.2 (by simp), rfl⟩)
    · intro h
      refine ⟨fun s hs => ?_, _, mem_tags_post.2 ⟨_, mem_probe.2 (List.mem_cons_self ..), rfl⟩, hf'⟩
      obtain ⟨s', hs', rfl⟩ := mem_tags_post.1 hs
      rw [mem_probe, List.mem_cons, List.mem_singleton] at hs'
      rcases hs' with rfl | rfl
      · exact not_fp_cand hf'
      · exact h
  rw [← not_iff_not, ← h1, ← h2, h]

omit hh in
theorem fit_probe {a : Str} {x : Amount} {ls ts : List Str} {f : Str} (hf : IsFp f) (hm : f ∈ ts) (hc : ∀ t ∈ ts, ¬ IsCand t) : Fit (probe a x ls ts) :=
  ⟨fun t ht => hc t (mem_probe.1 ht), f, mem_probe.2 hm, hf⟩

theorem harmless_tag (f g : Str) (hf : IsFp f) (hg : IsFp g) (he : ρ.tag f = ρ.tag g) : f = g := by
  have h1 : Fit (probe [] default [] [f]) := fit_probe hf (List.mem_singleton.2 rfl) fun t ht => by
    rw [List.mem_singleton.1 ht]; exact not_fp_cand hf
  have h2 : Fit (probe [] default [] [g]) := fit_probe hg (List.mem_singleton.2 rfl) fun t ht => by
    rw [List.mem_singleton.1 ht]; exact not_fp_cand hg
  obtain ⟨s, hs1, hs2⟩ := (harmless_shares hh h1 h2).1
    ⟨ρ.tag f, mem_fps_iff.2 ⟨mem_tags_post.2 ⟨f, mem_probe.2 (List.mem_singleton.2 rfl), rfl⟩, (harmless_fp hh f).2 hf⟩,
      mem_fps_iff.2 ⟨mem_tags_post.2 ⟨g, mem_probe.2 (List.mem_singleton.2 rfl), he.symm⟩, (harmless_fp hh f).2 hf⟩⟩
  rw [← List.mem_singleton.1 (mem_probe.1 (mem_fps_iff.1 hs1).1), ← List.mem_singleton.1 (mem_probe.1 (mem_fps_iff.1 hs2).1)]

/-- What the two runs with two transactions of one posting each have to do with each other. -/
theorem harmless_two {d e : Date} {p q : PostingInternal} (hp : Fit p) (hq : Fit q) (hn : ¬ SharesFp p q) :
    (ρ.date d = ρ.date e ∧ SoftMatch (ρ.post p) (ρ.post q) ↔ d = e ∧ SoftMatch p q) ∧
    (d = e ∧ SoftMatch p q → absorb (ρ.post p) (ρ.post q) = ρ.post (absorb p q)) ∧
    (¬ (d = e ∧ SoftMatch p q) → (compare (ρ.date d) (ρ.date e)).isLE = (compare d e).isLE) := by
  have hp' := (harmless_fit hh p).2 hp
  have hq' := (harmless_fit hh q).2 hq
  have hn' : ¬ SharesFp (ρ.post p) (ρ.post q) := fun h => hn ((harmless_shares hh hp hq).1 h)
  obtain ⟨j, us, h1, h2, h3⟩ := oneRun_pair HashOrder.sorted HashOrder.sorted (probeHead d) (probeHead e) p q (inOrder_pair hp hq hn)
  obtain ⟨j', us', h1', h2', h3'⟩ := oneRun_pair HashOrder.sorted HashOrder.sorted (ρ.header (probeHead d)) (ρ.header (probeHead e)) _ _
    (inOrder_pair hp' hq' hn')
  have h := hh [(HashOrder.sorted, [⟨probeHead d, [p]⟩]), (HashOrder.sorted, [⟨probeHead e, [q]⟩])]
    [(HashOrder.sorted, [⟨ρ.header (probeHead d), [ρ.post p]⟩]), (HashOrder.sorted, [⟨ρ.header (probeHead e), [ρ.post q]⟩])] rfl
  rw [h1, h1'] at h
  obtain ⟨hj, _⟩ := h
  have hd : (ρ.header (probeHead d)).raw.date = ρ.date d := rfl
  have he : (ρ.header (probeHead e)).raw.date = ρ.date e := rfl
  have hd0 : (probeHead d).raw.date = d := rfl
  have he0 : (probeHead e).raw.date = e := rfl
  rw [hd, he] at h2' h3'
  rw [hd0, he0] at h2 h3
  have hne : ρ.post p ≠ ρ.post q := by
    intro hx
    obtain ⟨f, hf1, hf2⟩ := hp'.2
    exact hn' ⟨f, mem_fps_iff.2 ⟨hf1, hf2⟩, by rw [← hx]; exact mem_fps_iff.2 ⟨hf1, hf2⟩⟩
  by_cases a : d = e ∧ SoftMatch p q <;> by_cases b : ρ.date d = ρ.date e ∧ SoftMatch (ρ.post p) (ρ.post q)
  · refine ⟨⟨fun _ => a, fun _ => b⟩, fun _ => ?_, fun h => absurd a h⟩
    rw [h2 a, h2' b] at hj
    have hj := (List.cons.inj hj).1
    have := congrArg TransactionPostings.posts hj
    exact (List.cons.inj this).1
  · exfalso
    have hl := congrArg List.length hj
    rw [h2 a, h3' b] at hl
    split at hl <;> cases hl
  · exfalso
    have hl := congrArg List.length hj
    rw [h3 a, h2' b] at hl
    split at hl <;> cases hl
  · refine ⟨⟨fun h => absurd h b, fun h => absurd h a⟩, fun h => absurd h a, fun _ => ?_⟩
    rw [h3 a, h3' b] at hj
    cases hc : (compare d e).isLE <;> cases hc' : (compare (ρ.date d) (ρ.date e)).isLE
    · rfl
    · exfalso
      rw [hc, hc'] at hj
      exact hne (List.cons.inj (congrArg TransactionPostings.posts (List.cons.inj hj).1)).1
    · exfalso
      rw [hc, hc'] at hj
      exact hne (List.cons.inj (congrArg TransactionPostings.posts (List.cons.inj hj).1)).1.symm
    · rfl

omit hh in
theorem softMatch_probe {a b : Str} {x y : Amount} {ls ls' ts ts' : List Str} : SoftMatch (probe a x ls ts) (probe b y ls' ts') ↔
    (unknownTag ∈ ts ∨ unknownTag ∈ ts' ∨ a = b) ∧ SameAmount x y := by
  unfold SoftMatch UnknownAccount
  rw [mem_probe, mem_probe]
  refine and_congr Iff.rfl ?_
  show (SameAmount x y ∧ True ∧ True) ∧ True ↔ _
  rw [and_true, and_true, and_true]

omit hh in
theorem softMatch_probe' {a b : Str} {x y : Amount} {ls ls' ts ts' : List Str} : SoftMatch (ρ.post (probe a x ls ts)) (ρ.post (probe b y ls' ts')) ↔
    ((∃ t ∈ ts, ρ.tag t = unknownTag) ∨ (∃ t ∈ ts', ρ.tag t = unknownTag) ∨ ρ.account a = ρ.account b) ∧ SameAmount (ρ.amount x) (ρ.amount y) := by
  unfold SoftMatch UnknownAccount
  rw [mem_tags_post, mem_tags_post]
  simp only [mem_probe]
  refine and_congr Iff.rfl ?_
  show (SameAmount (ρ.amount x) (ρ.amount y) ∧ True ∧ True) ∧ True ↔ _
  rw [and_true, and_true, and_true]

/-- Two postings with fingerprints of their own. -/
theorem harmless_probe (d e : Date) (a b : Str) (x y : Amount) (ls ls' : List Str) :
    (ρ.date d = ρ.date e ∧ ρ.account a = ρ.account b ∧ SameAmount (ρ.amount x) (ρ.amount y) ↔ d = e ∧ a = b ∧ SameAmount x y) ∧
    (d = e ∧ a = b ∧ SameAmount x y → absorb (ρ.post (probe a x ls ["fp-a".toList])) (ρ.post (probe b y ls' ["fp-b".toList])) =
      ρ.post (absorb (probe a x ls ["fp-a".toList]) (probe b y ls' ["fp-b".toList]))) ∧
    (¬ (d = e ∧ a = b ∧ SameAmount x y) → (compare (ρ.date d) (ρ.date e)).isLE = (compare d e).isLE) := by
  have hf : IsFp "fp-a".toList := by decide +kernel
  have hg : IsFp "fp-b".toList := by decide +kernel
  have hne : "fp-a".toList ≠ "fp-b".toList := by decide +kernel
  have h1 : Fit (probe a x ls ["fp-a".toList]) := fit_probe hf (List.mem_singleton.2 rfl) fun t ht => by
    rw [List.mem_singleton.1 ht]; exact not_fp_cand hf
  have h2 : Fit (probe b y ls' ["fp-b".toList]) := fit_probe hg (List.mem_singleton.2 rfl) fun t ht => by
    rw [List.mem_singleton.1 ht]; exact not_fp_cand hg
  have h3 : ¬ SharesFp (probe a x ls ["fp-a".toList]) (probe b y ls' ["fp-b".toList]) := by
    rintro ⟨s, hs1, hs2⟩
    exact hne ((List.mem_singleton.1 (mem_probe.1 (mem_fps_iff.1 hs1).1)).symm.trans (List.mem_singleton.1 (mem_probe.1 (mem_fps_iff.1 hs2).1)))
  have k1 : SoftMatch (probe a x ls ["fp-a".toList]) (probe b y ls' ["fp-b".toList]) ↔ a = b ∧ SameAmount x y := by
    rw [softMatch_probe]
    refine and_congr ?_ Iff.rfl
    constructor
    · rintro (h | h | h)
      · exact absurd (List.mem_singleton.1 h) (by decide +kernel)
      · exact absurd (List.mem_singleton.1 h) (by decide +kernel)
      · exact h
    · exact fun h => .inr (.inr h)
  have k2 : SoftMatch (ρ.post (probe a x ls ["fp-a".toList])) (ρ.post (probe b y ls' ["fp-b".toList])) ↔
      ρ.account a = ρ.account b ∧ SameAmount (ρ.amount x) (ρ.amount y) := by
    rw [softMatch_probe']
    refine and_congr ?_ Iff.rfl
    have hu : ∀ f, IsFp f → ρ.tag f ≠ unknownTag := fun f hf he => not_fp_unknown (he ▸ (harmless_fp hh f).2 hf)
    constructor
    · rintro (⟨t, ht, he⟩ | ⟨t, ht, he⟩ | h)
      · rw [List.mem_singleton.1 ht] at he
        exact absurd he (hu _ hf)
      · rw [List.mem_singleton.1 ht] at he
        exact absurd he (hu _ hg)
      · exact h
    · exact fun h => .inr (.inr h)
  have h := harmless_two hh (d := d) (e := e) h1 h2 h3
  rw [k1, k2] at h
  exact h

omit hh in
theorem sameAmount_refl (x : Amount) : SameAmount x x := ⟨rfl, rfl⟩

theorem harmless_account (a b : Str) (h : ρ.account a = ρ.account b) : a = b :=
  ((harmless_probe hh default default a b default default [] []).1.1 ⟨rfl, h, sameAmount_refl _⟩).2.1

theorem harmless_unknown (t : Str) : ρ.tag t = unknownTag ↔ t = unknownTag := by
  by_cases hf : IsFp t
  · constructor
    · intro h
      exact absurd ((harmless_fp hh t).2 hf) (h ▸ not_fp_unknown)
    · intro h
      exact absurd hf (h ▸ not_fp_unknown)
  by_cases hc : IsCand t
  · constructor
    · intro h
      exact absurd ((harmless_cand hh t).2 hc) (h ▸ not_cand_unknown)
    · intro h
      exact absurd hc (h ▸ not_cand_unknown)
  have hfa : IsFp "fp-a".toList := by decide +kernel
  have hfb : IsFp "fp-b".toList := by decide +kernel
  have hne : "fp-a".toList ≠ "fp-b".toList := by decide +kernel
  have hab : ([] : Str) ≠ "a".toList := by decide +kernel
  have h1 : Fit (probe [] default [] ["fp-a".toList, t]) := fit_probe hfa (List.mem_cons_self ..) fun s hs => by
    rcases List.mem_cons.1 hs with rfl | hs
    · exact not_fp_cand hfa
    · rw [List.mem_singleton.1 hs]; exact hc
  have h2 : Fit (probe "a".toList default [] ["fp-b".toList]) := fit_probe hfb (List.mem_singleton.2 rfl) fun s hs => by
    rw [List.mem_singleton.1 hs]; exact not_fp_cand hfb
  have h3 : ¬ SharesFp (probe [] default [] ["fp-a".toList, t]) (probe "a".toList default [] ["fp-b".toList]) := by
    rintro ⟨s, hs1, hs2⟩
    have e2 := List.mem_singleton.1 (mem_probe.1 (mem_fps_iff.1 hs2).1)
    rcases List.mem_cons.1 (mem_probe.1 (mem_fps_iff.1 hs1).1) with e1 | e1
    · exact hne (e1.symm.trans e2)
    · rw [← List.mem_singleton.1 e1] at hf
      exact hf (mem_fps_iff.1 hs1).2
  have h := (harmless_two hh (d := default) (e := default) h1 h2 h3).1
  rw [softMatch_probe, softMatch_probe'] at h
  have hu : ∀ f, IsFp f → ρ.tag f ≠ unknownTag := fun f hf he => not_fp_unknown (he ▸ (harmless_fp hh f).2 hf)
  constructor
  · intro ht
    rcases (h.1 ⟨rfl, .inl ⟨t, by simp, ht⟩, sameAmount_refl _⟩).2.1 with h | h | h
    · rcases List.mem_cons.1 h with h | h
      · exact absurd hfa (h ▸ not_fp_unknown)
      · exact (List.mem_singleton.1 h).symm
    · exact absurd hfb (List.mem_singleton.1 h ▸ not_fp_unknown)
    · exact absurd h hab
  · intro ht
    rcases (h.2 ⟨rfl, .inl (by simp [ht]), sameAmount_refl _⟩).2.1 with ⟨s, hs, he⟩ | ⟨s, hs, he⟩ | h
    · rcases List.mem_cons.1 hs with hs | hs
      · exact absurd he (hu _ (hs ▸ hfa))
      · rw [← List.mem_singleton.1 hs]
        exact he
    · rw [List.mem_singleton.1 hs] at he
      exact absurd he (hu _ hfb)
    · exact absurd (harmless_account hh _ _ h) hab

theorem harmless_date_eq (d e : Date) : ρ.date d = ρ.date e ↔ d = e := by
  constructor
  · exact fun h => ((harmless_probe hh d e [] [] default default [] []).1.1 ⟨h, rfl, sameAmount_refl _⟩).1
  · exact fun h => congrArg _ h

theorem harmless_date (d e : Date) : compare (ρ.date d) (ρ.date e) = compare d e := by
  have hab : ([] : Str) ≠ "a".toList := by decide +kernel
  by_cases he : d = e
  · rw [he, Std.LawfulEqOrd.compare_eq_iff_eq.2 rfl, Std.LawfulEqOrd.compare_eq_iff_eq.2 rfl]
  · have h := (harmless_probe hh d e [] "a".toList default default [] []).2.2 fun h => hab h.2.1
    have h1 : compare d e ≠ .eq := fun h => he (Std.LawfulEqOrd.compare_eq_iff_eq.1 h)
    have h2 : compare (ρ.date d) (ρ.date e) ≠ .eq := fun h => he ((harmless_date_eq hh d e).1 (Std.LawfulEqOrd.compare_eq_iff_eq.1 h))
    revert h h1 h2
    cases compare d e <;> cases compare (ρ.date d) (ρ.date e) <;> simp

theorem harmless_line (a b : Str) (h : ρ.line a = ρ.line b) : a = b := by
  apply Classical.byContradiction
  intro hne
  have h1 := (harmless_probe hh default default [] [] default default [a] [b]).2.1 ⟨rfl, rfl, sameAmount_refl _⟩
  have h2 := congrArg (fun p => p.comment.lines.length) h1
  have e1 : (absorb (ρ.post (probe [] default [a] ["fp-a".toList])) (ρ.post (probe [] default [b] ["fp-b".toList]))).comment.lines =
      [ρ.line a] ++ ([ρ.line b].filter fun l => l ∉ [ρ.line a]).eraseDups := rfl
  have e2 : (ρ.post (absorb (probe [] default [a] ["fp-a".toList]) (probe [] default [b] ["fp-b".toList]))).comment.lines =
      ([a] ++ ([b].filter fun l => l ∉ [a]).eraseDups).map ρ.line := rfl
  simp only [e1, e2] at h2
  rw [List.filter_cons_of_neg (by simp [h]), List.filter_cons_of_pos (by simpa using fun h => hne h.symm)] at h2
  cases h2

theorem harmless_faithful : ρ.Faithful where
  account := harmless_account hh
  commodity := fun c c' h =>
    ((harmless_probe hh default default [] [] ⟨default, c⟩ ⟨default, c'⟩ [] []).1.1 ⟨rfl, rfl, rfl, h⟩).2.2.2
  quantity := fun a b =>
    ⟨fun h => ((harmless_probe hh default default [] [] ⟨a, default⟩ ⟨b, default⟩ [] []).1.1 ⟨rfl, rfl, h, rfl⟩).2.2.1,
      fun h => ((harmless_probe hh default default [] [] ⟨a, default⟩ ⟨b, default⟩ [] []).1.2 ⟨rfl, rfl, h, rfl⟩).2.2.1⟩
  date := harmless_date hh
  tag := harmless_tag hh
  fingerprint := harmless_fp hh
  candidate := harmless_cand hh
  unknown := harmless_unknown hh
  line := harmless_line hh

end

end Verif
