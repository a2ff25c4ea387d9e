import Verif.Props.Twice
import Verif.Props.OrderCmd

/-!
# C91: the same payments from two sources, as the `merge` command writes them
-/

namespace Verif
open Spec Spec.Book Comment
open TwoSrc

theorem annotated_nil {p q : PostingInternal} (h : Annotated [] p q) : q = p := by
  obtain ⟨h1, h2, h3, names, h4, h5⟩ := h
  cases h4
  have h6 : q.comment.tags = p.comment.tags := Std.ExtTreeSet.ext_mem fun t => by
    have := h5 t
    simpa [tagsOf] using this
  cases p; cases q
  simp only at h1 h2 h3 h6
  subst h1
  congr 1
  rename_i c _ c'
  cases c; cases c'
  simp only at h2 h3 h6
  subst h2 h3 h6
  rfl

/-- What the book of the first source hands back is what `AsksWhich` says. -/
theorem TwoSrc.Ctx.asks {A B : List TransactionPostings} {M : TransactionPostings → TransactionPostings → Prop} (hc : Ctx A B M)
    {u w : TransactionPostings} (hu : u ∈ B) (h : HandedBackBy (Book.empty.after A) u w) : AsksWhich A u w := by
  refine ⟨h.1.1, forall₂_imp_mem h.2 fun q q' hq _ ha => ?_⟩
  have hs : (Book.empty.after A).softMatches (dateOf u) q = rivals A (dateOf u) q := by
    unfold softMatches
    rw [hc.alone.recs_eq, softMatches_rivals]
  have hun : (Book.empty.after A).Unclear (dateOf u) q ↔ 2 ≤ (rivals A (dateOf u) q).length := by
    unfold Spec.Book.Unclear
    rw [hs]
    exact ⟨fun h => h.2, fun h => ⟨hc.nofp hu hq, h⟩⟩
  rw [hs] at ha
  constructor
  · intro h2
    rwa [if_pos (hun.2 h2)] at ha
  · intro h2
    rw [if_neg (fun hx => absurd (hun.1 hx) (by omega))] at ha
    exact annotated_nil ha

open Classical in
/-- C91, the `merge` command: if the files read are of two sources, each of which would be accepted on its own, and no operation fails, then
* if there is a file for unmerged transactions, or none can be mistaken, the run succeeds and writes the transactions that can be mistaken, each with the
  names of all postings that it may be, and then the journal as in `C91_twice`;
* otherwise it fails and writes nothing. -/
theorem C91_commands (sys : Sys) (ho : Nat → HashOrder) (ins : List FileSpec) (un : Option FileSpec) (out : FileSpec) (A B : List TransactionPostings)
    (M : TransactionPostings → TransactionPostings → Prop) (hf : ∀ n, sys.fault n = none) (hab : mergeInputs sys false ins = some [A, B])
    (hA : ¬ Refused Book.empty [A]) (hB : ¬ Refused Book.empty [B]) (ht : TwoSources A B M) :
    ∃ res w, MergeCmd.run sys ho ⟨ins, un, out⟩ World.start = (res, w) ∧
      ((un ≠ none ∨ ∀ u ∈ B, ∀ t ∈ A, M t u → Unmistaken A t u) → res = .ok () ∧ ∃ ws old,
        List.Forall₂ (AsksWhich A) (B.filter fun u => ∃ t ∈ A, M t u ∧ ¬ Unmistaken A t u) ws ∧
        List.Forall₂ (JoinedBy A B M) A old ∧
        w.log = wholeWrites sys (mergePlan sys HashOrder.sorted ⟨ins, un, out⟩ ws ((byDate (old ++ B.filter fun u => ∀ t ∈ A, ¬ M t u)).map unsourced))) ∧
      (¬ (un ≠ none ∨ ∀ u ∈ B, ∀ t ∈ A, M t u → Unmistaken A t u) → (∃ err, res = .error err) ∧ w.log = []) := by
  have hc : Ctx A B M := ⟨ht, good_iff.2 fun hb => hA (.inl hb), good_iff.2 fun hb => hB (.inl hb)⟩
  have e : (B.filter fun t => Undecided (Book.empty.after A) t) = B.filter fun u => ∃ t ∈ A, M t u ∧ ¬ Unmistaken A t u := by
    apply List.filter_congr
    intro u hu
    rw [decide_eq_decide, hc.undecided_iff hu]
  have eA : (A.filter fun t => Undecided Book.empty t) = [] := by
    rw [List.filter_eq_nil_iff]
    intro t ht hx
    exact hc.neA t ht (empty_undecided.1 (of_decide_eq_true hx))
  have hr : ¬ Refused Book.empty [A, B] := by
    rintro (hb | hb | hb)
    · exact hA (.inl hb)
    · exact good_iff.1 hc.good hb
    · exact hb
  have hl : leftOver Book.empty [A, B] = B.filter fun u => ∃ t ∈ A, M t u ∧ ¬ Unmistaken A t u := by
    rw [leftOver, leftOver, leftOver, eA, List.nil_append, List.append_nil, e]
  have hlnil : leftOver Book.empty [A, B] = [] ↔ ∀ u ∈ B, ∀ t ∈ A, M t u → Unmistaken A t u := by
    rw [hl, List.filter_eq_nil_iff]
    constructor
    · intro h u hu t ht hm
      by_contra hx
      exact h u hu (decide_eq_true ⟨t, ht, hm, hx⟩)
    · intro h u hu hx
      obtain ⟨t, ht, hm, hn⟩ := of_decide_eq_true hx
      exact hn (h u hu t ht hm)
  rw [← hlnil]
  rcases hrun : MergeCmd.run sys ho ⟨ins, un, out⟩ World.start with ⟨res, w⟩
  refine ⟨res, w, rfl, ?_, ?_⟩
  · intro hu
    have hok := C25_succeeds_otherwise sys ho ⟨ins, un, out⟩ _ hf hab hr hu.symm
    rw [hrun] at hok
    simp only at hok
    subst hok
    refine ⟨rfl, ?_⟩
    obtain ⟨gs', u, h, e1, hb, hu, hn, hlog⟩ := (mergeCmd_sat sys ho ⟨ins, un, out⟩).ok hrun
    have e1 : mergeInputs sys false ins = some gs' := e1
    rw [hab] at e1
    cases e1
    obtain ⟨old, ho', he⟩ := hc.entries
    obtain ⟨u₁, u', rfl, h1, u₂, u₃, rfl, h2, rfl⟩ := hu
    rw [eA] at h1
    cases h1
    rw [e] at h2
    rw [List.nil_append, List.append_nil] at hlog
    refine ⟨u₂, old, forall₂_imp_mem h2 (fun a b ha _ hx => hc.asks (List.mem_filter.1 ha).1 hx), ho', ?_⟩
    have hj : (bookAfter [A, B]).journal = byDate (old ++ B.filter fun u => ∀ t ∈ A, ¬ M t u) := by
      show ((Book.empty.after A).after B).journal = _
      rw [journal_eq, he]
    rw [hlog, hj]
    unfold mergePlan
    simp only [intoLedger_order h HashOrder.sorted]
  · intro hu
    rw [not_or, not_not] at hu
    obtain ⟨k1, k2, _⟩ := C25_fails_before_writing sys ho ⟨ins, un, out⟩ res w hrun (.inr ⟨_, hab, .inr ⟨hu.2, hu.1⟩⟩)
    exact ⟨k1, k2⟩

/-! ### An example: the sources of `Props/Twice`, with files -/

/-- The one source is the file `a`, the other is the file `b`. -/
noncomputable def paperSystem : Sys :=
  Ex.exactSystem (TransactionPostings.intoLedger HashOrder.sorted paper) (TransactionPostings.intoLedger HashOrder.sorted online)

set_option maxRecDepth 100000 in
theorem paper_simple : (∀ t ∈ paper, Simple t) ∧ ∀ t ∈ online, Simple t := by decide +kernel

theorem paper_inputs : mergeInputs paperSystem false [Ex.file "a", Ex.file "b"] =
    some [paper.map (sourced "a".toList), online.map (sourced "b".toList)] := by
  have h1 := (exact_ledger (TransactionPostings.intoLedger HashOrder.sorted paper) (TransactionPostings.intoLedger HashOrder.sorted online))
  simp only [mergeInputs]
  unfold paperSystem
  simp only [(h1 _).1, (h1 _).2, Option.bind_some, C62_round_trip _ _ (fun t ht => (paper_simple.1 t ht).tidy),
    C62_round_trip _ _ (fun t ht => (paper_simple.2 t ht).tidy)]
  rw [groups_one_source _ _ ((Ex.file "a").display (Ex.exactSystem _ _)) _ (fun t ht => (paper_simple.1 t ht).source _),
    groups_one_source _ _ ((Ex.file "b").display (Ex.exactSystem _ _)) _ (fun t ht => (paper_simple.2 t ht).source _)]
  rfl

set_option maxRecDepth 100000 in
theorem paper_online_sourced : TwoSources (paper.map (sourced "a".toList)) (online.map (sourced "b".toList)) inBoth where
  nonempty := by decide +kernel
  fresh := by decide +kernel
  reports := by
    have h : ∀ t ∈ paper.map (sourced "a".toList), ∀ u ∈ online.map (sourced "b".toList), inBoth t u →
        dateOf t = dateOf u ∧ t.posts.length = u.posts.length ∧ ∀ x ∈ t.posts.zip u.posts, SoftMatch x.1 x.2 := by decide +kernel
    intro t ht u hu hm
    obtain ⟨h1, h2, h3⟩ := h t ht u hu hm
    exact ⟨h1, List.forall₂_iff_zip.2 ⟨h2, fun {a b} hab => h3 (a, b) hab⟩⟩
  left := by decide +kernel
  right := by decide +kernel
  others := by decide +kernel

set_option maxRecDepth 100000 in
/-- The hypotheses of `C91_commands` are met. With a file for unmerged transactions the run succeeds; without, it fails, as the soup may be the cake. -/
example (ho : Nat → HashOrder) : (∃ w, MergeCmd.run paperSystem ho ⟨[Ex.file "a", Ex.file "b"], some (Ex.file "u"), Ex.file "o"⟩ World.start = (.ok (), w)) ∧
    ∃ err w, MergeCmd.run paperSystem ho ⟨[Ex.file "a", Ex.file "b"], none, Ex.file "o"⟩ World.start = (.error err, w) ∧ w.log = [] := by
  have hA : ¬ Refused Book.empty [paper.map (sourced "a".toList)] := (not_refused_of_count (n := 0) (by decide +kernel)).1
  have hB : ¬ Refused Book.empty [online.map (sourced "b".toList)] := (not_refused_of_count (n := 0) (by decide +kernel)).1
  obtain ⟨res, w, h1, h2, _⟩ := C91_commands paperSystem ho _ (some (Ex.file "u")) (Ex.file "o") _ _ inBoth (fun _ => rfl) paper_inputs hA hB paper_online_sourced
  obtain ⟨res', w', h1', _, h2'⟩ := C91_commands paperSystem ho _ none (Ex.file "o") _ _ inBoth (fun _ => rfl) paper_inputs hA hB paper_online_sourced
  obtain ⟨rfl, _⟩ := h2 (.inl (by simp))
  obtain ⟨⟨err, rfl⟩, h3⟩ := h2' (by
    rintro (h | h)
    · exact h rfl
    · have key : ∃ u ∈ online.map (sourced "b".toList), ∃ t ∈ paper.map (sourced "a".toList), inBoth t u ∧ 
          ∃ t' ∈ paper.map (sourced "a".toList), dateOf t' = dateOf u ∧ ∃ r ∈ t'.posts, ∃ q ∈ u.posts.head?, SoftMatch r q ∧ t.posts.head? ≠ some r := by
        decide +kernel
      obtain ⟨u, hu, t, ht, hm, t', ht', hd, r, hr, q, hq, hs, hne⟩ := key
      have := h u hu t ht hm t' ht' hd r hr 0 q (by rw [← List.head?_eq_getElem?]; exact hq) hs
      rw [← List.head?_eq_getElem?] at this
      exact hne this)
  exact ⟨⟨w, h1⟩, err, w', h1', h3⟩

end Verif
