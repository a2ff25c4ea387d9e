import Verif.Props.TwoRuns
import Verif.Props.ImportMerge
import Verif.Props.Matching2

/-!
# C20: exactly when one run and two runs are the same
-/

namespace Verif
open Spec Spec.Book Ex

/-! ### Filed under the right dates, and the history -/

theorem prefix_getElem? {α : Type} {l l' : List α} (h : l <+: l') {i : Nat} {a : α} (hi : l[i]? = some a) : l'[i]? = some a := by
  obtain ⟨r, rfl⟩ := h
  rw [List.getElem?_append_left (by by_contra hn; rw [List.getElem?_eq_none (by omega)] at hi; cases hi)]
  exact hi

theorem filed_of_ext {J J' : Book} (h : Ext J J') (hf : Filed J') : Filed J := by
  intro r hr hdr hh
  obtain ⟨i, hi⟩ := List.mem_iff_getElem?.1 hr
  obtain ⟨r', hr', h1, h2, _⟩ := h.recs i r hi
  rw [← h2]
  refine hf r' (List.mem_of_getElem? hr') hdr ?_
  rw [h1]
  exact prefix_getElem? h.hdrs hh

theorem keepsDates_of_filed (J : Book) (hist : List (List TransactionPostings)) (hf : Filed (hist.foldl Book.step J)) :
    KeepsDates J hist := by
  induction hist generalizing J with
  | nil => trivial
  | cons ts hist ih =>
    refine ⟨?_, ih _ hf⟩
    intro hb t ht hu ⟨p, hp, hv⟩ i hi r hr hdr hh
    have hf' : Filed (J.step ts) := filed_of_ext (ext_steps _ hist) hf
    rw [show J.step ts = J.after ts from if_neg hb] at hf'
    have hg := good_iff.2 hb
    obtain ⟨c, hc⟩ := news_of_mem (J := J) J.hdrs.length ht hu
    have hm : (⟨J.home c t, dateOf t, p⟩ : Rec) ∈ (J.after ts).recs := by
      rw [after_recs]; exact List.mem_append_right _ (hc p hp hv)
    have hh' := hg.home_eq ht hu hi c
    rw [trnOf, show J.recs[i]? = some r from hr] at hh'
    have hh' : r.trn = J.home c t := by simpa using hh'
    exact (hf' _ hm hdr (by rw [← hh']; exact prefix_getElem? (ext_after J ts).hdrs hh)).symm

/-- A history keeps dates if and only if in the end every posting is filed under the date of its transaction. -/
theorem keepsDates_iff (hist : List (List TransactionPostings)) : KeepsDates Book.empty hist ↔ Filed (ofHistory hist) :=
  ⟨fun h => filed_history R_new hist (by intro r hr; cases hr) h, keepsDates_of_filed _ hist⟩

/-! ### A posting with a new fingerprint -/

/-- A transaction with one posting, which has one fingerprint, not known to the book. -/
structure Probe (L : Book) (t : TransactionPostings) (p : PostingInternal) (F : Str) : Prop where
  posts : t.posts = [p]
  fps : ∀ f, f ∈ fps p ↔ f = F
  noCand : ∀ x ∈ tagsOf p, ¬ IsCand x
  fresh : ∀ r ∈ L.recs, F ∉ Spec.fps r.post

namespace Probe
variable {L : Book} {t : TransactionPostings} {p : PostingInternal} {F : Str}

theorem fpHits (h : Probe L t p F) : L.fpHits p = [] := by
  rw [List.eq_nil_iff_forall_not_mem]
  intro i hi
  obtain ⟨r, hr, f, h1, h2⟩ := mem_fpHits.1 hi
  rw [h.fps] at h2
  subst h2
  exact h.fresh r (List.mem_of_getElem? hr) h1

theorem verdict (h : Probe L t p F) (d : Date) :
    L.verdict d p = match L.softHits d p with | [] => .new | [i] => .into i | is => .ambiguous is := by
  unfold Spec.Book.verdict
  rw [h.fpHits]
  rfl

theorem verdicts (h : Probe L t p F) : L.verdicts t = [L.verdict (dateOf t) p] := by
  unfold Spec.Book.verdicts
  rw [h.posts]
  rfl

theorem undecided (h : Probe L t p F) : Undecided L t ↔ (L.verdict (dateOf t) p).isAmbiguous = true := by
  unfold Undecided
  rw [h.posts, h.verdicts]
  simp

theorem dests (h : Probe L t p F) : L.dests t = (L.verdict (dateOf t) p).dest?.toList := by
  unfold Spec.Book.dests
  rw [h.verdicts]
  cases (L.verdict (dateOf t) p) <;> rfl

theorem good (h : Probe L t p F) : Good L [t] where
  ok := by
    intro q hq
    have : q = p := by simpa [allPosts, h.posts] using hq
    subst this
    refine ⟨h.noCand, ?_⟩
    have := (h.fps F).2 rfl
    intro he
    rw [he] at this
    cases this
  disjoint := by simp [allPosts, h.posts]
  noConflict := by
    rintro ⟨t', ht', hv⟩
    rw [List.mem_singleton] at ht'
    subst ht'
    rw [h.verdicts, List.mem_singleton, h.verdict] at hv
    split at hv <;> cases hv
  noSplit := by
    rintro ⟨t', ht', _, i, hi, j, hj, hne⟩
    rw [List.mem_singleton] at ht'
    subst ht'
    rw [h.dests, Option.mem_toList] at hi hj
    rw [hi] at hj
    cases hj
    exact hne rfl
  noSame := by
    unfold allDests
    by_cases hu : Undecided L t
    · simp [hu]
    · simp only [hu, not_false_eq_true, decide_true, List.filter_cons_of_pos, List.filter_nil, List.flatMap_cons, List.flatMap_nil,
        List.append_nil]
      rw [h.dests]
      cases (L.verdict (dateOf t) p).dest? <;> simp

/-- If the posting could be several, nothing happens. -/
theorem after_ambiguous (_ : Probe L t p F) (hu : Undecided L t) : L.after [t] = L := by
  simp [after, putTrn, hu]

/-- Otherwise the fingerprint is in the book, together with those of the posting that it goes into. -/
theorem after_has (h : Probe L t p F) (hu : ¬ Undecided L t) : ∃ r ∈ (L.after [t]).recs, F ∈ Spec.fps r.post ∧
    ∀ i s, L.verdict (dateOf t) p = .into i → L.recs[i]? = some s → ∀ f ∈ Spec.fps s.post, f ∈ Spec.fps r.post := by
  cases hv : L.verdict (dateOf t) p with
  | into i =>
    have hi := verdict_into_lt hv
    refine ⟨_, List.mem_of_getElem? (after_old L [t] hi), ?_, ?_⟩
    · exact mem_fps_foldl.2 (.inr ⟨p, mem_hits.2 ⟨t, by simp, hu, by rw [h.posts]; simp, hv⟩, (h.fps F).2 rfl⟩)
    · intro j s hj hs f hf
      cases hj
      rw [List.getElem?_eq_getElem hi] at hs
      cases hs
      exact mem_fps_foldl.2 (.inl hf)
  | _ =>
    obtain ⟨c, hc⟩ := news_of_mem (J := L) (ts := [t]) L.hdrs.length (by simp) hu
    refine ⟨⟨L.home c t, dateOf t, p⟩, ?_, (h.fps F).2 rfl, by intro i s hi; cases hi⟩
    rw [after_recs]
    exact List.mem_append_right _ (hc p (by rw [h.posts]; simp) (by rw [hv]; rfl))

/-- It is together only with those. -/
theorem after_only (h : Probe L t p F) {r : Rec} (hr : r ∈ (L.after [t]).recs) (hF : F ∈ Spec.fps r.post) {f : Str} (hf : f ∈ Spec.fps r.post)
    (hne : f ≠ F) : ∃ i s, L.verdict (dateOf t) p = .into i ∧ L.recs[i]? = some s ∧ f ∈ Spec.fps s.post := by
  rcases mem_after.1 hr with ⟨i, hi, rfl⟩ | hr
  · rcases mem_fps_foldl.1 hF with hF | ⟨q, hq, hF⟩
    · exact absurd hF (h.fresh _ (List.getElem_mem hi))
    · obtain ⟨t', ht', hu, hqt, hv⟩ := mem_hits.1 hq
      rw [List.mem_singleton] at ht'
      subst ht'
      rw [h.posts, List.mem_singleton] at hqt
      subst hqt
      refine ⟨i, _, hv, List.getElem?_eq_getElem hi, ?_⟩
      rcases mem_fps_foldl.1 hf with hf | ⟨q', hq', hf'⟩
      · exact hf
      · obtain ⟨t'', ht'', _, hqt, _⟩ := mem_hits.1 hq'
        rw [List.mem_singleton] at ht''
        subst ht''
        rw [h.posts, List.mem_singleton] at hqt
        subst hqt
        exact absurd ((h.fps f).1 hf') hne
  · obtain ⟨t', ht', _, hp, _⟩ := mem_news hr
    rw [List.mem_singleton] at ht'
    subst ht'
    rw [h.posts, List.mem_singleton] at hp
    rw [hp] at hf
    exact absurd ((h.fps f).1 hf) hne

end Probe

/-! ### Telling the two apart -/

theorem fresh_fp (l : List Str) : ∃ F, IsFp F ∧ F ∉ l := by
  have h : ∃ n, ∀ f ∈ l, f.length < n := by
    induction l with
    | nil => exact ⟨0, by simp⟩
    | cons a l ih =>
      obtain ⟨n, hn⟩ := ih
      refine ⟨max (a.length + 1) n, ?_⟩
      intro f hf
      rcases List.mem_cons.1 hf with rfl | hf
      · omega
      · have := hn f hf
        omega
  obtain ⟨n, hn⟩ := h
  refine ⟨fpPrefix ++ List.replicate n 'x', List.prefix_append _ _, fun h => ?_⟩
  have := hn _ h
  simp at this

/-- The posting again, with no tags but the fingerprint. -/
def copyOf (p : PostingInternal) (F : Str) : PostingInternal := ⟨p.raw, ⟨[], (∅ : TagSet).insert F, ∅⟩⟩

theorem copyOf_tags (p : PostingInternal) (F t : Str) : t ∈ tagsOf (copyOf p F) ↔ t = F := by
  show t ∈ (∅ : TagSet).insert F ↔ _
  rw [tag_mem_insert]
  simp

theorem copyOf_soft (p : PostingInternal) (F : Str) : SoftMatch p (copyOf p F) :=
  ⟨.inr (.inr rfl), ((postingMatches_iff _ _).1 (C09_reflexive p)).2⟩

theorem probe_copy {L : Book} {t : TransactionPostings} {p : PostingInternal} {F : Str} (ht : t.posts = [copyOf p F]) (hF : IsFp F)
    (h : ∀ r ∈ L.recs, F ∉ fps r.post) : Probe L t (copyOf p F) F where
  posts := ht
  fps := fun f => by
    rw [mem_fps, copyOf_tags]
    exact ⟨fun h => h.1, fun h => ⟨h, h ▸ hF⟩⟩
  noCand := fun x hx => by
    rw [copyOf_tags] at hx
    subst hx
    exact fp_not_cand hF
  fresh := h

/-- What is on file after reading a journal: each posting under the date of its transaction. -/
theorem mem_reread {js : List TransactionPostings} (hne : ∀ t ∈ js, t.posts ≠ []) (hw : (Book.empty.after js).WF) {r : Rec}
    (hr : r ∈ (Book.empty.after js).recs) : ∃ T ∈ js, r.date = dateOf T ∧ r.post ∈ T.posts := by
  have h1 : (r.date, r.post) ∈ (Book.empty.after js).dated := List.mem_map.2 ⟨r, hr, rfl⟩
  rw [← (grp_flat hw).mem_iff, grp_empty_after hne, List.mem_flatMap] at h1
  obtain ⟨g, hg, h1⟩ := h1
  obtain ⟨T, hT, rfl⟩ := List.mem_map.1 hg
  obtain ⟨q, hq, he⟩ := List.mem_map.1 (show (r.date, r.post) ∈ T.posts.map fun p => (dateOf T, p) from h1)
  obtain ⟨he1, he2⟩ := Prod.mk.inj he
  exact ⟨T, hT, he1.symm, he2 ▸ hq⟩

theorem not_alike {calls : History} (hf : ¬ Filed (ofHistory (inputs calls))) :
    ¬ CarriesOnAlike calls (ofHistory (inputs calls)).journal := by
  intro hall
  have hR := run_refines calls
  set J := ofHistory (inputs calls) with hJ
  have hw := hR.wf
  obtain ⟨m₀, hm₀, hR₀⟩ := reread hw (populated_ofHistory _) HashOrder.sorted
  set K := Book.empty.after J.journal with hK
  have hwK := hR₀.wf
  have hrun : run ((HashOrder.sorted, J.journal) :: []) = m₀ := by
    show (Merger.new.merge HashOrder.sorted _).2 = m₀
    rw [hm₀]
  have hKmem : ∀ s ∈ K.recs, ∃ T ∈ J.journal, s.date = dateOf T ∧ s.post ∈ T.posts :=
    fun s hs => mem_reread (journal_nonempty (populated_ofHistory _)) hwK hs
  -- a posting that is filed under another date
  obtain ⟨r, hr, hdr, hh, hd⟩ : ∃ r ∈ J.recs, ∃ hdr, J.hdrs[r.trn]? = some hdr ∧ r.date ≠ hdr.raw.date := by
    by_contra hn
    exact hf fun r hr hdr hh => by_contra fun hd => hn ⟨r, hr, hdr, hh, hd⟩
  obtain ⟨n, hn⟩ := List.mem_iff_getElem?.1 hr
  obtain ⟨f, hfr⟩ := List.exists_mem_of_ne_nil _ (hw.hasFp r hr)
  -- a posting like it with a new fingerprint
  obtain ⟨F, hF, hFl⟩ := fresh_fp (J.recs.flatMap fun r => fps r.post)
  have hfresh : ∀ s ∈ J.recs, F ∉ fps s.post := fun s hs h => hFl (List.mem_flatMap.2 ⟨s, hs, h⟩)
  have hfreshK : ∀ s ∈ K.recs, F ∉ fps s.post := by
    intro s hs h
    obtain ⟨T, hT, _, hp⟩ := hKmem s hs
    obtain ⟨i, r', hr', he, _⟩ := mem_journal ⟨hT, hp⟩
    rw [← he] at h
    exact hfresh r' (List.mem_of_getElem? hr') h
  have hfF : f ≠ F := fun h => hfresh r hr (h ▸ hfr)
  set p := copyOf r.post F with hp
  set t : TransactionPostings := ⟨{ hdr with raw := { hdr.raw with date := r.date } }, [p]⟩ with ht
  have hdt : dateOf t = r.date := rfl
  have PJ : Probe J t p F := probe_copy rfl hF hfresh
  have PK : Probe K t p F := probe_copy rfl hF hfreshK
  -- the posting is a candidate for one, not for the other
  have hsJ : n ∈ J.softHits (dateOf t) p := mem_softHits.2 ⟨r, hn, rfl, copyOf_soft _ _⟩
  have hsK : ∀ i ∈ K.softHits (dateOf t) p, ∀ s, K.recs[i]? = some s → ∀ g ∈ fps r.post, g ∉ fps s.post := by
    intro i hi s hs g hg hfs
    obtain ⟨s', hs', h1, _⟩ := mem_softHits.1 hi
    rw [hs] at hs'
    cases hs'
    obtain ⟨T, hT, h2, hpT⟩ := hKmem s (List.mem_of_getElem? hs)
    obtain ⟨j, r', hr', he, hh'⟩ := mem_journal ⟨hT, hpT⟩
    have := hw.unique j n r' r hr' hn ⟨g, by rw [he]; exact hfs, hg⟩
    subst this
    rw [hn] at hr'
    cases hr'
    rw [hh] at hh'
    cases hh'
    exact hd (by rw [← hdt, ← h1, h2])
  have hbad : ∀ {L : Book}, Probe L t p F → L.step [t] = L.after [t] := fun P => if_neg (good_iff.1 P.good)
  -- the journals afterwards
  have hjs : (J.after [t]).journal = (K.after [t]).journal := by
    have h1 : R (run (calls ++ [(HashOrder.sorted, [t])])) (J.after [t]) := by
      rw [← hbad PJ]
      have := run_refines (calls ++ [(HashOrder.sorted, [t])])
      unfold ofHistory inputs at this
      rw [List.map_append, List.foldl_append] at this
      exact this
    have h2 : R (run ((HashOrder.sorted, J.journal) :: [(HashOrder.sorted, [t])])) (K.after [t]) := by
      rw [← hbad PK]
      have := hR₀.step HashOrder.sorted [t]
      rw [← hrun] at this
      exact this
    have := (hall [(HashOrder.sorted, [t])] [(HashOrder.sorted, [t])] HashOrder.sorted HashOrder.sorted HashOrder.sorted [] rfl).2.2
    rw [h1.build, h2.build, Except.ok.injEq] at this
    exact this
  have hwJ' : (J.after [t]).WF := hbad PJ ▸ (hR.step HashOrder.sorted [t]).wf
  have hwK' : (K.after [t]).WF := hbad PK ▸ (hR₀.step HashOrder.sorted [t]).wf
  have hposts : ∀ q, (∃ s ∈ (J.after [t]).recs, s.post = q) ↔ ∃ s ∈ (K.after [t]).recs, s.post = q := by
    intro q
    have := mem_journal_posts hwJ' (p := q)
    rw [hjs, mem_journal_posts hwK'] at this
    simp only [List.mem_iff_getElem?]
    constructor
    · rintro ⟨s, ⟨i, hi⟩, rfl⟩
      obtain ⟨i, s', hi, he⟩ := this.2 ⟨i, s, hi, rfl⟩
      exact ⟨s', ⟨i, hi⟩, he⟩
    · rintro ⟨s, ⟨i, hi⟩, rfl⟩
      obtain ⟨i, s', hi, he⟩ := this.1 ⟨i, s, hi, rfl⟩
      exact ⟨s', ⟨i, hi⟩, he⟩
  by_cases huJ : Undecided J t
  · by_cases huK : Undecided K t
    · -- both hand it back; the candidates differ
      have hmJ := (hall [] [] HashOrder.sorted HashOrder.sorted HashOrder.sorted [t] rfl).2.1
      rw [List.append_nil, hrun] at hmJ
      obtain ⟨m₁, e1, _⟩ := merge_of_not_bad hR HashOrder.sorted (good_iff.1 PJ.good)
      obtain ⟨m₂, e2, _⟩ := merge_of_not_bad hR₀ HashOrder.sorted (good_iff.1 PK.good)
      have hb := hmJ _ _ _ (congrArg Prod.fst e1) (congrArg Prod.fst e2) (hR.build _)
      have hbk : ∀ {L : Book} {pick : Nat → Str}, Undecided L t →
          L.handedBack pick [t] = [⟨t.trn, [L.handBackPost pick (dateOf t) p]⟩] := by
        intro L pick hu
        have hu : decide (Undecided L t) = true := decide_eq_true hu
        unfold handedBack
        rw [show List.filter (fun t => decide (Undecided L t)) [t] = [t] from List.filter_cons_of_pos (p := fun t => decide (Undecided L t)) hu]
        rfl
      rw [hbk huJ, hbk huK, List.forall₂_cons] at hb
      obtain ⟨⟨_, hb⟩, _⟩ := hb
      rw [List.forall₂_cons] at hb
      obtain ⟨⟨p', named, named', hperm, hin, a1, a2⟩, _⟩ := hb
      have hamb : ∀ {L : Book}, Probe L t p F → Undecided L t → L.verdict (dateOf t) p = .ambiguous (L.softHits (dateOf t) p) := by
        intro L P hu
        rw [P.undecided] at hu
        cases hv : L.verdict (dateOf t) p with
        | ambiguous is => rw [(ambiguous_softHits hv).2.1]
        | _ => rw [hv] at hu; cases hu
      -- the tag that names our posting
      have hkey : ∀ g ∈ fps r.post, candPrefix ++ g ∉ tagsOf (K.handBackPost (pickFp HashOrder.sorted K) (dateOf t) p) := by
        intro g hg hmem
        rw [handBackPost, hamb PK huK] at hmem
        simp only at hmem
        rw [mem_annotate] at hmem
        rcases hmem with hmem | ⟨i, hi, he⟩
        · exact PK.noCand _ hmem (List.prefix_append _ _)
        · obtain ⟨s, hs, _⟩ := mem_softHits.1 hi
          have h1 := pickFp_mem (h := HashOrder.sorted) hwK hs
          have h2 : pickFp HashOrder.sorted K i = g := List.append_cancel_left he.symm
          rw [h2] at h1
          exact hsK i hi s hs g hg h1
      have hg := pickFp_mem (h := HashOrder.sorted) hw hn
      have hq : candPrefix ++ pickFp HashOrder.sorted J n ∈ tagsOf (J.handBackPost (pickFp HashOrder.sorted J) (dateOf t) p) := by
        rw [handBackPost, hamb PJ huJ]
        exact mem_annotate.2 (.inr ⟨n, hsJ, rfl⟩)
      obtain ⟨names, hn1, hn2⟩ := a1.tags
      obtain ⟨names', hn1', hn2'⟩ := a2.tags
      rcases (hn2 _).1 hq with h | ⟨g, hgn, he⟩
      · exact hkey _ hg ((hn2' _).2 (.inl h))
      · have he := List.append_cancel_left he
        rw [← he] at hgn
        obtain ⟨c, hc, hgc⟩ := forall₂_mem_left hn1.flip hgn
        have hcr : c = r.post := by
          obtain ⟨i, r', hr', rfl⟩ := (mem_journal_posts hw).1 (hin c hc)
          have := hw.unique i n r' r hr' hn ⟨_, hgc, hg⟩
          subst this
          rw [hn] at hr'
          cases hr'
          rfl
        subst hcr
        obtain ⟨g', hg', hgr⟩ := forall₂_mem_left hn1' (hperm.mem_iff.1 hc)
        exact hkey g' hgr ((hn2' _).2 (.inr ⟨g', hg', rfl⟩))
    · obtain ⟨s, hs, h1, _⟩ := PK.after_has huK
      obtain ⟨s', hs', he⟩ := (hposts s.post).2 ⟨s, hs, rfl⟩
      rw [PJ.after_ambiguous huJ] at hs'
      exact hfresh s' hs' (he ▸ h1)
  · have hv : J.verdict (dateOf t) p = .into n := by
      have hu := huJ
      rw [PJ.undecided, PJ.verdict] at hu
      rw [PJ.verdict]
      revert hu hsJ
      cases J.softHits (dateOf t) p with
      | nil => intro h; cases h
      | cons a l =>
        cases l with
        | nil => intro h _; rw [List.mem_singleton] at h; rw [h]
        | cons b l => intro _ h; exact absurd rfl h
    obtain ⟨s, hs, h1, h2⟩ := PJ.after_has huJ
    have h2 := h2 n r hv hn f hfr
    obtain ⟨s', hs', he⟩ := (hposts s.post).1 ⟨s, hs, rfl⟩
    rw [← he] at h1 h2
    obtain ⟨i, s'', hvi, hi, hff⟩ := PK.after_only hs' h1 h2 hfF
    refine hsK i ?_ s'' hi f hfr hff
    rw [PK.verdict] at hvi
    split at hvi
    · cases hvi
    · rename_i j hj
      cases hvi
      rw [hj]
      simp
    · cases hvi

/-- C20, exactly: one run and two runs through the written journal are the same, whatever comes later, if and only if no
posting was added to a transaction of another date. -/
theorem C20_exact (calls : History) (h : HashOrder) (js : List TransactionPostings) (hb : (run calls).build h = .ok js) :
    CarriesOnAlike calls js ↔ KeepsDates Book.empty (inputs calls) := by
  rw [build_iff] at hb
  subst hb
  rw [keepsDates_iff]
  exact ⟨fun h => by_contra fun hf => not_alike hf h, carriesOn_of_filed⟩

/-- The history of `C20_counterexample` does not keep dates. -/
example : ¬ KeepsDates Book.empty (inputs [(HashOrder.sorted, bankA), (HashOrder.sorted, late)]) := by
  intro h
  have h1 := ((C20_exact _ _ _ C20_counterexample.1).2 h [(HashOrder.sorted, bag)] [(HashOrder.sorted, bag)] HashOrder.sorted HashOrder.sorted
    HashOrder.sorted [] rfl).2.2
  have h2 := C20_counterexample.2.1
  have h3 := C20_counterexample.2.2
  rw [show run ([(HashOrder.sorted, bankA), (HashOrder.sorted, late)] ++ [(HashOrder.sorted, bag)]) =
    run [(HashOrder.sorted, bankA), (HashOrder.sorted, late), (HashOrder.sorted, bag)] from rfl, h2, h3] at h1
  exact absurd (congrArg List.length (Except.ok.inj h1)) (by decide)

end Verif
