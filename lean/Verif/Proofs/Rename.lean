import Verif.Spec.Rename
import Verif.Proofs.Relabel
import Verif.Proofs.Edits

/-!
# Proofs for C102: merging commutes with writing everything in another way
-/

namespace Verif
open Spec Spec.Book

theorem eraseDups_map {f : Str → Str} (hf : ∀ a b, f a = f b → a = b) (l : List Str) : (l.map f).eraseDups = l.eraseDups.map f := by
  have key : ∀ n, ∀ l : List Str, l.length ≤ n → (l.map f).eraseDups = l.eraseDups.map f := by
    intro n
    induction n with
    | zero =>
      intro l hl
      rw [List.length_eq_zero_iff.1 (Nat.le_zero.1 hl)]
      rfl
    | succ n ih =>
      intro l hl
      cases l with
      | nil => rfl
      | cons a l =>
        rw [List.map_cons, List.eraseDups_cons, List.eraseDups_cons, List.map_cons, List.filter_map]
        congr 1
        have hc : ((fun b => !b == f a) ∘ f) = fun b => !b == a := by
          funext b
          simp only [Function.comp_apply]
          congr 1
          rw [Bool.eq_iff_iff, beq_iff_eq, beq_iff_eq]
          exact ⟨hf b a, congrArg f⟩
        rw [hc]
        exact ih _ (Nat.le_trans (List.length_filter_le _ _) (Nat.le_of_succ_le_succ hl))
  exact key l.length l (Nat.le_refl _)

section
variable {ρ : Renaming}

theorem mem_tags_post {p : PostingInternal} {t : Str} : t ∈ tagsOf (ρ.post p) ↔ ∃ s ∈ tagsOf p, ρ.tag s = t := by
  show t ∈ Std.ExtTreeSet.ofList (p.comment.tags.toList.map ρ.tag) compare ↔ _
  rw [Std.ExtTreeSet.mem_ofList, List.contains_iff_mem, List.mem_map]
  simp only [Std.ExtTreeSet.mem_toList]

theorem mem_fps_iff {p : PostingInternal} {f : Str} : f ∈ fps p ↔ f ∈ tagsOf p ∧ IsFp f := by
  unfold fps
  rw [List.mem_filter, Std.ExtTreeSet.mem_toList, decide_eq_true_iff]

variable (h : ρ.Faithful)
include h

theorem mem_fps_post {p : PostingInternal} {f : Str} : f ∈ fps (ρ.post p) ↔ ∃ s ∈ fps p, ρ.tag s = f := by
  rw [mem_fps_iff, mem_tags_post]
  constructor
  · rintro ⟨⟨s, hs, rfl⟩, hf⟩
    exact ⟨s, mem_fps_iff.2 ⟨hs, (h.fingerprint s).1 hf⟩, rfl⟩
  · rintro ⟨s, hs, rfl⟩
    obtain ⟨h1, h2⟩ := mem_fps_iff.1 hs
    exact ⟨⟨s, h1, rfl⟩, (h.fingerprint s).2 h2⟩

theorem sharesFp_post {p q : PostingInternal} : SharesFp (ρ.post p) (ρ.post q) ↔ SharesFp p q := by
  constructor
  · rintro ⟨f, h1, h2⟩
    obtain ⟨s, hs, rfl⟩ := (mem_fps_post h).1 h1
    obtain ⟨s', hs', he⟩ := (mem_fps_post h).1 h2
    have := h.tag _ _ (mem_fps_iff.1 hs').2 (mem_fps_iff.1 hs).2 he
    subst this
    exact ⟨s', hs, hs'⟩
  · rintro ⟨f, h1, h2⟩
    exact ⟨ρ.tag f, (mem_fps_post h).2 ⟨f, h1, rfl⟩, (mem_fps_post h).2 ⟨f, h2, rfl⟩⟩

theorem fps_post_nil {p : PostingInternal} : fps (ρ.post p) = [] ↔ fps p = [] := by
  rw [List.eq_nil_iff_forall_not_mem, List.eq_nil_iff_forall_not_mem]
  constructor
  · intro hx f hf
    exact hx _ ((mem_fps_post h).2 ⟨f, hf, rfl⟩)
  · intro hx f hf
    obtain ⟨s, hs, _⟩ := (mem_fps_post h).1 hf
    exact hx s hs

theorem unknown_post {p : PostingInternal} : UnknownAccount (ρ.post p) ↔ UnknownAccount p := by
  unfold UnknownAccount
  rw [mem_tags_post]
  constructor
  · rintro ⟨s, hs, he⟩
    rwa [(h.unknown s).1 he] at hs
  · intro hx
    exact ⟨_, hx, (h.unknown _).2 rfl⟩

theorem sameAmount_ren {a b : Amount} : SameAmount (ρ.amount a) (ρ.amount b) ↔ SameAmount a b := by
  unfold SameAmount
  show Spec.value (ρ.quantity _) = Spec.value (ρ.quantity _) ∧ ρ.commodity _ = ρ.commodity _ ↔ _
  rw [h.quantity]
  exact and_congr_right fun _ => ⟨h.commodity _ _, congrArg _⟩

theorem samePrice_ren {a b : Price} : SamePrice (ρ.price a) (ρ.price b) ↔ SamePrice a b := by
  cases a <;> cases b
  · exact sameAmount_ren h
  · exact Iff.rfl
  · exact Iff.rfl
  · exact sameAmount_ren h

omit h in
theorem optRel_map {α : Type} {R : α → α → Prop} {f : α → α} (hf : ∀ a b, R (f a) (f b) ↔ R a b) (x y : Option α) :
    OptRel R (x.map f) (y.map f) ↔ OptRel R x y := by
  cases x <;> cases y
  · exact Iff.rfl
  · exact Iff.rfl
  · exact Iff.rfl
  · exact hf _ _

theorem samePostingAmount_ren {a b : PostingAmount} : SamePostingAmount (ρ.postingAmount a) (ρ.postingAmount b) ↔ SamePostingAmount a b := by
  unfold SamePostingAmount
  show SameAmount (ρ.amount _) (ρ.amount _) ∧ OptRel SamePrice (Option.map ρ.price _) (Option.map ρ.price _) ∧
    OptRel SamePrice (Option.map ρ.price _) (Option.map ρ.price _) ↔ _
  rw [sameAmount_ren h, optRel_map (fun _ _ => samePrice_ren h), optRel_map (fun _ _ => samePrice_ren h)]

theorem balancesAgree_ren {a b : Option Balance} : BalancesAgree (a.map ρ.balance) (b.map ρ.balance) ↔ BalancesAgree a b := by
  cases a with
  | none => cases b <;> exact Iff.rfl
  | some a =>
    cases b with
    | none => exact Iff.rfl
    | some b =>
      cases a <;> cases b
      · exact Iff.rfl
      · exact Iff.rfl
      · exact Iff.rfl
      · exact sameAmount_ren h

theorem softMatch_post {p q : PostingInternal} : SoftMatch (ρ.post p) (ρ.post q) ↔ SoftMatch p q := by
  unfold SoftMatch
  rw [unknown_post h, unknown_post h]
  refine and_congr (or_congr_right (or_congr_right ?_)) (and_congr (optRel_map (fun _ _ => samePostingAmount_ren h) _ _) (balancesAgree_ren h))
  exact ⟨h.account _ _, congrArg _⟩

theorem absorb_post (d s : PostingInternal) : ρ.post (absorb d s) = absorb (ρ.post d) (ρ.post s) := by
  have hu1 := unknown_post h (p := d)
  have hu2 := unknown_post h (p := s)
  have hraw : (ρ.post (absorb d s)).raw = (absorb (ρ.post d) (ρ.post s)).raw := by
    unfold absorb
    simp only [hu1, hu2]
    have hb : Option.map ρ.balance (d.raw.balance.or s.raw.balance) = (Option.map ρ.balance d.raw.balance).or (Option.map ρ.balance s.raw.balance) := by
      cases d.raw.balance <;> rfl
    simp only [Renaming.post, hb, apply_ite ρ.account]
  have hlines : (ρ.post (absorb d s)).comment.lines = (absorb (ρ.post d) (ρ.post s)).comment.lines := by
    show (d.comment.lines ++ _).map ρ.line = d.comment.lines.map ρ.line ++ ((s.comment.lines.map ρ.line).filter _).eraseDups
    rw [List.map_append, List.filter_map, eraseDups_map h.line]
    congr 3
    apply List.filter_congr
    intro l _
    rw [Function.comp_apply, decide_eq_decide, not_iff_not]
    show _ ↔ ρ.line l ∈ d.comment.lines.map ρ.line
    rw [List.mem_map]
    exact ⟨fun hl => ⟨l, hl, rfl⟩, fun ⟨l', hl', he⟩ => by rwa [← h.line _ _ he]⟩
  have htags : (ρ.post (absorb d s)).comment.tags = (absorb (ρ.post d) (ρ.post s)).comment.tags := by
    apply Std.ExtTreeSet.ext_mem
    intro t
    show t ∈ tagsOf (ρ.post (absorb d s)) ↔ t ∈ mergedTags (tagsOf (ρ.post d)) (tagsOf (ρ.post s))
    rw [mem_tags_post, mem_mergedTags_iff, mem_tags_post, mem_tags_post]
    have hu1' : unknownTag ∈ tagsOf (ρ.post d) ↔ unknownTag ∈ tagsOf d := hu1
    have hu2' : unknownTag ∈ tagsOf (ρ.post s) ↔ unknownTag ∈ tagsOf s := hu2
    rw [hu1', hu2']
    constructor
    · rintro ⟨s', hs', rfl⟩
      obtain ⟨h1, h2⟩ := mem_mergedTags_iff.1 (show s' ∈ mergedTags d.comment.tags s.comment.tags from hs')
      refine ⟨h1.imp (fun hx => ⟨s', hx, rfl⟩) (fun hx => ⟨s', hx, rfl⟩), fun he => h2 ((h.unknown s').1 he)⟩
    · rintro ⟨⟨s', hs', rfl⟩ | ⟨s', hs', rfl⟩, h2⟩
      · exact ⟨s', mem_mergedTags_iff.2 ⟨.inl hs', fun he => h2 ((h.unknown s').2 he)⟩, rfl⟩
      · exact ⟨s', mem_mergedTags_iff.2 ⟨.inr hs', fun he => h2 ((h.unknown s').2 he)⟩, rfl⟩
  have hvals : (ρ.post (absorb d s)).comment.valueTags = (absorb (ρ.post d) (ρ.post s)).comment.valueTags := by
    apply Std.ExtTreeMap.ext_getElem?
    intro k
    show ((d.comment.valueTags ∪ s.comment.valueTags).map ρ.value)[k]? = (d.comment.valueTags.map ρ.value ∪ s.comment.valueTags.map ρ.value)[k]?
    rw [Std.ExtTreeMap.getElem?_map, Std.ExtTreeMap.getElem?_union, Std.ExtTreeMap.getElem?_union, Std.ExtTreeMap.getElem?_map, Std.ExtTreeMap.getElem?_map]
    cases s.comment.valueTags[k]? <;> rfl
  generalize hx : ρ.post (absorb d s) = x at hraw hlines htags hvals
  generalize hy : absorb (ρ.post d) (ρ.post s) = y at hraw hlines htags hvals
  obtain ⟨xr, xl, xt, xv⟩ := x
  obtain ⟨yr, yl, yt, yv⟩ := y
  simp only at hraw hlines htags hvals
  rw [hraw, hlines, htags, hvals]

theorem date_inj {a b : Date} : ρ.date a = ρ.date b ↔ a = b := by
  rw [← Std.LawfulEqOrd.compare_eq_iff_eq (a := ρ.date a), h.date, Std.LawfulEqOrd.compare_eq_iff_eq]

end

/-! ### Books -/

/-- The record, written in the other way. -/
def Spec.Renaming.rec_ (ρ : Renaming) (r : Rec) : Rec := ⟨r.trn, ρ.date r.date, ρ.post r.post⟩

/-- The book, written in the other way. -/
def Spec.Renaming.book (ρ : Renaming) (J : Book) : Book := ⟨J.hdrs.map ρ.header, J.recs.map ρ.rec_⟩

section
variable {ρ : Renaming}

theorem where_book (J : Book) {P Q : Rec → Bool} (hPQ : ∀ r, P (ρ.rec_ r) = Q r) : (ρ.book J).where_ P = J.where_ Q := by
  unfold Spec.Book.where_ Renaming.book
  simp only [List.length_map, List.getElem?_map]
  apply List.filter_congr
  intro i _
  cases J.recs[i]? with
  | none => rfl
  | some r => exact hPQ r

variable (h : ρ.Faithful)
include h

theorem verdict_book (J : Book) (d : Date) (p : PostingInternal) : (ρ.book J).verdict (ρ.date d) (ρ.post p) = J.verdict d p := by
  have h1 : (ρ.book J).fpHits (ρ.post p) = J.fpHits p := where_book J fun r => by
    rw [decide_eq_decide]
    exact sharesFp_post h
  have h2 : (ρ.book J).softHits (ρ.date d) (ρ.post p) = J.softHits d p := where_book J fun r => by
    rw [decide_eq_decide]
    exact and_congr (date_inj h) (softMatch_post h)
  unfold verdict
  rw [h1, h2]

theorem verdicts_book (J : Book) (t : TransactionPostings) : (ρ.book J).verdicts (ρ.trn t) = J.verdicts t := by
  unfold verdicts
  show (t.posts.map ρ.post).map _ = _
  rw [List.map_map]
  apply List.map_congr_left
  intro p _
  exact verdict_book h J _ p

theorem undecided_book (J : Book) (t : TransactionPostings) : Undecided (ρ.book J) (ρ.trn t) ↔ Undecided J t := by
  unfold Undecided
  rw [verdicts_book h]
  show List.map _ _ = [] ∨ _ ↔ _
  rw [List.map_eq_nil_iff]

theorem dests_book (J : Book) (t : TransactionPostings) : (ρ.book J).dests (ρ.trn t) = J.dests t := by
  unfold dests
  rw [verdicts_book h]

omit h in
theorem trnOf_book (J : Book) : (ρ.book J).trnOf = J.trnOf := by
  funext i
  unfold trnOf Renaming.book
  simp only [List.getElem?_map, Option.map_map]
  rfl

theorem putPosts_book (K : Book) (k : Nat) (d : Date) (ps : List PostingInternal) (vs : List Verdict) :
    (ρ.book K).putPosts k (ρ.date d) (ps.map ρ.post) vs = ρ.book (K.putPosts k d ps vs) := by
  induction ps generalizing K vs with
  | nil => rfl
  | cons p ps ih =>
    cases vs with
    | nil => rfl
    | cons v vs =>
      have hp : (ρ.book K).putPost k (ρ.date d) (ρ.post p) v = ρ.book (K.putPost k d p v) := by
        cases v with
        | into i =>
          unfold putPost Renaming.book
          simp only [Book.mk.injEq, true_and]
          apply List.ext_getElem?
          intro j
          simp only [List.getElem?_modify, List.getElem?_map]
          cases K.recs[j]? with
          | none => rfl
          | some r =>
            simp only [Option.map_some]
            split
            · show some (⟨r.trn, ρ.date r.date, absorb (ρ.post r.post) (ρ.post p)⟩ : Rec) = some ⟨r.trn, ρ.date r.date, ρ.post (absorb r.post p)⟩
              rw [absorb_post h]
            · rfl
        | _ =>
          unfold putPost Renaming.book
          simp only [List.map_append]
          rfl
      show ((ρ.book K).putPost k (ρ.date d) (ρ.post p) v).putPosts k (ρ.date d) (ps.map ρ.post) vs = ρ.book ((K.putPost k d p v).putPosts k d ps vs)
      rw [hp, ih]

theorem putTrn_book (J K : Book) (t : TransactionPostings) : (ρ.book J).putTrn (ρ.book K) (ρ.trn t) = ρ.book (J.putTrn K t) := by
  unfold putTrn
  rw [dests_book h, verdicts_book h, trnOf_book]
  by_cases hu : Undecided J t
  · rw [if_pos hu, if_pos ((undecided_book h J t).2 hu)]
  · rw [if_neg hu, if_neg (fun hx => hu ((undecided_book h J t).1 hx))]
    cases (J.dests t).head?.bind J.trnOf with
    | some k => exact putPosts_book h K k _ _ _
    | none =>
      simp only
      have h1 : ({ ρ.book K with hdrs := (ρ.book K).hdrs ++ [(ρ.trn t).trn] } : Book) = ρ.book { K with hdrs := K.hdrs ++ [t.trn] } := by
        unfold Renaming.book Renaming.trn
        simp
      have h2 : (ρ.book K).hdrs.length = K.hdrs.length := by simp [Renaming.book]
      rw [h1, h2]
      exact putPosts_book h _ _ _ _ _

theorem after_book (J : Book) (ts : List TransactionPostings) : (ρ.book J).after (ts.map ρ.trn) = ρ.book (J.after ts) := by
  unfold Book.after
  have key : ∀ K : Book, (ts.map ρ.trn).foldl ((ρ.book J).putTrn ·) (ρ.book K) = ρ.book (ts.foldl (J.putTrn ·) K) := by
    induction ts with
    | nil => intro K; rfl
    | cons t ts ih =>
      intro K
      rw [List.map_cons, List.foldl_cons, List.foldl_cons, putTrn_book h, ih]
  exact key J

theorem bad_book (J : Book) (ts : List TransactionPostings) : (ρ.book J).Bad (ts.map ρ.trn) ↔ J.Bad ts := by
  have hp : allPosts (ts.map ρ.trn) = (allPosts ts).map ρ.post := by
    unfold allPosts
    rw [List.flatMap_map, List.map_flatMap]
    rfl
  have a1 : HasCandidate (ts.map ρ.trn) ↔ HasCandidate ts := by
    unfold HasCandidate
    rw [hp]
    simp only [List.mem_map, exists_exists_and_eq_and]
    refine exists_congr fun p => and_congr_right fun _ => ?_
    constructor
    · rintro ⟨t, ht, hc⟩
      obtain ⟨s, hs, rfl⟩ := mem_tags_post.1 ht
      exact ⟨s, hs, (h.candidate s).1 hc⟩
    · rintro ⟨t, ht, hc⟩
      exact ⟨ρ.tag t, mem_tags_post.2 ⟨t, ht, rfl⟩, (h.candidate t).2 hc⟩
  have a2 : LacksFingerprint (ts.map ρ.trn) ↔ LacksFingerprint ts := by
    unfold LacksFingerprint
    rw [hp]
    simp only [List.mem_map, exists_exists_and_eq_and, fps_post_nil h]
  have a3 : DuplicateFp (ts.map ρ.trn) ↔ DuplicateFp ts := by
    unfold DuplicateFp
    rw [hp, List.pairwise_map]
    simp only [sharesFp_post h]
  have h1 : (ρ.book J).Conflicting (ts.map ρ.trn) ↔ J.Conflicting ts := by
    unfold Conflicting
    simp only [List.mem_map, exists_exists_and_eq_and, verdicts_book h]
  have h2 : (ρ.book J).Split (ts.map ρ.trn) ↔ J.Split ts := by
    unfold Split
    simp only [List.mem_map, exists_exists_and_eq_and, undecided_book h, dests_book h, trnOf_book]
  have h3 : (ρ.book J).allDests (ts.map ρ.trn) = J.allDests ts := by
    unfold allDests
    rw [List.filter_map, List.flatMap_map]
    simp only [Function.comp_def, undecided_book h, dests_book h]
  unfold Bad SameDest
  rw [a1, a2, a3, h1, h2, h3]

theorem refused_book (J : Book) (gs : List (List TransactionPostings)) : Refused (ρ.book J) (gs.map (·.map ρ.trn)) ↔ Refused J gs := by
  induction gs generalizing J with
  | nil => exact Iff.rfl
  | cons ts gs ih =>
    show (ρ.book J).Bad (ts.map ρ.trn) ∨ Refused ((ρ.book J).after (ts.map ρ.trn)) _ ↔ _
    rw [bad_book h, after_book h, ih]
    exact Iff.rfl

theorem leftOver_book (J : Book) (gs : List (List TransactionPostings)) :
    leftOver (ρ.book J) (gs.map (·.map ρ.trn)) = (leftOver J gs).map ρ.trn := by
  induction gs generalizing J with
  | nil => rfl
  | cons ts gs ih =>
    show (ts.map ρ.trn).filter (fun t => decide (Undecided (ρ.book J) t)) ++ leftOver ((ρ.book J).after (ts.map ρ.trn)) (gs.map (·.map ρ.trn)) =
        (ts.filter (fun t => decide (Undecided J t)) ++ leftOver (J.after ts) gs).map ρ.trn
    rw [after_book h, ih, List.map_append, List.filter_map]
    simp only [Function.comp_def, undecided_book h]

theorem foldl_after_book (J : Book) (gs : List (List TransactionPostings)) :
    (gs.map (·.map ρ.trn)).foldl Book.after (ρ.book J) = ρ.book (gs.foldl Book.after J) := by
  induction gs generalizing J with
  | nil => rfl
  | cons ts gs ih =>
    rw [List.map_cons, List.foldl_cons, List.foldl_cons, after_book h, ih]

theorem journal_book (J : Book) : (ρ.book J).journal = J.journal.map ρ.trn := by
  have he : (ρ.book J).entries = J.entries.map ρ.trn := by
    unfold Spec.Book.entries Renaming.book
    apply List.ext_getElem?
    intro k
    simp only [List.getElem?_mapIdx, List.getElem?_map, Option.map_map]
    congr 1
    funext hd
    show (⟨_, _⟩ : TransactionPostings) = ⟨_, _⟩
    congr 1
    rw [List.filter_map, List.map_map, List.map_map]
    rfl
  rw [journal_eq, journal_eq, he]
  unfold byDate
  rw [List.map_mergeSort]
  intro a _ b _
  show _ = (compare (ρ.date (dateOf a)) (ρ.date (dateOf b))).isLE
  rw [h.date]

end

end Verif
