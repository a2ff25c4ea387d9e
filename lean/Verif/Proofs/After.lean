import Verif.Proofs.History

/-!
# The book after a merge call in closed form
-/

namespace Verif
open Spec Spec.Book

/-- The postings of a transaction that go into record `i`. -/
def Spec.Book.trnHits (J : Book) (t : TransactionPostings) (i : Nat) : List PostingInternal :=
  if Undecided J t then [] else t.posts.filter (fun p => J.verdict (dateOf t) p = .into i)

/-- The input postings that go into record `i`. -/
def Spec.Book.hits (J : Book) (ts : List TransactionPostings) (i : Nat) : List PostingInternal :=
  ts.flatMap (J.trnHits · i)

/-- The transaction of the book that a decided input transaction becomes part of; `c` is the number the next new
transaction gets. -/
def Spec.Book.home (J : Book) (c : Nat) (t : TransactionPostings) : Nat :=
  ((J.dests t).head?.bind J.trnOf).getD c

/-- Does a transaction start a new transaction in the book? -/
def Spec.Book.Fresh (J : Book) (t : TransactionPostings) : Prop := ¬ Undecided J t ∧ J.dests t = []
instance (J t) : Decidable (Spec.Book.Fresh J t) := by unfold Spec.Book.Fresh; infer_instance

/-- The records that a merge call adds; `c` is the number of transactions so far. -/
def Spec.Book.news (J : Book) (c : Nat) : List TransactionPostings → List Rec
  | [] => []
  | t :: ts =>
    (if Undecided J t then []
     else (t.posts.filter (fun p => (J.verdict (dateOf t) p).dest? = none)).map (⟨J.home c t, dateOf t, ·⟩)) ++
    news J (if J.Fresh t then c + 1 else c) ts

theorem head_trnOf_none {J : Book} {t : TransactionPostings} : (J.dests t).head?.bind J.trnOf = none ↔ J.dests t = [] := by
  cases hl : J.dests t with
  | nil => simp
  | cons i l =>
    have hi : i < J.recs.length := dests_lt (t := t) (by rw [hl]; simp)
    simp [trnOf, List.getElem?_eq_getElem hi]

theorem putPosts_recs (n k : Nat) (d : Date) (V : PostingInternal → Verdict) (ps : List PostingInternal) (J : Book)
    (hn : n ≤ J.recs.length) (hV : ∀ p ∈ ps, ∀ i, V p = .into i → i < n) :
    (∀ i < n, (J.putPosts k d ps (ps.map V)).recs[i]? = (J.recs[i]?).map
      (fun r => { r with post := (ps.filter (fun p => V p = .into i)).foldl absorb r.post })) ∧
    (J.putPosts k d ps (ps.map V)).recs.drop n =
      J.recs.drop n ++ (ps.filter (fun p => (V p).dest? = none)).map (⟨k, d, ·⟩) ∧
    n ≤ (J.putPosts k d ps (ps.map V)).recs.length := by
  induction ps generalizing J with
  | nil =>
    refine ⟨?_, ?_, hn⟩
    · intro i _; simp [Book.putPosts]
    · simp [Book.putPosts]
  | cons p ps ih =>
    rw [List.map_cons]
    simp only [Book.putPosts]
    have hV' : ∀ p ∈ ps, ∀ i, V p = .into i → i < n := fun q hq => hV q (by simp [hq])
    by_cases hp : ∃ i, V p = .into i
    · obtain ⟨j, hj⟩ := hp
      have hjn := hV p (by simp) j hj
      have hlen : n ≤ (J.putPost k d p (V p)).recs.length := by rw [hj]; simpa [putPost] using hn
      obtain ⟨h1, h2, h3⟩ := ih (J.putPost k d p (V p)) hlen hV'
      refine ⟨?_, ?_, h3⟩
      · intro i hi
        rw [h1 i hi, hj]
        simp only [putPost, List.getElem?_modify, List.filter_cons, hj]
        by_cases hji : j = i
        · subst hji
          simp only [if_true, decide_true, List.foldl_cons]
          cases J.recs[j]? <;> simp
        · have : ¬ Verdict.into j = Verdict.into i := by simpa using hji
          simp only [hji, if_false, this, decide_false, Bool.false_eq_true]
          cases J.recs[i]? <;> simp
      · rw [h2, hj]
        simp only [putPost, List.filter_cons, hj, Verdict.dest?, reduceCtorEq, decide_false, Bool.false_eq_true, if_false]
        congr 1
        apply List.ext_getElem?
        intro i
        rw [List.getElem?_drop, List.getElem?_drop, List.getElem?_modify]
        have : j ≠ n + i := by omega
        simp [this]
    · have hnone : (V p).dest? = none := by
        cases hv : V p with
        | into i => exact absurd ⟨i, hv⟩ hp
        | _ => rfl
      have hput : J.putPost k d p (V p) = { J with recs := J.recs ++ [⟨k, d, p⟩] } := by
        cases hv : V p with
        | into i => exact absurd ⟨i, hv⟩ hp
        | _ => rfl
      have hlen : n ≤ (J.putPost k d p (V p)).recs.length := by rw [hput]; simp; omega
      obtain ⟨h1, h2, h3⟩ := ih (J.putPost k d p (V p)) hlen hV'
      refine ⟨?_, ?_, h3⟩
      · intro i hi
        rw [h1 i hi, hput]
        have : ¬ V p = .into i := fun h => hp ⟨i, h⟩
        simp only [List.filter_cons, this, decide_false, Bool.false_eq_true, if_false]
        rw [List.getElem?_append_left (by omega)]
      · rw [h2, hput]
        simp only [List.filter_cons, hnone, decide_true, if_true, List.map_cons]
        rw [List.drop_append_of_le_length hn, List.append_assoc]; rfl

theorem foldl_putTrn (J₀ : Book) (ts : List TransactionPostings) (J : Book) (hn : J₀.recs.length ≤ J.recs.length) :
    (∀ i < J₀.recs.length, (ts.foldl (J₀.putTrn ·) J).recs[i]? = (J.recs[i]?).map
      (fun r => { r with post := (J₀.hits ts i).foldl absorb r.post })) ∧
    (ts.foldl (J₀.putTrn ·) J).recs.drop J₀.recs.length = J.recs.drop J₀.recs.length ++ J₀.news J.hdrs.length ts ∧
    (ts.foldl (J₀.putTrn ·) J).hdrs = J.hdrs ++ (ts.filter (J₀.Fresh ·)).map (·.trn) ∧
    J₀.recs.length ≤ (ts.foldl (J₀.putTrn ·) J).recs.length := by
  induction ts generalizing J with
  | nil =>
    refine ⟨?_, by simp [news], by simp, hn⟩
    intro i _; simp [hits]
  | cons t ts ih =>
    rw [List.foldl_cons]
    by_cases hu : Undecided J₀ t
    · have hput : J₀.putTrn J t = J := by unfold putTrn; rw [if_pos hu]
      have hf : ¬ J₀.Fresh t := fun h => h.1 hu
      rw [hput]
      obtain ⟨h1, h2, h3, h4⟩ := ih J hn
      refine ⟨?_, ?_, ?_, h4⟩
      · intro i hi; rw [h1 i hi]; simp [hits, trnHits, hu]
      · rw [h2]; simp [news, hu, hf]
      · rw [h3]; simp [hf]
    · have hV : ∀ p ∈ t.posts, ∀ i, J₀.verdict (dateOf t) p = .into i → i < J₀.recs.length :=
        fun p _ i hi => verdict_into_lt hi
      cases hd : (J₀.dests t).head?.bind J₀.trnOf with
      | some k =>
        have hput : J₀.putTrn J t = J.putPosts k (dateOf t) t.posts (t.posts.map (J₀.verdict (dateOf t))) := by
          unfold putTrn; rw [if_neg hu]; simp only [hd]; rfl
        have hf : ¬ J₀.Fresh t := fun h => by rw [head_trnOf_none.2 h.2] at hd; cases hd
        obtain ⟨g1, g2, g3⟩ := putPosts_recs J₀.recs.length k (dateOf t) (J₀.verdict (dateOf t)) t.posts J hn hV
        rw [hput]
        obtain ⟨h1, h2, h3, h4⟩ := ih _ g3
        refine ⟨?_, ?_, ?_, h4⟩
        · intro i hi
          rw [h1 i hi, g1 i hi]
          simp only [hits, List.flatMap_cons, trnHits, hu, if_false, List.foldl_append]
          cases J.recs[i]? <;> simp
        · rw [h2, g2, putPosts_hdrs]
          simp [news, hu, hf, home, hd]
        · rw [h3, putPosts_hdrs]; simp [hf]
      | none =>
        have hput : J₀.putTrn J t = { J with hdrs := J.hdrs ++ [t.trn] }.putPosts J.hdrs.length (dateOf t) t.posts
            (t.posts.map (J₀.verdict (dateOf t))) := by
          unfold putTrn; rw [if_neg hu]; simp only [hd]; rfl
        have hf : J₀.Fresh t := ⟨hu, head_trnOf_none.1 hd⟩
        obtain ⟨g1, g2, g3⟩ := putPosts_recs J₀.recs.length J.hdrs.length (dateOf t) (J₀.verdict (dateOf t)) t.posts
          { J with hdrs := J.hdrs ++ [t.trn] } hn hV
        rw [hput]
        obtain ⟨h1, h2, h3, h4⟩ := ih _ g3
        refine ⟨?_, ?_, ?_, h4⟩
        · intro i hi
          rw [h1 i hi, g1 i hi]
          simp only [hits, List.flatMap_cons, trnHits, hu, if_false, List.foldl_append]
          cases J.recs[i]? <;> simp
        · rw [h2, g2, putPosts_hdrs]
          simp [news, hu, hf, home, hd]
        · rw [h3, putPosts_hdrs]; simp [hf]

theorem after_old (J : Book) (ts : List TransactionPostings) {i : Nat} (hi : i < J.recs.length) :
    (J.after ts).recs[i]? = some { J.recs[i] with post := (J.hits ts i).foldl absorb J.recs[i].post } := by
  have := (foldl_putTrn J ts J (le_refl _)).1 i hi
  rw [List.getElem?_eq_getElem hi] at this
  exact this

theorem after_recs (J : Book) (ts : List TransactionPostings) :
    (J.after ts).recs = J.recs.mapIdx (fun i r => { r with post := (J.hits ts i).foldl absorb r.post }) ++
      J.news J.hdrs.length ts := by
  have hd := (foldl_putTrn J ts J (le_refl _)).2.1
  have hl := (foldl_putTrn J ts J (le_refl _)).2.2.2
  rw [← List.take_append_drop J.recs.length (J.after ts).recs]
  congr 1
  · apply List.ext_getElem?
    intro i
    rw [List.getElem?_take, List.getElem?_mapIdx]
    by_cases hi : i < J.recs.length
    · rw [if_pos hi, after_old J ts hi, List.getElem?_eq_getElem hi]; rfl
    · rw [if_neg hi, List.getElem?_eq_none (by omega)]; rfl
  · refine Eq.trans hd ?_
    simp

theorem after_hdrs (J : Book) (ts : List TransactionPostings) :
    (J.after ts).hdrs = J.hdrs ++ (ts.filter (J.Fresh ·)).map (·.trn) :=
  (foldl_putTrn J ts J (le_refl _)).2.2.1

/-- Every decided posting is a hit or a new record. -/
theorem mem_hits {J : Book} {ts : List TransactionPostings} {i : Nat} {p : PostingInternal} :
    p ∈ J.hits ts i ↔ ∃ t ∈ ts, ¬ Undecided J t ∧ p ∈ t.posts ∧ J.verdict (dateOf t) p = .into i := by
  unfold hits trnHits
  rw [List.mem_flatMap]
  constructor
  · rintro ⟨t, ht, hp⟩
    split at hp
    · cases hp
    · rename_i hu
      rw [List.mem_filter, decide_eq_true_iff] at hp
      exact ⟨t, ht, hu, hp.1, hp.2⟩
  · rintro ⟨t, ht, hu, hp, hv⟩
    refine ⟨t, ht, ?_⟩
    rw [if_neg hu, List.mem_filter, decide_eq_true_iff]
    exact ⟨hp, hv⟩

theorem mem_news {J : Book} {ts : List TransactionPostings} {c : Nat} {r : Rec} (h : r ∈ J.news c ts) :
    ∃ t ∈ ts, ¬ Undecided J t ∧ r.post ∈ t.posts ∧ (J.verdict (dateOf t) r.post).dest? = none ∧ r.date = dateOf t ∧
      ∃ c' ≥ c, r.trn = J.home c' t := by
  induction ts generalizing c with
  | nil => cases h
  | cons t ts ih =>
    unfold news at h
    rcases List.mem_append.1 h with h | h
    · split at h
      · cases h
      · rename_i hu
        obtain ⟨p, hp, rfl⟩ := List.mem_map.1 h
        rw [List.mem_filter, decide_eq_true_iff] at hp
        exact ⟨t, by simp, hu, hp.1, hp.2, rfl, c, le_refl _, rfl⟩
    · obtain ⟨t', ht', hu, h1, h2, h3, c', hc', h4⟩ := ih h
      refine ⟨t', by simp [ht'], hu, h1, h2, h3, c', ?_, h4⟩
      split at hc' <;> omega

/-- Where the postings of a decided transaction go that do not go into existing records. -/
theorem news_of_mem {J : Book} {ts : List TransactionPostings} (c : Nat) {t : TransactionPostings} (ht : t ∈ ts)
    (hu : ¬ Undecided J t) : ∃ c', ∀ p ∈ t.posts, (J.verdict (dateOf t) p).dest? = none →
      (⟨J.home c' t, dateOf t, p⟩ : Rec) ∈ J.news c ts := by
  induction ts generalizing c with
  | nil => cases ht
  | cons s ts ih =>
    rcases List.mem_cons.1 ht with rfl | ht
    · refine ⟨c, ?_⟩
      intro p hp hv
      unfold news
      rw [if_neg hu]
      exact List.mem_append_left _ (List.mem_map.2 ⟨p, by rw [List.mem_filter, decide_eq_true_iff]; exact ⟨hp, hv⟩, rfl⟩)
    · obtain ⟨c', h⟩ := ih (if J.Fresh s then c + 1 else c) ht
      refine ⟨c', ?_⟩
      intro p hp hv
      unfold news
      exact List.mem_append_right _ (h p hp hv)

theorem mem_after {J : Book} {ts : List TransactionPostings} {r : Rec} :
    r ∈ (J.after ts).recs ↔
      (∃ i, ∃ h : i < J.recs.length, r = { J.recs[i] with post := (J.hits ts i).foldl absorb J.recs[i].post }) ∨
      r ∈ J.news J.hdrs.length ts := by
  rw [after_recs, List.mem_append, List.mem_mapIdx]
  apply or_congr_left
  constructor
  · rintro ⟨i, hi, h⟩; exact ⟨i, hi, h.symm⟩
  · rintro ⟨i, hi, h⟩; exact ⟨i, hi, h.symm⟩

theorem mem_fps_foldl {l : List PostingInternal} {d : PostingInternal} {f : Str} :
    f ∈ fps (l.foldl absorb d) ↔ f ∈ fps d ∨ ∃ p ∈ l, f ∈ fps p := by
  induction l generalizing d with
  | nil => simp
  | cons p l ih =>
    rw [List.foldl_cons, ih, mem_fps_absorb]
    simp only [List.mem_cons, exists_eq_or_imp]
    tauto

end Verif
