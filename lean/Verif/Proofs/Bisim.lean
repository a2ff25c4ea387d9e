import Verif.Props.Replay

/-!
# Books that cannot be told apart

Two books with the same transactions, in the same order for each date, behave the same for ever. This is the link
between one run of the program and two runs with a journal file in between.
-/

namespace Verif
open Spec Spec.Book

/-- The transactions of a book with their postings and the dates these are filed under. -/
def Spec.Book.grp (J : Book) : List (TransactionInternal × List (Date × PostingInternal)) :=
  J.hdrs.mapIdx fun k hdr => (hdr, (J.recs.filter (·.trn = k)).map fun r => (r.date, r.post))

/-- The postings of a book with the dates they are filed under. -/
def Spec.Book.dated (J : Book) : List (Date × PostingInternal) := J.recs.map fun r => (r.date, r.post)

/-- Two books with the same transactions, in the same order for each date. -/
structure Same (J K : Book) : Prop where
  wf : J.WF
  wf' : K.WF
  grp : ∀ d, J.grp.filter (fun g => g.1.raw.date = d) = K.grp.filter (fun g => g.1.raw.date = d)

theorem range_partition (n : Nat) (rs : List Rec) :
    ((List.range n).flatMap (fun k => rs.filter (·.trn = k))).Perm (rs.filter (·.trn < n)) := by
  induction n with
  | zero => simp
  | succ n ih =>
    rw [List.range_succ, List.flatMap_append]
    refine (List.Perm.append_right _ ih).trans ?_
    simp only [List.flatMap_cons, List.flatMap_nil, List.append_nil]
    clear ih
    induction rs with
    | nil => simp
    | cons r rs ih2 =>
      rcases Nat.lt_trichotomy r.trn n with hlt | heq | hgt
      · have a : r.trn < n + 1 := by omega
        have b : ¬ r.trn = n := by omega
        simp only [List.filter_cons, hlt, decide_true, if_true, b, decide_false, Bool.false_eq_true, if_false, a,
          List.cons_append]
        exact ih2.cons r
      · have a : r.trn < n + 1 := by omega
        have b : ¬ r.trn < n := by omega
        rw [List.filter_cons_of_neg (by simpa using b), List.filter_cons_of_pos (by simpa using heq),
          List.filter_cons_of_pos (by simpa using a)]
        exact List.perm_middle.trans (ih2.cons r)
      · have a : ¬ r.trn < n + 1 := by omega
        have b : ¬ r.trn < n := by omega
        have c : ¬ r.trn = n := by omega
        simp only [List.filter_cons, a, b, c, decide_false, Bool.false_eq_true, if_false]
        exact ih2

theorem grp_flat {J : Book} (hw : J.WF) : (J.grp.flatMap (·.2)).Perm J.dated := by
  have he : J.grp = (List.range J.hdrs.length).map
      (fun k => (J.hdrs[k]?.getD default, (J.recs.filter (·.trn = k)).map fun r => (r.date, r.post))) := by
    unfold Spec.Book.grp
    apply List.ext_getElem?
    intro k
    rw [List.getElem?_mapIdx, List.getElem?_map]
    by_cases hk : k < J.hdrs.length
    · rw [List.getElem?_eq_getElem hk, List.getElem?_range hk]; simp [List.getElem?_eq_getElem hk]
    · rw [List.getElem?_eq_none (by omega), List.getElem?_eq_none (by simp; omega)]; rfl
  rw [he, List.flatMap_map]
  simp only
  rw [← List.map_flatMap]
  unfold Spec.Book.dated
  apply List.Perm.map
  refine (range_partition _ _).trans ?_
  have : J.recs.filter (·.trn < J.hdrs.length) = J.recs := by
    rw [List.filter_eq_self]; intro r hr; simpa using hw.owner r hr
  rw [this]

/-- Lists with the same elements for each date are permutations of each other. -/
theorem perm_of_filter {α : Type} [DecidableEq α] (key : α → Date) {X Y : List α}
    (h : ∀ d, X.filter (fun a => key a = d) = Y.filter (fun a => key a = d)) : X.Perm Y := by
  rw [List.perm_iff_count]
  intro a
  have := congrArg (List.count a) (h (key a))
  rw [List.count_filter (by simp), List.count_filter (by simp)] at this
  exact this

theorem Same.perm {J K : Book} (h : Same J K) : J.grp.Perm K.grp := by
  classical
  exact perm_of_filter (fun g : TransactionInternal × List (Date × PostingInternal) => g.1.raw.date) h.grp

theorem Same.dated {J K : Book} (h : Same J K) : J.dated.Perm K.dated :=
  (grp_flat h.wf).symm.trans ((h.perm.flatMap_right _).trans (grp_flat h.wf'))

theorem Same.symm {J K : Book} (h : Same J K) : Same K J := ⟨h.wf', h.wf, fun d => (h.grp d).symm⟩

/-! ### Verdicts, by value -/

/-- The posting that an input posting goes into, if there is one. -/
def Spec.Book.target (J : Book) (d : Date) (p : PostingInternal) : Option PostingInternal :=
  (J.verdict d p).dest?.bind fun i => (J.recs[i]?).map (·.post)

/-- The postings that share a fingerprint with `p`. -/
def fpM (L : List (Date × PostingInternal)) (p : PostingInternal) : List PostingInternal :=
  (L.filter (fun x => SharesFp x.2 p)).map (·.2)

/-- The postings filed under `d` that softly match `p`. -/
def softM (L : List (Date × PostingInternal)) (d : Date) (p : PostingInternal) : List PostingInternal :=
  (L.filter (fun x => x.1 = d ∧ SoftMatch x.2 p)).map (·.2)

theorem fpHits_fpM (J : Book) (p : PostingInternal) : J.postsAt (J.fpHits p) = fpM J.dated p := by
  unfold fpHits
  rw [where_posts]
  unfold fpM Spec.Book.dated
  rw [List.filter_map, List.map_map]
  rfl

theorem softHits_softM (J : Book) (d : Date) (p : PostingInternal) : J.postsAt (J.softHits d p) = softM J.dated d p := by
  unfold softHits
  rw [where_posts]
  unfold softM Spec.Book.dated
  rw [List.filter_map, List.map_map]
  rfl

/-- Classification of verdicts, by value. -/
inductive Kind where
  | new
  | into (x : PostingInternal)
  | ambiguous
  | conflict

/-- The kind of verdict that follows from the matching postings. -/
def kindOf (a b : List PostingInternal) : Kind :=
  match a with
  | [x] => .into x
  | _ :: _ :: _ => .conflict
  | [] =>
    match b with
    | [] => .new
    | [x] => .into x
    | _ => .ambiguous

/-- The kind of a verdict. -/
def Spec.Book.kind (J : Book) : Verdict → Kind
  | .new => .new
  | .into i => .into (((J.recs[i]?).map (·.post)).getD default)
  | .ambiguous _ => .ambiguous
  | .conflict => .conflict

theorem kind_verdict (J : Book) (d : Date) (p : PostingInternal) :
    J.kind (J.verdict d p) = kindOf (fpM J.dated p) (softM J.dated d p) := by
  rw [← fpHits_fpM, ← softHits_softM]
  have hl1 : ∀ i ∈ J.fpHits p, i < J.recs.length := fun i hi => where_lt hi
  have hl2 : ∀ i ∈ J.softHits d p, i < J.recs.length := fun i hi => where_lt hi
  unfold verdict Spec.Book.postsAt kindOf
  match h1 : J.fpHits p with
  | [i] =>
    rw [h1] at hl1
    have := hl1 i (by simp)
    simp [Spec.Book.kind, List.getElem?_eq_getElem this]
  | i :: j :: l =>
    rw [h1] at hl1
    have a := hl1 i (by simp)
    have b := hl1 j (by simp)
    simp [Spec.Book.kind, List.getElem?_eq_getElem a, List.getElem?_eq_getElem b]
  | [] =>
    match h2 : J.softHits d p with
    | [] => rfl
    | [i] =>
      rw [h2] at hl2
      have := hl2 i (by simp)
      simp [Spec.Book.kind, List.getElem?_eq_getElem this]
    | i :: j :: l =>
      rw [h2] at hl2
      have a := hl2 i (by simp)
      have b := hl2 j (by simp)
      simp [Spec.Book.kind, List.getElem?_eq_getElem a, List.getElem?_eq_getElem b]

theorem kindOf_perm {a a' b b' : List PostingInternal} (ha : a.Perm a') (hb : b.Perm b') : kindOf a b = kindOf a' b' := by
  unfold kindOf
  match a, a', ha with
  | [], a', ha =>
    rw [ha.nil_eq]
    match b, b', hb with
    | [], b', hb => rw [hb.nil_eq]
    | [x], b', hb => rw [hb.singleton_eq]
    | x :: y :: l, b', hb =>
      have := hb.length_eq
      match b', this with
      | _ :: _ :: _, _ => rfl
  | [x], a', ha => rw [← ha.singleton_eq]
  | x :: y :: l, a', ha =>
    have := ha.length_eq
    match a', this with
    | _ :: _ :: _, _ => rfl

theorem Same.kind {J K : Book} (h : Same J K) (d : Date) (p : PostingInternal) :
    J.kind (J.verdict d p) = K.kind (K.verdict d p) := by
  rw [kind_verdict, kind_verdict]
  apply kindOf_perm
  · exact (h.dated.filter _).map _
  · exact (h.dated.filter _).map _

theorem target_eq_some {J : Book} {d : Date} {p x : PostingInternal} :
    J.target d p = some x ↔ ∃ i r, J.verdict d p = .into i ∧ J.recs[i]? = some r ∧ r.post = x := by
  unfold Spec.Book.target
  cases h : J.verdict d p <;> simp [Verdict.dest?]

theorem target_eq_none {J : Book} {d : Date} {p : PostingInternal} : J.target d p = none ↔ (J.verdict d p).dest? = none := by
  unfold Spec.Book.target
  cases h : J.verdict d p with
  | into i =>
    have := verdict_into_lt h
    simp [Verdict.dest?, List.getElem?_eq_getElem this]
  | new => simp [Verdict.dest?]
  | ambiguous is => simp [Verdict.dest?]
  | conflict => simp [Verdict.dest?]

theorem target_kind {J : Book} {d : Date} {p : PostingInternal} :
    J.target d p = match J.kind (J.verdict d p) with | .into x => some x | _ => none := by
  unfold Spec.Book.target
  cases h : J.verdict d p with
  | into i =>
    have := verdict_into_lt h
    simp [Verdict.dest?, Spec.Book.kind, List.getElem?_eq_getElem this]
  | new => rfl
  | ambiguous is => rfl
  | conflict => rfl

theorem Same.target {J K : Book} (h : Same J K) (d : Date) (p : PostingInternal) : J.target d p = K.target d p := by
  rw [target_kind, target_kind, h.kind]

theorem isAmbiguous_kind {J : Book} {v : Verdict} : v.isAmbiguous = true ↔ J.kind v = .ambiguous := by
  cases v <;> simp [Verdict.isAmbiguous, Spec.Book.kind]

theorem Same.undecided {J K : Book} (h : Same J K) (t : TransactionPostings) : Undecided J t ↔ Undecided K t := by
  unfold Undecided verdicts
  apply or_congr_right
  constructor
  · rintro ⟨v, hv, ha⟩
    obtain ⟨p, hp, rfl⟩ := List.mem_map.1 hv
    exact ⟨_, List.mem_map.2 ⟨p, hp, rfl⟩, isAmbiguous_kind.2 ((h.kind _ _).symm.trans (isAmbiguous_kind.1 ha))⟩
  · rintro ⟨v, hv, ha⟩
    obtain ⟨p, hp, rfl⟩ := List.mem_map.1 hv
    exact ⟨_, List.mem_map.2 ⟨p, hp, rfl⟩, isAmbiguous_kind.2 ((h.kind _ _).trans (isAmbiguous_kind.1 ha))⟩

theorem Same.conflict {J K : Book} (h : Same J K) (d : Date) (p : PostingInternal) :
    J.verdict d p = .conflict ↔ K.verdict d p = .conflict := by
  have := h.kind d p
  have key : ∀ (J : Book) (v : Verdict), v = .conflict ↔ J.kind v = .conflict := by
    intro J v; cases v <;> simp [Spec.Book.kind]
  rw [key J, key K, this]

/-- In a sensible book, different records have different postings. -/
theorem Spec.Book.WF.post_inj {J : Book} (hw : J.WF) {i j : Nat} {r s : Rec} (hr : J.recs[i]? = some r) (hs : J.recs[j]? = some s)
    (h : r.post = s.post) : i = j :=
  hw.unique i j r s hr hs (by rw [h]; exact sharesFp_self (hw.hasFp s (List.mem_of_getElem? hs)))

/-- The postings `x` and `y` are in the same transaction. -/
def Together (G : List (TransactionInternal × List (Date × PostingInternal))) (x y : PostingInternal) : Prop :=
  ∃ g ∈ G, x ∈ g.2.map (·.2) ∧ y ∈ g.2.map (·.2)

theorem together_iff {J : Book} (hw : J.WF) {i j : Nat} {r s : Rec} (hr : J.recs[i]? = some r) (hs : J.recs[j]? = some s) :
    Together J.grp r.post s.post ↔ r.trn = s.trn := by
  have key : ∀ {k : Nat} {x : PostingInternal}, x ∈ ((J.recs.filter (·.trn = k)).map fun r => (r.date, r.post)).map (·.2) ↔
      ∃ r ∈ J.recs, r.trn = k ∧ r.post = x := by
    intro k x
    simp only [List.map_map, List.mem_map, List.mem_filter, decide_eq_true_eq, Function.comp_def, and_assoc]
  unfold Together Spec.Book.grp
  constructor
  · rintro ⟨g, hg, hx, hy⟩
    rw [List.mem_mapIdx] at hg
    obtain ⟨k, hk, rfl⟩ := hg
    obtain ⟨r', hr', hk1, he1⟩ := key.1 hx
    obtain ⟨s', hs', hk2, he2⟩ := key.1 hy
    obtain ⟨i', hi'⟩ := List.mem_iff_getElem?.1 hr'
    obtain ⟨j', hj'⟩ := List.mem_iff_getElem?.1 hs'
    have := hw.post_inj hi' hr he1
    subst this
    have := hw.post_inj hj' hs he2
    subst this
    rw [hi'] at hr; rw [hj'] at hs
    rw [← Option.some.inj hr, ← Option.some.inj hs, hk1, hk2]
  · intro he
    have hk := hw.owner r (List.mem_of_getElem? hr)
    refine ⟨(J.hdrs[r.trn], (J.recs.filter (·.trn = r.trn)).map fun r => (r.date, r.post)), ?_, ?_, ?_⟩
    · rw [List.mem_mapIdx]; exact ⟨r.trn, hk, rfl⟩
    · exact key.2 ⟨r, List.mem_of_getElem? hr, rfl, rfl⟩
    · exact key.2 ⟨s, List.mem_of_getElem? hs, he.symm, rfl⟩

theorem together_perm {G G' : List (TransactionInternal × List (Date × PostingInternal))} (h : G.Perm G') (x y : PostingInternal) :
    Together G x y ↔ Together G' x y := by
  unfold Together
  constructor
  · rintro ⟨g, hg, hh⟩; exact ⟨g, h.mem_iff.1 hg, hh⟩
  · rintro ⟨g, hg, hh⟩; exact ⟨g, h.mem_iff.2 hg, hh⟩

theorem splitTrn_iff {J : Book} (hw : J.WF) {t : TransactionPostings} : SplitTrn J t ↔
    ¬ Undecided J t ∧ ∃ p ∈ t.posts, ∃ q ∈ t.posts, ∃ x y, J.target (dateOf t) p = some x ∧ J.target (dateOf t) q = some y ∧
      ¬ Together J.grp x y := by
  unfold SplitTrn
  refine and_congr_right fun _ => ?_
  constructor
  · rintro ⟨i, hi, j, hj, hne⟩
    obtain ⟨p, hp, hpv⟩ := mem_dests.1 hi
    obtain ⟨q, hq, hqv⟩ := mem_dests.1 hj
    have h1 := List.getElem?_eq_getElem (verdict_into_lt hpv)
    have h2 := List.getElem?_eq_getElem (verdict_into_lt hqv)
    refine ⟨p, hp, q, hq, _, _, target_eq_some.2 ⟨i, _, hpv, h1, rfl⟩, target_eq_some.2 ⟨j, _, hqv, h2, rfl⟩, ?_⟩
    rw [together_iff hw h1 h2]
    intro he
    apply hne
    unfold trnOf
    rw [h1, h2, Option.map_some, Option.map_some, he]
  · rintro ⟨p, hp, q, hq, x, y, hx, hy, hne⟩
    obtain ⟨i, r, hpv, hr, rfl⟩ := target_eq_some.1 hx
    obtain ⟨j, s, hqv, hs, rfl⟩ := target_eq_some.1 hy
    refine ⟨i, mem_dests.2 ⟨p, hp, hpv⟩, j, mem_dests.2 ⟨q, hq, hqv⟩, ?_⟩
    rw [together_iff hw hr hs] at hne
    unfold trnOf
    rw [hr, hs, Option.map_some, Option.map_some]
    intro he
    exact hne (Option.some.inj he)

theorem Same.splitTrn {J K : Book} (h : Same J K) (t : TransactionPostings) : SplitTrn J t ↔ SplitTrn K t := by
  rw [splitTrn_iff h.wf, splitTrn_iff h.wf', h.undecided]
  simp only [h.target, together_perm h.perm]

/-- The input postings that go into the posting `x` of the book. -/
def Spec.Book.into (J : Book) (ts : List TransactionPostings) (x : PostingInternal) : List PostingInternal :=
  ts.flatMap fun t => if Undecided J t then [] else t.posts.filter (fun p => J.target (dateOf t) p = some x)

theorem hits_into {J : Book} (hw : J.WF) (ts : List TransactionPostings) {i : Nat} {r : Rec} (hr : J.recs[i]? = some r) :
    J.hits ts i = J.into ts r.post := by
  unfold Spec.Book.hits Spec.Book.into trnHits
  apply List.flatMap_congr
  intro t _
  split
  · rfl
  · apply List.filter_congr
    intro p _
    rw [decide_eq_decide, target_eq_some]
    constructor
    · intro hv; exact ⟨i, r, hv, hr, rfl⟩
    · rintro ⟨j, s, hv, hs, he⟩
      rw [hv, hw.post_inj hs hr he]

theorem Same.into {J K : Book} (h : Same J K) (ts : List TransactionPostings) (x : PostingInternal) : J.into ts x = K.into ts x := by
  unfold Spec.Book.into
  apply List.flatMap_congr
  intro t _
  simp only [h.undecided, h.target]

theorem sameDest_iff {J : Book} (hw : J.WF) {ts : List TransactionPostings} : SameDest J ts ↔ ∃ x ∈ J.dated.map (·.2), 2 ≤ (J.into ts x).length := by
  unfold SameDest
  rw [List.nodup_iff_count_le_one]
  push Not
  simp only [count_allDests]
  constructor
  · rintro ⟨i, hi⟩
    have hne : J.hits ts i ≠ [] := by intro he; rw [he] at hi; simp at hi
    obtain ⟨p, hp⟩ := List.exists_mem_of_ne_nil _ hne
    obtain ⟨t, _, _, _, hv⟩ := mem_hits.1 hp
    have hr := List.getElem?_eq_getElem (verdict_into_lt hv)
    refine ⟨_, ?_, by rw [← hits_into hw ts hr]; exact hi⟩
    unfold Spec.Book.dated
    rw [List.map_map]
    exact List.mem_map.2 ⟨_, List.mem_of_getElem? hr, rfl⟩
  · rintro ⟨x, hx, h2⟩
    unfold Spec.Book.dated at hx
    rw [List.map_map] at hx
    obtain ⟨r, hr, rfl⟩ := List.mem_map.1 hx
    obtain ⟨i, hi⟩ := List.mem_iff_getElem?.1 hr
    exact ⟨i, by rw [hits_into hw ts hi]; exact h2⟩

theorem Same.sameDest {J K : Book} (h : Same J K) (ts : List TransactionPostings) : SameDest J ts ↔ SameDest K ts := by
  rw [sameDest_iff h.wf, sameDest_iff h.wf']
  simp only [h.into, (h.dated.map _).mem_iff]

theorem Same.postError {J K : Book} (h : Same J K) (d : Date) (e : List PostingInternal) (p : PostingInternal) :
    J.postError d e p = K.postError d e p := by
  unfold Spec.Book.postError
  simp only [h.conflict]

theorem Same.postsError {J K : Book} (h : Same J K) (d : Date) (ps e : List PostingInternal) :
    J.postsError d e ps = K.postsError d e ps := by
  induction ps generalizing e with
  | nil => rfl
  | cons p ps ih => rw [Spec.Book.postsError, Spec.Book.postsError, h.postError, ih]

theorem Same.trnsError {J K : Book} (h : Same J K) (e : List PostingInternal) (ts : List TransactionPostings) :
    J.trnsError e ts = K.trnsError e ts := by
  induction ts generalizing e with
  | nil => rfl
  | cons t ts ih =>
    rw [Spec.Book.trnsError, Spec.Book.trnsError, h.postsError, ih]
    simp only [h.splitTrn]

theorem Same.error? {J K : Book} (h : Same J K) (ts : List TransactionPostings) : J.error? ts = K.error? ts := by
  unfold Spec.Book.error?
  rw [h.trnsError]
  simp only [h.sameDest]

end Verif
