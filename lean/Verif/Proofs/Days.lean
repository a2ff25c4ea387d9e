import Verif.Spec.Days
import Verif.Proofs.Apart
import Verif.Proofs.MergeAgain
import Verif.Props.TwoRuns

/-!
# Merging whole days, in any order
-/

namespace Verif
open Spec Spec.Book

theorem Same.refl {J : Book} (h : J.WF) : Same J J := ⟨h, h, fun _ => rfl⟩

theorem Same.trans {J K L : Book} (h : Same J K) (h' : Same K L) : Same J L := ⟨h.wf, h'.wf', fun d => (h.grp d).trans (h'.grp d)⟩

/-- What a posting of the book shares a fingerprint with has its date. -/
def OnDay (J : Book) (W : List TransactionPostings) : Prop :=
  ∀ r ∈ J.recs, ∀ a ∈ datedPosts W, SharesFp r.post a.2 → r.date = a.1

theorem OnDay.likely {J : Book} {W : List TransactionPostings} (h : OnDay J W) {r : Rec} (hr : r ∈ J.recs) {a : Date × PostingInternal}
    (ha : a ∈ datedPosts W) (hl : Likely (r.date, r.post) a) : r.date = a.1 := by
  rcases hl with hl | ⟨hl, _⟩
  · exact h r hr a ha hl
  · exact hl

theorem OnDay.mono {J : Book} {W X : List TransactionPostings} (h : OnDay J W) (hs : ∀ t ∈ X, t ∈ W) : OnDay J X := by
  intro r hr a ha
  obtain ⟨t, ht, p, hp, rfl⟩ := mem_datedPosts.1 ha
  exact h r hr _ (mem_datedPosts.2 ⟨t, hs t ht, p, hp, rfl⟩)

theorem OnDay.target {J : Book} {W : List TransactionPostings} (h : OnDay J W) (hw : J.WF) {t : TransactionPostings} (ht : t ∈ W)
    {p : PostingInternal} (hp : p ∈ t.posts) {r : Rec} (hr : r ∈ J.recs) (hv : J.target (dateOf t) p = some r.post) : r.date = dateOf t := by
  obtain ⟨i, s, hv, hs, he⟩ := target_eq_some.1 hv
  obtain ⟨j, hj⟩ := List.mem_iff_getElem?.1 hr
  have := hw.post_inj hs hj he
  subst this
  rw [hs] at hj
  cases hj
  exact h.likely hr (mem_datedPosts.2 ⟨t, ht, p, hp, rfl⟩) (near_of_into hv hs)

theorem flatMap_filter_of_nil {α β : Type} (P : α → Bool) (f : α → List β) (l : List α) (h : ∀ a ∈ l, P a = false → f a = []) :
    (l.filter P).flatMap f = l.flatMap f := by
  induction l with
  | nil => rfl
  | cons a l ih =>
    have ih := ih fun b hb => h b (List.mem_cons_of_mem _ hb)
    rw [List.filter_cons, List.flatMap_cons]
    cases hp : P a with
    | true => rw [if_pos rfl, List.flatMap_cons, ih]
    | false => rw [h a List.mem_cons_self hp, List.nil_append, ← ih]; rfl

/-- A transaction of the book grows by the input transactions of its own date only. -/
theorem grown_day {J : Book} (hw : J.WF) (hf : Filed J) {X : List TransactionPostings} (ho : OnDay J X)
    {g : TransactionInternal × List (Date × PostingInternal)} (hg : g ∈ J.grp) :
    J.grown (ofDay g.1.raw.date X) g.2 = J.grown X g.2 := by
  classical
  have hrec : ∀ x ∈ g.2, ∃ r ∈ J.recs, r.date = g.1.raw.date ∧ r.post = x.2 := by
    intro x hx
    have h1 := filed_iff.1 hf g hg x hx
    unfold Spec.Book.grp at hg
    rw [List.mem_mapIdx] at hg
    obtain ⟨k, hk, rfl⟩ := hg
    obtain ⟨r, hr, rfl⟩ := List.mem_map.1 hx
    exact ⟨r, (List.mem_filter.1 hr).1, h1, rfl⟩
  have key : ∀ t ∈ X, decide (dateOf t = g.1.raw.date) = false → ∀ p ∈ t.posts, ∀ x ∈ g.2, J.target (dateOf t) p ≠ some x.2 := by
    intro t ht hd p hp x hx hv
    obtain ⟨r, hr, h1, h2⟩ := hrec x hx
    rw [← h2] at hv
    exact of_decide_eq_false hd ((ho.target hw ht hp hr hv).symm.trans h1)
  unfold Spec.Book.grown
  congr 1
  · apply List.map_congr_left
    intro x hx
    congr 2
    unfold Spec.Book.into ofDay
    apply flatMap_filter_of_nil
    intro t ht hd
    split
    · rfl
    · rw [List.filter_eq_nil_iff]
      intro p hp hv
      exact key t ht hd p hp x hx (of_decide_eq_true hv)
  · unfold Spec.Book.added ofDay
    apply flatMap_filter_of_nil
    intro t ht hd
    rw [if_neg]
    rintro ⟨_, p, hp, y, hy, hv⟩
    obtain ⟨x, hx, rfl⟩ := List.mem_map.1 hy
    exact key t ht hd p hp x hx hv

theorem bad_perm {J : Book} (hw : J.WF) {X Y : List TransactionPostings} (h : X.Perm Y) : J.Bad X ↔ J.Bad Y :=
  (Alike.refl hw).bad (.of_perm h)

/-- Inputs with the same transactions for each date lead to books that cannot be told apart. -/
theorem same_days {J : Book} (hw : J.WF) (hf : Filed J) {X Y : List TransactionPostings} (ho : OnDay J X)
    (h : ∀ d : Date, ofDay d X = ofDay d Y) (hg : Good J X) (hwX : (J.after X).WF) (hwY : (J.after Y).WF) :
    Same (J.after X) (J.after Y) where
  wf := hwX
  wf' := hwY
  grp := by
    have hp : X.Perm Y := perm_of_filter dateOf h
    have hgY : Good J Y := good_iff.2 fun hb => good_iff.1 hg ((bad_perm hw hp).2 hb)
    have hoY : OnDay J Y := ho.mono fun t ht => hp.mem_iff.2 ht
    intro d
    rw [grp_after hw X (trnsError_none_iff' hg), grp_after hw Y (trnsError_none_iff' hgY), List.filter_append, List.filter_append]
    congr 1
    · rw [List.filter_map, List.filter_map]
      apply List.map_congr_left
      intro g hgm
      have hgm := (List.mem_filter.1 hgm).1
      rw [← grown_day hw hf ho hgm, ← grown_day hw hf hoY hgm, h]
    · have key : ∀ Z : List TransactionPostings, ((Z.filter (J.Fresh ·)).map asGroup).filter (fun g => g.1.raw.date = d) =
          ((ofDay d Z).filter (J.Fresh ·)).map asGroup := by
        intro Z
        rw [List.filter_map]
        congr 1
        unfold ofDay
        rw [List.filter_filter, List.filter_filter]
        apply List.filter_congr
        intro t _
        exact Bool.and_comm _ _
      rw [key, key, h]

/-! ### Parts of an input with different dates -/

theorem apart_days {J : Book} {W A B : List TransactionPostings} (hg : Good J W) (ho : OnDay J W) (hA : ∀ t ∈ A, t ∈ W)
    (hB : ∀ t ∈ B, t ∈ W) (hd : ∀ t ∈ A, ∀ u ∈ B, dateOf t ≠ dateOf u) : Apart J A B := by
  intro a ha b hb
  obtain ⟨t, ht, p, hp, rfl⟩ := mem_datedPosts.1 ha
  obtain ⟨u, hu, q, hq, rfl⟩ := mem_datedPosts.1 hb
  refine ⟨?_, ?_⟩
  · rintro (hs | ⟨hs, _⟩)
    · have : p = q := hg.eq_of_shares (mem_allPosts.2 ⟨t, hA t ht, hp⟩) (mem_allPosts.2 ⟨u, hB u hu, hq⟩) hs
      subst this
      exact hd t ht u hu (by rw [hg.trn_eq (hA t ht) (hB u hu) hp hq])
    · exact hd t ht u hu hs
  · rintro r hr ⟨h1, h2⟩
    have e1 := ho.likely hr (mem_datedPosts.2 ⟨t, hA t ht, p, hp, rfl⟩) h1
    have e2 := ho.likely hr (mem_datedPosts.2 ⟨u, hB u hu, q, hq, rfl⟩) h2
    exact hd t ht u hu (e1.symm.trans e2)

theorem onDay_after {J : Book} {W A : List TransactionPostings} (hg : Good J W) (ho : OnDay J W) (hA : ∀ t ∈ A, t ∈ W) :
    OnDay (J.after A) W := by
  intro r hr b hb hs
  obtain ⟨u, hu, q, hq, rfl⟩ := mem_datedPosts.1 hb
  have key : ∀ t ∈ A, ∀ p ∈ t.posts, SharesFp p q → dateOf t = dateOf u := by
    intro t ht p hp hpq
    have : p = q := hg.eq_of_shares (mem_allPosts.2 ⟨t, hA t ht, hp⟩) (mem_allPosts.2 ⟨u, hu, hq⟩) hpq
    subst this
    rw [hg.trn_eq (hA t ht) hu hp hq]
  obtain ⟨i, hi⟩ := List.mem_iff_getElem?.1 hr
  rcases after_get hi with ⟨r₀, hr₀, _, hd, hp⟩ | ⟨_, hm⟩
  · rw [hd]
    have hm₀ := List.mem_of_getElem? hr₀
    obtain ⟨f, hf1, hf2⟩ := hs
    rw [hp] at hf1
    rcases mem_fps_foldl.1 hf1 with hf | ⟨p, hpm, hf⟩
    · exact ho r₀ hm₀ _ (mem_datedPosts.2 ⟨u, hu, q, hq, rfl⟩) ⟨f, hf, hf2⟩
    · obtain ⟨t, ht, _, hpt, hv⟩ := mem_hits.1 hpm
      rw [ho.likely hm₀ (mem_datedPosts.2 ⟨t, hA t ht, p, hpt, rfl⟩) (near_of_into hv hr₀)]
      exact key t ht p hpt ⟨f, hf, hf2⟩
  · obtain ⟨t, ht, p, hp, he⟩ := mem_datedPosts.1 hm
    rw [show r.date = dateOf t from congrArg Prod.fst he]
    exact key t ht p hp (by rw [← show r.post = p from congrArg Prod.snd he]; exact hs)

theorem filed_onDay {J : Book} (hw : J.WF) {A : List TransactionPostings} (hg : Good J A) (hf : Filed J) (ho : OnDay J A) :
    Filed (J.after A) := by
  refine filed_after hw hg hf ?_
  intro t ht _ _ i hi r hr hdr hh
  obtain ⟨p, hp, hv⟩ := mem_dests.1 hi
  have hm := List.mem_of_getElem? hr
  rw [← hf r hm hdr hh]
  exact ho.likely hm (mem_datedPosts.2 ⟨t, ht, p, hp, rfl⟩) (near_of_into hv hr)

/-- Merging part of what was just merged changes nothing. -/
theorem after_part {J : Book} {A B : List TransactionPostings} (hg : Good J A) (hd : ∀ t ∈ A, ¬ Undecided J t) (hw : (J.after A).WF)
    (hB : ∀ t ∈ B, t ∈ A) : (J.after A).after B = J.after A := by
  have hs := settled_after hg hd
  have hdec : ∀ t ∈ B, ¬ Undecided (J.after A) t := fun t ht => hs.decided hw (hB t ht)
  have hinto : ∀ t ∈ B, ∀ p ∈ t.posts, ∃ i, (J.after A).verdict (dateOf t) p = .into i := by
    intro t ht p hp
    obtain ⟨i, _, _, _, h⟩ := hs.verdict hw (dateOf t) (mem_allPosts.2 ⟨t, hB t ht, hp⟩)
    exact ⟨i, h⟩
  have hfresh : B.filter ((J.after A).Fresh ·) = [] := by
    rw [List.filter_eq_nil_iff]
    intro t ht hx
    have hx := of_decide_eq_true hx
    obtain ⟨p, hp⟩ := List.exists_mem_of_ne_nil _ (hs.nonempty t (hB t ht))
    obtain ⟨i, hi⟩ := hinto t ht p hp
    have : i ∈ (J.after A).dests t := mem_dests.2 ⟨p, hp, hi⟩
    rw [hx.2] at this
    cases this
  have hh : ((J.after A).after B).hdrs = (J.after A).hdrs := by rw [after_hdrs, hfresh]; simp
  have hr : ((J.after A).after B).recs = (J.after A).recs := by
    rw [after_recs]
    have hn : (J.after A).news (J.after A).hdrs.length B = [] := by
      rw [List.eq_nil_iff_forall_not_mem]
      intro r hr
      obtain ⟨t, ht, _, hp, hv, _⟩ := mem_news hr
      obtain ⟨i, hi⟩ := hinto t ht _ hp
      rw [hi] at hv
      cases hv
    rw [hn, List.append_nil]
    apply List.ext_getElem?
    intro i
    rw [List.getElem?_mapIdx]
    cases hr : (J.after A).recs[i]? with
    | none => rfl
    | some r =>
      simp only [Option.map_some]
      have hstep : ∀ q ∈ (J.after A).hits B i, absorb r.post q = r.post := by
        intro q hq
        obtain ⟨t, ht, _, hqt, hv⟩ := mem_hits.1 hq
        have hta := hB t ht
        obtain ⟨j, s, hs', hfs, hv'⟩ := hs.verdict hw (dateOf t) (mem_allPosts.2 ⟨t, hta, hqt⟩)
        rw [hv'] at hv
        cases hv
        rw [hr] at hs'
        cases hs'
        have hqa := hg.ok q (mem_allPosts.2 ⟨t, hta, hqt⟩)
        obtain ⟨f, hf⟩ := List.exists_mem_of_ne_nil _ hqa.2
        rcases hg.shares_after hta (hd t hta) hqt hr ⟨f, hfs f hf, hf⟩ with ⟨hi, hm⟩ | ⟨_, he⟩
        · have e : r.post = (J.hits A i).foldl absorb J.recs[i].post := by
            rw [after_old J A hi] at hr
            rw [← Option.some.inj hr]
          have hl : J.hits A i = [q] := by
            have h1 := hg.hits_le_one i
            have h2 := List.length_pos_of_mem hm
            obtain ⟨a, ha⟩ := List.length_eq_one_iff.1 (show (J.hits A i).length = 1 by omega)
            rw [ha, List.mem_singleton] at hm
            rw [ha, hm]
          rw [e, hl, List.foldl_cons, List.foldl_nil]
          exact absorb_absorb _ _
        · rw [he]; exact absorb_self q
      have : ∀ l : List PostingInternal, (∀ q ∈ l, absorb r.post q = r.post) → l.foldl absorb r.post = r.post := by
        intro l hl
        induction l with
        | nil => rfl
        | cons q l ih => rw [List.foldl_cons, hl q (by simp)]; exact ih fun x hx => hl x (by simp [hx])
      rw [this _ hstep]
  cases h : (J.after A).after B with
  | mk hdrs recs =>
    rw [h] at hh hr
    cases h' : J.after A with
    | mk hdrs' recs' => rw [h'] at hh hr; simp only at hh hr; rw [hh, hr]

/-! ### One more download -/

/-- The transactions of `W` of certain days. -/
def onDays (S : Date → Bool) (W : List TransactionPostings) : List TransactionPostings := W.filter fun t => S (dateOf t)

theorem ofDay_onDays (S : Date → Bool) (W : List TransactionPostings) (d : Date) :
    ofDay d (onDays S W) = if S d then ofDay d W else [] := by
  unfold ofDay onDays
  rw [List.filter_filter]
  split
  · rename_i h
    apply List.filter_congr
    intro t _
    by_cases hd : dateOf t = d
    · subst hd; simp [h]
    · simp [hd]
  · rename_i h
    rw [List.filter_eq_nil_iff]
    intro t _ hx
    rw [Bool.and_eq_true, decide_eq_true_iff] at hx
    rw [hx.1] at hx
    exact h hx.2

theorem mem_onDays {S : Date → Bool} {W : List TransactionPostings} {t : TransactionPostings} :
    t ∈ onDays S W ↔ t ∈ W ∧ S (dateOf t) = true := by unfold onDays; rw [List.mem_filter]

theorem ofDay_append (d : Date) (X Y : List TransactionPostings) : ofDay d (X ++ Y) = ofDay d X ++ ofDay d Y := by
  unfold ofDay; rw [List.filter_append]

/-- The days of a download. -/
def daysOf (D : List TransactionPostings) (d : Date) : Bool := D.any fun t => dateOf t = d

theorem daysOf_iff {D : List TransactionPostings} {d : Date} : daysOf D d = true ↔ ∃ t ∈ D, dateOf t = d := by
  unfold daysOf; rw [List.any_eq_true]; simp only [decide_eq_true_eq]

theorem ofDay_download {W D : List TransactionPostings} (h : WholeDays W D) (d : Date) : ofDay d D = ofDay d (onDays (daysOf D) W) := by
  rw [ofDay_onDays]
  split
  · rename_i hd
    rcases h d with h | h
    · obtain ⟨t, ht, hx⟩ := daysOf_iff.1 hd
      have : t ∈ ofDay d D := List.mem_filter.2 ⟨ht, decide_eq_true hx⟩
      rw [h] at this; cases this
    · exact h
  · rename_i hd
    unfold ofDay
    rw [List.filter_eq_nil_iff]
    intro t ht hx
    exact hd (daysOf_iff.2 ⟨t, ht, of_decide_eq_true hx⟩)

/-- The book holds the days `S` of `W`, and cannot be told apart from the one in which they were merged at once. -/
structure Holds (J : Book) (W : List TransactionPostings) (S : Date → Bool) (K : Book) : Prop where
  reached : Reached K
  same : Same K (J.after (onDays S W))

/-- What is needed of the book and of all there is to download. -/
structure Days (J : Book) (W : List TransactionPostings) : Prop where
  reached : Reached J
  filed : Filed J
  onDay : OnDay J W
  good : Good J W
  decided : ∀ t ∈ W, ¬ Undecided J t

namespace Days
variable {J : Book} {W : List TransactionPostings}

theorem good_part (h : Days J W) (S : Date → Bool) : Good J (onDays S W) := good_sublist List.filter_sublist h.good

theorem mem_part {S : Date → Bool} {t : TransactionPostings} (ht : t ∈ onDays S W) : t ∈ W := (mem_onDays.1 ht).1

theorem reached_part (h : Days J W) (S : Date → Bool) : Reached (J.after (onDays S W)) :=
  h.reached.after (good_iff.1 (h.good_part S))

theorem apart (h : Days J W) {S T : Date → Bool} (hd : ∀ d, S d = true → T d = true → False) : Apart J (onDays S W) (onDays T W) := by
  refine apart_days h.good h.onDay (fun _ => mem_part) (fun _ => mem_part) ?_
  intro t ht u hu he
  exact hd (dateOf t) (mem_onDays.1 ht).2 (by rw [he]; exact (mem_onDays.1 hu).2)

theorem step (h : Days J W) {S : Date → Bool} {K : Book} (hk : Holds J W S K) {D : List TransactionPostings} (hD : WholeDays W D) :
    ¬ K.Bad D ∧ (∀ t ∈ D, ¬ Undecided K t) ∧ Holds J W (fun d => S d || daysOf D d) (K.after D) := by
  let J' := J.after (onDays S W)
  let old := onDays (fun d => S d && daysOf D d) W
  let new := onDays (fun d => !S d && daysOf D d) W
  have hrJ' : Reached J' := h.reached_part S
  have hdec : ∀ t ∈ onDays S W, ¬ Undecided J t := fun t ht => h.decided t (mem_part ht)
  have hold : ∀ t ∈ old, t ∈ onDays S W := by
    intro t ht
    obtain ⟨h1, h2⟩ := mem_onDays.1 ht
    rw [Bool.and_eq_true] at h2
    exact mem_onDays.2 ⟨h1, h2.1⟩
  have hapart : Apart J (onDays S W) new := by
    refine h.apart ?_
    intro d h1 h2
    simp [h1] at h2
  have ho' : OnDay J' W := onDay_after h.good h.onDay fun _ => mem_part
  have hf' : Filed J' := filed_onDay h.reached.wf (h.good_part S) h.filed (h.onDay.mono fun _ => mem_part)
  have hset := settled_after (h.good_part S) hdec
  -- the old days alone
  have gold : Good J' old := by
    have := hset.good hrJ'.wf
    have hsub : old.Sublist (onDays S W) := by
      have : old = (onDays S W).filter fun t => daysOf D (dateOf t) := by
        show W.filter _ = (W.filter _).filter _
        rw [List.filter_filter]
        apply List.filter_congr
        intro t _
        exact Bool.and_comm _ _
      rw [this]
      exact List.filter_sublist
    exact good_sublist hsub this
  have eold : J'.after old = J' := after_part (h.good_part S) hdec hrJ'.wf hold
  -- the new days alone
  have gnew : Good J' new := by
    rw [good_iff, hapart.bad]
    exact good_iff.1 (h.good_part _)
  -- both are apart
  have hapart' : Apart J' old new := by
    intro a ha b hb
    obtain ⟨t, ht, p, hp, rfl⟩ := mem_datedPosts.1 ha
    have ha' : (dateOf t, p) ∈ datedPosts (onDays S W) := mem_datedPosts.2 ⟨t, hold t ht, p, hp, rfl⟩
    refine ⟨(hapart _ ha' b hb).1, ?_⟩
    rintro r hr ⟨h1, h2⟩
    obtain ⟨i, hi⟩ := List.mem_iff_getElem?.1 hr
    exact (hapart _ ha' b hb).2 r (List.mem_of_getElem? (hapart.near_old hi hb h2).2) ⟨h1, h2⟩
  have gboth : Good J' (old ++ new) := by
    rw [good_iff, hapart'.bad_append]
    rintro (hb | hb)
    · exact good_iff.1 gold hb
    · exact good_iff.1 gnew hb
  have hoboth : OnDay J' (old ++ new) := ho'.mono fun t ht => by
    rcases List.mem_append.1 ht with ht | ht
    · exact mem_part ht
    · exact mem_part ht
  -- the same for each day
  have hday : ∀ d : Date, ofDay d (old ++ new) = ofDay d D := by
    intro d
    rw [ofDay_append, ofDay_download hD, ofDay_onDays, ofDay_onDays, ofDay_onDays]
    cases S d <;> cases daysOf D d <;> simp
  have hperm : (old ++ new).Perm D := perm_of_filter dateOf hday
  have gD : Good J' D := good_iff.2 fun hb => good_iff.1 gboth ((bad_perm hrJ'.wf hperm).2 hb)
  have hbD : ¬ K.Bad D := fun hb => good_iff.1 gD ((hk.same.bad D).1 hb)
  have hrD : Reached (J'.after D) := hrJ'.after (good_iff.1 gD)
  have hrK : Reached (K.after D) := hk.reached.after hbD
  have e1 : J'.after (old ++ new) = J.after (onDays S W ++ new) := by
    rw [← hapart'.after_after, eold]
    exact hapart.after_after
  have gsum : Good J (onDays S W ++ new) := by
    rw [good_iff, hapart.bad_append]
    rintro (hb | hb)
    · exact good_iff.1 (h.good_part S) hb
    · exact good_iff.1 (h.good_part _) hb
  refine ⟨hbD, ?_, hrK, ?_⟩
  · intro t ht hu
    have hu := (hk.same.undecided t).1 hu
    rcases List.mem_append.1 (hperm.mem_iff.2 ht) with ht | ht
    · exact hset.decided hrJ'.wf (hold t ht) hu
    · exact h.decided t (mem_part ht) ((hapart.undecided ht).1 hu)
  · have s1 : Same (K.after D) (J'.after D) := hk.same.after (good_iff.2 hbD) gD hrK.wf hrD.wf
    have s2 : Same (J'.after (old ++ new)) (J'.after D) :=
      same_days hrJ'.wf hf' hoboth hday gboth (hrJ'.after (good_iff.1 gboth)).wf hrD.wf
    rw [e1] at s2
    have s3 : Same (J.after (onDays S W ++ new)) (J.after (onDays (fun d => S d || daysOf D d) W)) := by
      refine same_days h.reached.wf h.filed (h.onDay.mono ?_) ?_ gsum (h.reached.after (good_iff.1 gsum)).wf (h.reached_part _).wf
      · intro t ht
        rcases List.mem_append.1 ht with ht | ht
        · exact mem_part ht
        · exact mem_part ht
      · intro d
        rw [ofDay_append, ofDay_onDays, ofDay_onDays, ofDay_onDays]
        cases S d <;> cases daysOf D d <;> simp
    exact s1.trans (s2.symm.trans s3)

/-- No download at all. -/
theorem none (h : Days J W) : Holds J W (fun _ => false) J where
  reached := h.reached
  same := by
    have : onDays (fun _ => false) W = [] := by unfold onDays; rw [List.filter_eq_nil_iff]; simp
    rw [this]
    have h1 : J.after [] = J := rfl
    rw [h1]
    exact .refl h.reached.wf

theorem steps (h : Days J W) {S : Date → Bool} {K : Book} (hk : Holds J W S K) {Ds : List (List TransactionPostings)}
    (hD : ∀ D ∈ Ds, WholeDays W D) :
    ¬ Refused K Ds ∧ leftOver K Ds = [] ∧ Holds J W (fun d => S d || Ds.any (daysOf · d)) (Ds.foldl Book.after K) := by
  induction Ds generalizing S K with
  | nil => exact ⟨id, rfl, by simpa using hk⟩
  | cons D Ds ih =>
    obtain ⟨h1, h2, h3⟩ := h.step hk (hD D (by simp))
    obtain ⟨i1, i2, i3⟩ := ih h3 fun D hx => hD D (by simp [hx])
    refine ⟨?_, leftOver_cons_nil.2 ⟨h2, i2⟩, ?_⟩
    · rintro (hb | hb)
      · exact h1 hb
      · exact i1 hb
    · have : (fun d => S d || (D :: Ds).any (daysOf · d)) = fun d => (S d || daysOf D d) || Ds.any (daysOf · d) := by
        funext d
        rw [List.any_cons, Bool.or_assoc]
      rw [this]
      exact i3

end Days

end Verif
