import Verif.Proofs.TwoWriters

/-!
# What is in a file that several runs write to
-/

namespace Verif
open Spec

section
variable {ι : Type} [DecidableEq ι]

theorem putByte_get (c : Bytes) (P i : Nat) (x : UInt8) :
    (putByte c P x)[i]? = if i = P then some x else if i < c.length then c[i]? else if i < P then some 0 else none := by
  unfold putByte
  by_cases h : P ≤ c.length
  · rw [show P - c.length = 0 by omega, List.replicate_zero, List.append_nil, List.getElem?_append, List.length_take, Nat.min_eq_left h]
    by_cases h1 : i = P
    · subst h1; simp
    · rw [if_neg h1]
      by_cases h2 : i < P
      · rw [if_pos h2, if_pos (by omega), List.getElem?_take, if_pos h2]
      · rw [if_neg h2]
        obtain ⟨d, rfl⟩ : ∃ d, i = P + 1 + d := ⟨i - P - 1, by omega⟩
        rw [show P + 1 + d - P = d + 1 by omega, List.getElem?_cons_succ, List.getElem?_drop]
        by_cases h3 : P + 1 + d < c.length
        · rw [if_pos h3]
        · rw [if_neg h3, if_neg (by omega), List.getElem?_eq_none (by omega)]
  · rw [List.take_of_length_le (by omega), List.drop_eq_nil_of_le (by omega), List.append_assoc, List.getElem?_append]
    by_cases h1 : i < c.length
    · rw [if_pos h1, if_neg (by omega), if_pos h1]
    · rw [if_neg h1, List.getElem?_append, List.length_replicate]
      by_cases h2 : i < P
      · rw [if_pos (by omega), if_neg (by omega), if_neg h1, if_pos h2, List.getElem?_replicate, if_pos (by omega)]
      · rw [if_neg (by omega)]
        by_cases h3 : i = P
        · subst h3
          rw [if_pos rfl, Nat.sub_self]
          rfl
        · rw [if_neg h3, if_neg h1, if_neg h2]
          apply List.getElem?_eq_none
          simp only [List.length_singleton]
          omega

theorem putByte_length (c : Bytes) (P : Nat) (x : UInt8) : (putByte c P x).length = max c.length (P + 1) := by
  unfold putByte
  simp only [List.length_append, List.length_take, List.length_replicate, List.length_cons, List.length_drop]
  omega

theorem get_snoc {α : Type} (H : List α) (e x : α) (u : Nat) : (H ++ [e])[u]? = some x ↔ (u < H.length ∧ H[u]? = some x) ∨ (u = H.length ∧ e = x) := by
  rw [List.getElem?_append]
  by_cases h : u < H.length
  · rw [if_pos h]; constructor
    · exact fun g => .inl ⟨h, g⟩
    · rintro (g | g)
      · exact g.2
      · omega
  · rw [if_neg h]
    by_cases h2 : u = H.length
    · subst h2; simp
    · rw [List.getElem?_eq_none (by simp only [List.length_singleton]; omega)]
      constructor
      · intro g; cases g
      · rintro (g | g) <;> omega

theorem take_snoc {α : Type} (H : List α) (e : α) {u : Nat} (h : u ≤ H.length) : (H ++ [e]).take u = H.take u := List.take_append_of_le_length h

/-- Something that does not concern the file. -/
theorem Spec.Kept.other {start : Option Bytes} {H : List (ι × Eff)} {n : Nat} {f : Option Bytes} (h : Kept start H n f) {e : ι × Eff}
    (h1 : e.2 ≠ .create n) (h2 : ∀ b, e.2 ≠ .write n b) : Kept start (H ++ [e]) n f := by
  have cr : ∀ (u : Nat) k, (H ++ [e])[u]? = some (k, .create n) ↔ H[u]? = some (k, .create n) := by
    intro u k
    rw [get_snoc]
    constructor
    · rintro (g | ⟨_, g⟩)
      · exact g.2
      · exact (h1 (by rw [g])).elim
    · intro g
      exact .inl ⟨(List.getElem?_eq_some_iff.1 g).1, g⟩
  have wr : ∀ (u : Nat) k b, (H ++ [e])[u]? = some (k, .write n b) ↔ H[u]? = some (k, .write n b) := by
    intro u k b
    rw [get_snoc]
    constructor
    · rintro (g | ⟨_, g⟩)
      · exact g.2
      · exact (h2 b (by rw [g])).elim
    · intro g
      exact .inl ⟨(List.getElem?_eq_some_iff.1 g).1, g⟩
  have lt : ∀ {u : Nat} {x}, H[u]? = some x → (H ++ [e]).take u = H.take u := fun g =>
    take_snoc H e (Nat.le_of_lt (List.getElem?_eq_some_iff.1 g).1)
  refine ⟨fun g => h.unmade fun u k hu => g u k ((cr u k).2 hu), fun t j ht hlast => ?_⟩
  obtain ⟨c, c1, c2, c3, c4⟩ := h.made t j ((cr t j).1 ht) fun u k hu g => hlast u k hu ((cr u k).2 g)
  refine ⟨c, c1, fun v k b hv hw hno => ?_, ?_, fun i hi hno => c4 i hi fun u k x hu g => ?_⟩
  · have hw := (wr v k b).1 hw
    rw [lt hw] at hno ⊢
    exact c2 v k b hv hw fun u l x hu g => by rw [← lt g]; exact hno u l x hu ((wr u l x).2 g)
  · rcases c3 with c3 | ⟨u, k, x, hu, g, e⟩
    · exact .inl c3
    · exact .inr ⟨u, k, x, hu, (wr u k x).2 g, by rw [lt g]; exact e⟩
  · rw [← lt g]
    exact hno u k x hu ((wr u k x).2 g)

/-- The file is created. -/
theorem Spec.Kept.created {start : Option Bytes} {H : List (ι × Eff)} {n : Nat} {f : Option Bytes} (_ : Kept start H n f) (i : ι) :
    Kept start (H ++ [(i, .create n)]) n (some []) := by
  refine ⟨fun g => (g H.length i (by simp)).elim, fun t j ht hlast => ⟨[], rfl, fun v k b hv hw => ?_, .inl rfl, fun i hi => by simp at hi⟩⟩
  rw [get_snoc] at ht hw
  rcases ht with ⟨ht, _⟩ | ⟨ht, _⟩
  · exact (hlast H.length i ht (by simp)).elim
  · rcases hw with ⟨hw, _⟩ | ⟨hw, _⟩ <;> omega

/-- A byte is written to the file. -/
theorem Spec.Kept.written {start : Option Bytes} {H : List (ι × Eff)} {n : Nat} {f : Option Bytes} (h : Kept start H n f) (i : ι) (b : UInt8)
    (hc : ∃ (u : Nat) (k : ι), H[u]? = some (k, .create n)) :
    Kept start (H ++ [(i, .write n b)]) n (some (putByte (f.getD []) (place H i n) b)) := by
  have cr : ∀ (u : Nat) k, (H ++ [(i, Eff.write n b)])[u]? = some (k, .create n) ↔ H[u]? = some (k, .create n) := by
    intro u k
    rw [get_snoc]
    constructor
    · rintro (g | ⟨_, g⟩)
      · exact g.2
      · cases g
    · intro g
      exact .inl ⟨(List.getElem?_eq_some_iff.1 g).1, g⟩
  have lt : ∀ {u : Nat} {x}, H[u]? = some x → (H ++ [(i, Eff.write n b)]).take u = H.take u := fun g =>
    take_snoc H _ (Nat.le_of_lt (List.getElem?_eq_some_iff.1 g).1)
  have last : (H ++ [(i, Eff.write n b)]).take H.length = H := by rw [take_snoc _ _ (Nat.le_refl _), List.take_length]
  have old : ∀ {u : Nat} {k x}, H[u]? = some (k, .write n x) → (H ++ [(i, Eff.write n b)])[u]? = some (k, .write n x) := fun g =>
    (get_snoc _ _ _ _).2 (.inl ⟨(List.getElem?_eq_some_iff.1 g).1, g⟩)
  have new : (H ++ [(i, Eff.write n b)])[H.length]? = some (i, .write n b) := (get_snoc _ _ _ _).2 (.inr ⟨rfl, rfl⟩)
  refine ⟨fun g => ?_, fun t j ht hlast => ?_⟩
  · obtain ⟨u, k, hu⟩ := hc
    exact (g u k ((cr u k).2 hu)).elim
  have ht := (cr t j).1 ht
  have htl := (List.getElem?_eq_some_iff.1 ht).1
  obtain ⟨c, rfl, c2, c3, c4⟩ := h.made t j ht fun u k hu g => hlast u k hu ((cr u k).2 g)
  rw [Option.getD_some]
  refine ⟨_, rfl, fun v k y hv hw hno => ?_, ?_, fun p hp hno => ?_⟩
  · rw [putByte_get]
    rcases (get_snoc _ _ _ _).1 hw with ⟨hvl, hw⟩ | ⟨hvl, e⟩
    · have hne := hno H.length i b hvl new
      rw [last, lt hw] at hne
      rw [lt hw, if_neg (Ne.symm hne)]
      have := c2 v k y hv hw fun u l x hu g => by
        have := hno u l x hu (old g)
        rwa [lt g, lt hw] at this
      rw [this, if_pos (List.getElem?_eq_some_iff.1 this).1]
    · subst hvl
      cases e
      rw [last, if_pos rfl]
  · right
    rw [putByte_length]
    by_cases hle : c.length ≤ place H i n + 1
    · exact ⟨H.length, i, b, htl, new, by rw [last, Nat.max_eq_right hle]⟩
    · rcases c3 with c3 | ⟨u, k, x, hu, g, e⟩
      · omega
      · exact ⟨u, k, x, hu, old g, by rw [lt g, Nat.max_eq_left (by omega), e]⟩
  · have hne := hno H.length i b htl new
    rw [last] at hne
    rw [putByte_get, if_neg (Ne.symm hne)]
    rw [putByte_length] at hp
    by_cases hpc : p < c.length
    · rw [if_pos hpc]
      exact c4 p hpc fun u k x hu g => by
        have := hno u k x hu (old g)
        rwa [lt g] at this
    · rw [if_neg hpc, if_pos (by omega)]

/-! ### What a step does -/

/-- The process is at a place of a file that it writes. -/
def WritesAt (d : Doing) (n pos : Nat) : Prop := ∃ rest r k, d = .writing n pos rest r k

/-- What a step does to the files, what is seen of it, and what the process is doing then. -/
inductive Stepped (F : Nat → Option Bytes) (d : Doing) : (Nat → Option Bytes) → List Eff → Doing → Prop
  | quiet {d'} (h : ∀ n pos, ¬ WritesAt d' n pos) : Stepped F d F [] d'
  | print {b d'} (h : ∀ n pos, ¬ WritesAt d' n pos) : Stepped F d F [.print b] d'
  | create {n rest r k} : Stepped F d (setFile F n []) [.create n] (.writing n 0 rest r k)
  | write {n pos b rest r k} (h : WritesAt d n pos) :
    Stepped F d (setFile F n (putByte ((F n).getD []) pos b)) [.write n b] (.writing n (pos + 1) rest r k)

theorem writesAt_next {t : Task Unit} {n pos : Nat} : ¬ WritesAt (.next t) n pos := by rintro ⟨_, _, _, h⟩; cases h

theorem writesAt_reading {m : Nat} {got k} {n pos : Nat} : ¬ WritesAt (.reading m got k) n pos := by rintro ⟨_, _, _, h⟩; cases h

theorem writesAt_printing {rest r k} {n pos : Nat} : ¬ WritesAt (.printing rest r k) n pos := by rintro ⟨_, _, _, h⟩; cases h

theorem step_stepped (F : Nat → Option Bytes) (p : Proc) :
    ∃ E, (p.step F).2.world.log = p.world.log ++ E ∧ Stepped F p.doing (p.step F).1 E (p.step F).2.doing := by
  obtain ⟨sys, w, d⟩ := p
  have none : ∀ (E : List Eff), E = [] → w.log = w.log ++ E := fun E h => by rw [h, List.append_nil]
  cases d with
  | next t =>
    cases t with
    | done r => exact ⟨[], none _ rfl, .quiet fun _ _ => writesAt_next⟩
    | read f k =>
      cases f with
      | stdio => simp only [Proc.step]; cases sys.fault w.ops <;> exact ⟨[], none _ rfl, .quiet fun _ _ => writesAt_next⟩
      | path p =>
        simp only [Proc.step]
        cases F (sys.file p) with
        | none => exact ⟨[], none _ rfl, .quiet fun _ _ => writesAt_next⟩
        | some b =>
          rcases sys.fault w.ops with _ | _ | m
          · exact ⟨[], none _ rfl, .quiet fun _ _ => writesAt_reading⟩
          · exact ⟨[], none _ rfl, .quiet fun _ _ => writesAt_next⟩
          · exact ⟨[], none _ rfl, .quiet fun _ _ => writesAt_next⟩
    | look p k => exact ⟨[], none _ rfl, .quiet fun _ _ => writesAt_next⟩
    | load k => exact ⟨[], none _ rfl, .quiet fun _ _ => writesAt_next⟩
    | draw d k => exact ⟨[], none _ rfl, .quiet fun _ _ => writesAt_next⟩
    | dirs k => simp only [Proc.step]; cases sys.fault w.ops <;> exact ⟨[], none _ rfl, .quiet fun _ _ => writesAt_next⟩
    | write f bytes k =>
      cases f with
      | stdio => simp only [Proc.step]; cases sys.fault w.ops <;> exact ⟨[], none _ rfl, .quiet fun _ _ => writesAt_printing⟩
      | path p =>
        simp only [Proc.step]
        rcases sys.fault w.ops with _ | _ | m
        · exact ⟨_, rfl, .create⟩
        · exact ⟨[], none _ rfl, .quiet fun _ _ => writesAt_next⟩
        · exact ⟨_, rfl, .create⟩
  | reading n got k =>
    simp only [Proc.step]
    cases ((F n).getD [])[got.length]? with
    | none => exact ⟨[], none _ rfl, .quiet fun _ _ => writesAt_next⟩
    | some b => exact ⟨[], none _ rfl, .quiet fun _ _ => writesAt_reading⟩
  | writing n pos rest r k =>
    cases rest with
    | nil => exact ⟨[], none _ rfl, .quiet fun _ _ => writesAt_next⟩
    | cons b rest => exact ⟨_, rfl, .write ⟨_, _, _, rfl⟩⟩
  | printing rest r k =>
    cases rest with
    | nil => exact ⟨[], none _ rfl, .quiet fun _ _ => writesAt_next⟩
    | cons b rest => exact ⟨_, rfl, .print fun _ _ => writesAt_printing⟩

theorem history_append (s : Shared ι) (a b : List ι) : history s (a ++ b) = history s a ++ history (s.run a) b := by
  induction a generalizing s with
  | nil => rfl
  | cons i a ih =>
    show _ ++ history (s.step i) (a ++ b) = (_ ++ history (s.step i) a) ++ _
    rw [ih, List.append_assoc]
    rfl

theorem place_snoc (H : List (ι × Eff)) (e : ι × Eff) (j : ι) (n : Nat) :
    place (H ++ [e]) j n = placeRev j n (e :: H.reverse) := by
  unfold place
  rw [List.reverse_append]
  rfl

/-- What happened tells what is in the files, and where the processes are that write. -/
theorem together_kept (s : Shared ι) (hs : ∀ j n pos, ¬ WritesAt (s.procs j).doing n pos) (order : List ι) :
    (∀ n, Kept (s.files n) (history s order) n ((s.run order).files n)) ∧
    ∀ j n pos, WritesAt ((s.run order).procs j).doing n pos →
      pos = place (history s order) j n ∧ ∃ (u : Nat) (k : ι), (history s order)[u]? = some (k, .create n) := by
  induction order using List.reverseRecOn with
  | nil =>
    refine ⟨fun n => ⟨fun _ => rfl, fun t j ht => ?_⟩, fun j n pos h => (hs j n pos h).elim⟩
    simp [history] at ht
  | append_singleton order i ih =>
    obtain ⟨ih1, ih2⟩ := ih
    rw [run_append, history_append]
    generalize history s order = H at ih1 ih2
    generalize hst : s.run order = st at ih1 ih2
    obtain ⟨E, hE, hS⟩ := step_stepped st.files (st.procs i)
    have hnew : history st [i] = E.map fun e => (i, e) := by
      show (((st.step i).procs i).world.log.drop _).map _ ++ [] = _
      rw [List.append_nil, show (st.step i).procs i = ((st.procs i).step st.files).2 from if_pos rfl, hE, List.drop_left]
    rw [hnew]
    have hfiles : (st.run [i]).files = ((st.procs i).step st.files).1 := rfl
    have hproc : ∀ j, (st.run [i]).procs j = if j = i then ((st.procs i).step st.files).2 else st.procs j := fun _ => rfl
    rw [hfiles]
    -- a file's creation stays in the past
    have past : ∀ {n : Nat} (X : List (ι × Eff)), (∃ (u : Nat) (k : ι), H[u]? = some (k, Eff.create n)) →
        ∃ (u : Nat) (k : ι), (H ++ X)[u]? = some (k, Eff.create n) := by
      rintro n X ⟨u, k, hu⟩
      exact ⟨u, k, by rw [List.getElem?_append_left (List.getElem?_eq_some_iff.1 hu).1]; exact hu⟩
    generalize hG : ((st.procs i).step st.files).1 = G at hS
    generalize hd : ((st.procs i).step st.files).2.doing = d' at hS
    have hdo : ∀ j, ((st.run [i]).procs j).doing = if j = i then d' else (st.procs j).doing := by
      intro j
      rw [hproc]
      by_cases h : j = i
      · rw [if_pos h, if_pos h, hd]
      · rw [if_neg h, if_neg h]
    cases hS with
    | quiet hq =>
      rw [List.map_nil, List.append_nil]
      refine ⟨ih1, fun j n pos h => ?_⟩
      rw [hdo] at h
      by_cases hj : j = i
      · rw [if_pos hj] at h; exact (hq n pos h).elim
      · rw [if_neg hj] at h; exact ih2 j n pos h
    | @print b _ hq =>
      refine ⟨fun n => (ih1 n).other (fun h => by cases h) (fun _ h => by cases h), fun j n pos h => ?_⟩
      rw [hdo] at h
      by_cases hj : j = i
      · rw [if_pos hj] at h; exact (hq n pos h).elim
      · rw [if_neg hj] at h
        obtain ⟨g1, g2⟩ := ih2 j n pos h
        exact ⟨by rw [List.map_singleton, place_snoc]; exact g1, past _ g2⟩
    | @create m rest r k =>
      refine ⟨fun n => ?_, fun j n pos h => ?_⟩
      · by_cases hn : n = m
        · subst hn
          rw [setFile_get]
          exact (ih1 n).created i
        · rw [show setFile st.files m [] n = st.files n from if_neg hn]
          exact (ih1 n).other (fun h => hn (Eff.create.inj h).symm) (fun _ h => by cases h)
      · rw [hdo] at h
        rw [List.map_singleton, place_snoc]
        by_cases hj : j = i
        · rw [if_pos hj] at h
          obtain ⟨_, _, _, h⟩ := h
          cases h
          refine ⟨?_, H.length, i, by simp⟩
          unfold placeRev
          rw [if_pos ⟨hj.symm, rfl⟩]
        · rw [if_neg hj] at h
          obtain ⟨g1, g2⟩ := ih2 j n pos h
          refine ⟨?_, past _ g2⟩
          unfold placeRev
          rw [if_neg (fun e => hj e.1.symm)]
          exact g1
    | @write m pos0 b rest r k hw =>
      obtain ⟨w1, w2⟩ := ih2 i m pos0 hw
      refine ⟨fun n => ?_, fun j n pos h => ?_⟩
      · by_cases hn : n = m
        · subst hn
          rw [setFile_get, w1]
          exact (ih1 n).written i b w2
        · rw [show setFile st.files m _ n = st.files n from if_neg hn]
          exact (ih1 n).other (fun h => by cases h) (fun _ h => hn (Eff.write.inj h).1.symm)
      · rw [hdo] at h
        rw [List.map_singleton, place_snoc]
        by_cases hj : j = i
        · rw [if_pos hj] at h
          obtain ⟨_, _, _, h⟩ := h
          cases h
          refine ⟨?_, past _ w2⟩
          unfold placeRev
          rw [if_pos ⟨hj.symm, rfl⟩, w1, hj]
          rfl
        · rw [if_neg hj] at h
          obtain ⟨g1, g2⟩ := ih2 j n pos h
          refine ⟨?_, past _ g2⟩
          unfold placeRev
          rw [if_neg (fun e => hj e.1.symm)]
          exact g1

end

end Verif
