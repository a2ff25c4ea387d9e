import Verif.Proofs.Together
import Verif.Props.Recover

/-!
# C97: runs at the same time
-/

namespace Verif
open Spec

section
variable {ι : Type} [DecidableEq ι] {base : Sys} {files : Nat → Option Bytes} {runs : ι → Step}

/-- The files that a run may write to. -/
def Writes (base : Sys) (s : Step) (n : Nat) : Prop := ∃ g, Target s.cmd g ∧ fileOf base g = some n

theorem fileOf_sys (base : Sys) (files : Nat → Option Bytes) (s : Step) (f : FileSpec) : fileOf (s.sys base files) f = fileOf base f := by
  cases f <;> rfl

/-- Every process keeps to the files that it is told to write to. -/
theorem proc_within_any (base : Sys) (s : Step) : (s.proc base).doing.Within (s.proc base).sys (fun _ => True) (Writes base s) :=
  task_within (fun _ _ _ _ => trivial) (fun f n hf hn => ⟨trivial, f, hf, by rw [← hn]; exact (fileOf_sys _ _ _ _).symm⟩)
    fun F F' h => by rw [show F = F' from funext fun n => h n trivial]

omit [DecidableEq ι] in
theorem proc_within {i : ι} (h : LeftAlone base runs i) :
    ((runs i).proc base).doing.Within ((runs i).proc base).sys (LeftBy base runs i) (Writes base (runs i)) :=
  task_within (fun f n hf hn => h.reads f n hf (by rw [← hn]; exact (fileOf_sys _ _ _ _).symm))
    (fun f n hf hn => ⟨h.writes f n hf (by rw [← hn]; exact (fileOf_sys _ _ _ _).symm), f, hf, by rw [← hn]; exact (fileOf_sys _ _ _ _).symm⟩)
    h.rules

theorem solo_within {M T : Nat → Prop} {F F' : Nat → Option Bytes} {p : Proc} (hp : p.doing.Within p.sys M T) (hF : ∀ n, M n → F n = F' n) (k : Nat) :
    (solo k (F, p)).2 = (solo k (F', p)).2 ∧ (∀ n, M n → (solo k (F, p)).1 n = (solo k (F', p)).1 n) ∧
      (solo k (F, p)).2.doing.Within p.sys M T ∧ (solo k (F, p)).2.sys = p.sys ∧ ∀ n, ¬ T n → (solo k (F, p)).1 n = F n := by
  induction k with
  | zero => exact ⟨rfl, hF, hp, rfl, fun _ _ => rfl⟩
  | succ k ih =>
    obtain ⟨h1, h2, h3, h4, h5⟩ := ih
    rw [solo_succ, solo_succ, ← h1]
    obtain ⟨g1, g2, g3, g4⟩ := step_within (p := (solo k (F, p)).2) (by rw [h4]; exact h3) h2
    exact ⟨g1, g2, by rw [h4] at g3; exact g3, by rw [step_sys, h4], fun n hn => by rw [g4 n hn, h5 n hn]⟩

theorem run_append (s : Shared ι) (a b : List ι) : s.run (a ++ b) = (s.run a).run b := by
  induction a generalizing s with
  | nil => rfl
  | cons i a ih => exact ih _

theorem together_snoc (order : List ι) (i : ι) : together base files runs (order ++ [i]) = (together base files runs order).step i :=
  run_append _ _ _

/-- All processes keep to the files that they are told to write to. -/
theorem together_within (order : List ι) (j : ι) :
    ((together base files runs order).procs j).doing.Within ((runs j).proc base).sys (fun _ => True) (Writes base (runs j)) ∧
      ((together base files runs order).procs j).sys = ((runs j).proc base).sys := by
  induction order using List.reverseRecOn with
  | nil => exact ⟨proc_within_any base (runs j), rfl⟩
  | append_singleton order i ih =>
    rw [together_snoc]
    unfold Shared.step
    simp only
    by_cases h : j = i
    · subst h
      rw [if_pos rfl]
      obtain ⟨h1, h2⟩ := ih
      have := (step_within (p := (together base files runs order).procs j) (F := (together base files runs order).files)
        (F' := (together base files runs order).files) (by rw [h2]; exact h1) fun _ _ => rfl).2.2.1
      rw [h2] at this
      exact ⟨this, by rw [step_sys, h2]⟩
    · rw [if_neg h]
      exact ih

/-- A process that is left alone is where it would be if it were alone. -/
theorem together_solo {i : ι} (h : LeftAlone base runs i) (order : List ι) :
    (together base files runs order).procs i = (solo (order.count i) (files, (runs i).proc base)).2 ∧
      ∀ n, LeftBy base runs i n → (together base files runs order).files n = (solo (order.count i) (files, (runs i).proc base)).1 n := by
  induction order using List.reverseRecOn with
  | nil => exact ⟨rfl, fun _ _ => rfl⟩
  | append_singleton order j ih =>
    obtain ⟨h1, h2⟩ := ih
    rw [together_snoc, List.count_append]
    unfold Shared.step
    simp only
    by_cases hj : j = i
    · subst hj
      rw [if_pos rfl, List.count_singleton_self, solo_succ]
      obtain ⟨_, _, g3, g4, _⟩ := solo_within (proc_within h) (F := files) (F' := files) (fun _ _ => rfl) (order.count j)
      obtain ⟨k1, k2, _, _⟩ := step_within (p := (solo (order.count j) (files, (runs j).proc base)).2) (by rw [g4]; exact g3) h2
      rw [h1]
      exact ⟨k1, k2⟩
    · have hc : List.count i [j] = 0 := by simp [hj]
      rw [if_neg (fun h => hj h.symm), hc, Nat.add_zero]
      refine ⟨h1, fun n hn => ?_⟩
      rw [← h2 n hn]
      obtain ⟨g1, g2⟩ := together_within (base := base) (files := files) (runs := runs) order j
      refine (step_within (p := (together base files runs order).procs j) (F := (together base files runs order).files)
        (F' := (together base files runs order).files) (by rw [g2]; exact g1) fun _ _ => rfl).2.2.2 n ?_
      rintro ⟨g, hg, hgn⟩
      exact hn j hj g hg hgn

theorem proc_sys (base : Sys) (files : Nat → Option Bytes) (s : Step) : { (s.proc base).sys with start := files } = s.sys base files := rfl

theorem task_sys (sys : Sys) (start : Nat → Option Bytes) (o : Outside) (cmd : SubCommand) :
    cmd.task { sys with start := start } o = cmd.task sys o := by
  cases cmd with
  | applyRules => rfl
  | importFrom => rfl
  | format fs =>
    show Task.fmt _ fs = Task.fmt _ fs
    induction fs with
    | nil => rfl
    | cons f fs ih => unfold Task.fmt; rw [ih]; rfl
  | generateFingerprints fs =>
    show Task.fpGen _ _ fs = Task.fpGen _ _ fs
    induction fs with
    | nil => rfl
    | cons f fs ih => unfold Task.fpGen; rw [ih]; rfl
  | merge args =>
    show Task.merge _ _ args = Task.merge _ _ args
    have h : ∀ fs acc, Task.readInputs { sys with start := start } o.orders fs acc = Task.readInputs sys o.orders fs acc := by
      intro fs
      induction fs with
      | nil => intro acc; rfl
      | cons f fs ih =>
        intro acc
        unfold Task.readInputs
        simp only [ih]
        cases f <;> rfl
    unfold Task.merge
    rw [h]
    rfl

/-- A process that is alone gets to the end, and has then done what the run does. -/
theorem solo_ends (base : Sys) (files : Nat → Option Bytes) (s : Step) :
    ∃ N, solo N (files, s.proc base) = (contentsAfter files (s.run base files).2.log,
      ⟨(s.proc base).sys, (s.run base files).2, .next (.done (s.run base files).1)⟩) := by
  obtain ⟨N, hN⟩ := reach_end (s.proc base).sys files (s.cmd.task (s.sys base fun _ => none) s.outside) World.start
  refine ⟨N, ?_⟩
  rw [proc_sys] at hN
  have : s.cmd.task (s.sys base fun _ => none) s.outside = s.cmd.task (s.sys base files) s.outside :=
    (task_sys (s.sys base fun _ => none) files s.outside s.cmd).symm
  rw [this, task_prog] at hN
  rw [← this] at hN
  exact hN

/-- What a process that is alone has done so far. -/
theorem solo_so_far (base : Sys) (files : Nat → Option Bytes) (s : Step) (k : Nat) :
    (solo k (files, s.proc base)).2.world.log <+: (s.run base files).2.log ∧
      (solo k (files, s.proc base)).1 = contentsAfter files (solo k (files, s.proc base)).2.world.log ∧
      ∀ r, (solo k (files, s.proc base)).2.Finished r →
        r = (s.run base files).1 ∧ (solo k (files, s.proc base)).2.world.log = (s.run base files).2.log := by
  obtain ⟨N, hN⟩ := solo_ends base files s
  have hs : Sound files (files, s.proc base) := ⟨rfl, trivial⟩
  refine ⟨?_, (sound_solo hs k).1, fun r hr => ?_⟩
  · rcases Nat.le_total k N with h | h
    · obtain ⟨m, rfl⟩ := Nat.exists_eq_add_of_le h
      have := solo_log m (solo k (files, s.proc base))
      rwa [← solo_add, hN] at this
    · obtain ⟨m, rfl⟩ := Nat.exists_eq_add_of_le h
      rw [solo_add, hN, solo_stays]
  · rcases Nat.le_total k N with h | h
    · obtain ⟨m, rfl⟩ := Nat.exists_eq_add_of_le h
      rw [solo_add, show solo k (files, s.proc base) = ((solo k (files, s.proc base)).1, (solo k (files, s.proc base)).2) from rfl,
        solo_done m hr] at hN
      rw [Prod.ext_iff] at hN
      have h2 := hN.2
      simp only at h2
      unfold Proc.Finished at hr
      rw [h2] at hr ⊢
      simp only [Doing.next.injEq, Task.done.injEq] at hr
      exact ⟨hr.symm, rfl⟩
    · obtain ⟨m, rfl⟩ := Nat.exists_eq_add_of_le h
      rw [solo_add, hN, solo_stays] at hr ⊢
      unfold Proc.Finished at hr
      simp only [Doing.next.injEq, Task.done.injEq] at hr
      exact ⟨hr.symm, rfl⟩

/-- **C97 (left alone).** However the steps of processes come in turn, and whatever the other processes do to each other: if none of them may
write to a file that this one reads or may write to, then this one has done part of what it does if it runs alone; and if it has come to an
end, then it has done all of it, with the same result. -/
theorem C97_left_alone {i : ι} (h : LeftAlone base runs i) (order : List ι) :
    ((together base files runs order).procs i).world.log <+: ((runs i).run base files).2.log ∧
    (∀ n, LeftBy base runs i n →
      (together base files runs order).files n = contentsAfter files ((together base files runs order).procs i).world.log n) ∧
    ∀ r, ((together base files runs order).procs i).Finished r →
      r = ((runs i).run base files).1 ∧ ((together base files runs order).procs i).world.log = ((runs i).run base files).2.log := by
  obtain ⟨h1, h2⟩ := together_solo (files := files) h order
  obtain ⟨g1, g2, g3⟩ := solo_so_far base files (runs i) (order.count i)
  rw [h1]
  exact ⟨g1, fun n hn => by rw [h2 n hn, g2], g3⟩

/-- **C97 (coming to an end).** A process that is left alone comes to its end after some number of its own steps, however many steps others
do in between. -/
theorem C97_ends {i : ι} (h : LeftAlone base runs i) :
    ∃ N, ∀ order : List ι, N ≤ order.count i → Ended ((together base files runs order).procs i) := by
  obtain ⟨N, hN⟩ := solo_ends base files (runs i)
  refine ⟨N, fun order ho => ⟨((runs i).run base files).1, ?_⟩⟩
  rw [(together_solo (files := files) h order).1]
  obtain ⟨m, hm⟩ := Nat.exists_eq_add_of_le ho
  rw [hm, solo_add, hN, solo_stays]
  rfl

omit [DecidableEq ι] in
theorem run_leftAlone {i : ι} (h : LeftAlone base runs i) {F : Nat → Option Bytes} (hF : ∀ n, LeftBy base runs i n → F n = files n) :
    ((runs i).run base F).1 = ((runs i).run base files).1 ∧ ((runs i).run base F).2.log = ((runs i).run base files).2.log := by
  obtain ⟨N, hN⟩ := solo_ends base files (runs i)
  obtain ⟨N', hN'⟩ := solo_ends base F (runs i)
  have h1 := solo_add N N' (files, (runs i).proc base)
  rw [hN, solo_stays] at h1
  have h2 := solo_add N' N (F, (runs i).proc base)
  rw [hN', solo_stays, Nat.add_comm] at h2
  have h3 := (solo_within (proc_within h) hF (N + N')).1
  rw [h1, h2] at h3
  simp only [Proc.mk.injEq, Doing.next.injEq, Task.done.injEq, true_and] at h3
  exact ⟨h3.2, by rw [h3.1]⟩

/-- **C97 (one after the other).** If no process may write to a file that another one reads or may write to, then the files are at any moment
what they are after running the commands one after the other, in whatever order, each as far as its process has come. -/
theorem C97_one_after_the_other (h : ∀ i, LeftAlone base runs i) (order : List ι) (turns : List ι) (hn : turns.Nodup)
    (ht : ∀ i ∈ order, i ∈ turns) :
    (together base files runs order).files =
      afterSession base files (turns.map fun i => (runs i).soFar ((together base files runs order).procs i)) := by
  set st := together base files runs order with hst
  have hlog : ∀ i, ∀ F : Nat → Option Bytes, (∀ n, LeftBy base runs i n → F n = files n) →
      ((runs i).soFar (st.procs i)).after base F = contentsAfter F (st.procs i).world.log := by
    intro i F hF
    obtain ⟨g1, _, g3⟩ := C97_left_alone (files := files) (h i) order
    have hrun : (((runs i).soFar (st.procs i)).run base F).2.log = ((runs i).run base files).2.log := (run_leftAlone (h i) hF).2
    unfold Step.after
    rw [hrun]
    by_cases he : Ended (st.procs i)
    · obtain ⟨r, hr⟩ := he
      rw [show ((runs i).soFar (st.procs i)).killed = none from if_pos ⟨r, hr⟩]
      simp only
      rw [← (g3 r hr).2]
    · rw [show ((runs i).soFar (st.procs i)).killed = some (st.procs i).world.log.length from if_neg he]
      simp only
      rw [← List.prefix_iff_eq_take.1 g1]
  have htouch : ∀ i n, ¬ Writes base (runs i) n → ∀ F : Nat → Option Bytes, ((runs i).soFar (st.procs i)).after base F n = F n := by
    intro i n hw F
    exact step_untouched base F _ n fun f hf hfn => hw ⟨f, hf, hfn⟩
  have hleft : ∀ i j n, i ≠ j → Writes base (runs i) n → ¬ Writes base (runs j) n := by
    rintro i j n hij ⟨f, hf, hfn⟩ ⟨g, hg, hgn⟩
    exact (h i).writes f n hf hfn j (fun e => hij e.symm) g hg hgn
  have key : ∀ (l : List ι) (F : Nat → Option Bytes), l.Nodup → (∀ i ∈ l, ∀ n, LeftBy base runs i n → F n = files n) → ∀ n,
      ((∀ i ∈ l, ¬ Writes base (runs i) n) → afterSession base F (l.map fun i => (runs i).soFar (st.procs i)) n = F n) ∧
      ∀ i ∈ l, Writes base (runs i) n →
        afterSession base F (l.map fun i => (runs i).soFar (st.procs i)) n = contentsAfter files (st.procs i).world.log n := by
    intro l
    induction l with
    | nil => intro F _ _ n; exact ⟨fun _ => rfl, fun i hi => by cases hi⟩
    | cons i l ih =>
      intro F hl hF n
      obtain ⟨hi, hl⟩ := List.nodup_cons.1 hl
      have hF' : ∀ j ∈ l, ∀ m, LeftBy base runs j m → ((runs i).soFar (st.procs i)).after base F m = files m := by
        intro j hj m hm
        have hij : i ≠ j := fun e => hi (e ▸ hj)
        rw [htouch i m (fun ⟨g, hg, hgm⟩ => hm i hij g hg hgm)]
        exact hF j (by simp [hj]) m hm
      obtain ⟨h1, h2⟩ := ih (((runs i).soFar (st.procs i)).after base F) hl hF' n
      constructor
      · intro hw
        show afterSession base (((runs i).soFar (st.procs i)).after base F) _ n = _
        rw [h1 fun j hj => hw j (by simp [hj]), htouch i n (hw i (by simp))]
      · intro j hj hw
        show afterSession base (((runs i).soFar (st.procs i)).after base F) _ n = _
        rcases List.mem_cons.1 hj with rfl | hj
        · rw [h1 fun k hk => hleft j k n (fun e => hi (e ▸ hk)) hw, hlog j F (hF j (by simp))]
          apply contentsAfter_congr
          apply hF j (by simp)
          obtain ⟨f, hf, hfn⟩ := hw
          exact (h j).writes f n hf hfn
        · exact h2 j hj hw
  funext n
  obtain ⟨k1, k2⟩ := key turns files hn (fun _ _ _ _ => rfl) n
  by_cases hw : ∃ i ∈ turns, Writes base (runs i) n
  · obtain ⟨i, hi, hw⟩ := hw
    rw [k2 i hi hw]
    obtain ⟨f, hf, hfn⟩ := hw
    exact (C97_left_alone (files := files) (h i) order).2.1 n ((h i).writes f n hf hfn)
  · have hw : ∀ i ∈ turns, ¬ Writes base (runs i) n := fun i hi hx => hw ⟨i, hi, hx⟩
    rw [k1 hw, hst]
    clear k1 k2 key hleft htouch hlog
    clear_value st
    clear hst
    induction order using List.reverseRecOn with
    | nil => rfl
    | append_singleton order j ih =>
      rw [together_snoc]
      show (((together base files runs order).procs j).step (together base files runs order).files).1 n = _
      obtain ⟨g1, g2⟩ := together_within (base := base) (files := files) (runs := runs) order j
      rw [(step_within (p := (together base files runs order).procs j) (F := (together base files runs order).files)
        (F' := (together base files runs order).files) (by rw [g2]; exact g1) fun _ _ => rfl).2.2.2 n (hw j (ht j (by simp)))]
      exact ih fun i hi => ht i (by simp [hi])

/-! ### Runs that use the same files -/

theorem run_replicate (s : Shared ι) (i : ι) (k : Nat) :
    s.run (List.replicate k i) = ⟨(solo k (s.files, s.procs i)).1, fun j => if j = i then (solo k (s.files, s.procs i)).2 else s.procs j⟩ := by
  induction k generalizing s with
  | zero =>
    show s = _
    obtain ⟨F, P⟩ := s
    simp only [Shared.mk.injEq]
    refine ⟨rfl, funext fun j => ?_⟩
    by_cases h : j = i
    · rw [if_pos h, h]; rfl
    · rw [if_neg h]
  | succ k ih =>
    show (s.step i).run (List.replicate k i) = _
    rw [ih]
    simp only [Shared.step, if_true]
    simp only [Shared.mk.injEq]
    refine ⟨rfl, funext fun j => ?_⟩
    by_cases h : j = i
    · rw [if_pos h, if_pos h]; rfl
    · rw [if_neg h, if_neg h, if_neg h]

/-- **C97 (any moment).** If a command reads before it writes, as all do but `fmt` and `generate-fingerprints` for several files, it can see
the files as they are at any moment of another run, and write when the other run is over. Both come to an end then, the first with the result
that it has alone. Nobody notices that what the second run wrote is not based on what the first one did. -/
theorem C97_any_moment (base : Sys) (files : Nat → Option Bytes) (runs : ι → Step) {i j : ι} (hij : i ≠ j) (hr : ReadsFirst (runs j).cmd) (k : Nat) :
    ∃ order, ((together base files runs order).procs i).Finished ((runs i).run base files).1 ∧
      ((together base files runs order).procs j).Finished
        ((runs j).run base (contentsAfter files (((runs i).run base files).2.log.take k))).1 ∧
      (together base files runs order).files = contentsAfter (contentsAfter files ((runs i).run base files).2.log)
        ((runs j).run base (contentsAfter files (((runs i).run base files).2.log.take k))).2.log := by
  obtain ⟨N, hN⟩ := solo_ends base files (runs i)
  -- process `i` up to the moment
  obtain ⟨m, hm, hml⟩ := solo_moment (files, (runs i).proc base) N (min k ((runs i).run base files).2.log.length) (Nat.zero_le _)
    (by rw [hN]; exact Nat.min_le_right _ _)
  obtain ⟨g1, g2, _⟩ := solo_so_far base files (runs i) m
  have hlog : (solo m (files, (runs i).proc base)).2.world.log = ((runs i).run base files).2.log.take k := by
    rw [List.prefix_iff_eq_take.1 g1, hml, List.take_eq_take_iff]
    omega
  rw [hlog] at g2
  generalize hF : contentsAfter files (((runs i).run base files).2.log.take k) = F at g2
  -- process `j` reads
  obtain ⟨w', t', ⟨a, ha⟩, hb, hwl, hprog⟩ := reach_blind (task_first hr ((runs j).sys base fun _ => none) (runs j).outside) F ((runs j).proc base).sys
    World.start rfl
  have hproc : (⟨((runs j).proc base).sys, World.start, .next ((runs j).cmd.task ((runs j).sys base fun _ => none) (runs j).outside)⟩ : Proc) =
    (runs j).proc base := rfl
  rw [hproc] at ha
  rw [proc_sys] at hprog
  have hj : t'.prog ((runs j).sys base F) w' = (runs j).run base F := by
    rw [hprog]
    show _ = (runs j).cmd.run ((runs j).sys base F) (runs j).outside World.start
    rw [← task_prog]
    have : (runs j).cmd.task ((runs j).sys base fun _ => none) (runs j).outside = (runs j).cmd.task ((runs j).sys base F) (runs j).outside :=
      (task_sys ((runs j).sys base fun _ => none) F (runs j).outside (runs j).cmd).symm
    rw [this]
  -- process `i` goes on to its end
  obtain ⟨b, hb'⟩ := Nat.exists_eq_add_of_le hm
  have hi := (solo_add m b (files, (runs i).proc base)).symm
  rw [← hb', hN, show solo m (files, (runs i).proc base) = (F, (solo m (files, (runs i).proc base)).2) from Prod.ext g2 rfl] at hi
  -- process `j` writes
  generalize hG : contentsAfter files ((runs i).run base files).2.log = G at hi
  obtain ⟨c, hc⟩ := reach_end ((runs j).proc base).sys G t' w'
  rw [blind_prog hb ((runs j).proc base).sys G F, proc_sys, hj, show contentsAfter G w'.log = G by rw [hwl]; rfl] at hc
  refine ⟨List.replicate m i ++ (List.replicate a j ++ (List.replicate b i ++ List.replicate c j)), ?_⟩
  have hji : j ≠ i := fun e => hij e.symm
  unfold together
  rw [run_append, run_append, run_append, run_replicate, run_replicate, run_replicate, run_replicate]
  simp only [if_neg hji, if_neg hij, if_true]
  rw [g2, ha]
  simp only
  rw [hi]
  simp only
  rw [hc]
  exact ⟨rfl, rfl, rfl⟩

/-- **C97 (lost update).** If a command reads before it writes, there is an order of steps in which both runs come to an end with the results that
they have alone, and every file that the second run writes is as if the first run had never been. -/
theorem C97_lost_update (base : Sys) (files : Nat → Option Bytes) (runs : ι → Step) {i j : ι} (hij : i ≠ j) (hr : ReadsFirst (runs j).cmd) :
    ∃ order, ((together base files runs order).procs i).Finished ((runs i).run base files).1 ∧
      ((together base files runs order).procs j).Finished ((runs j).run base files).1 ∧
      ∀ n, Eff.create n ∈ ((runs j).run base files).2.log →
        (together base files runs order).files n = contentsAfter files ((runs j).run base files).2.log n := by
  obtain ⟨order, h1, h2, h3⟩ := C97_any_moment base files runs hij hr 0
  refine ⟨order, h1, h2, fun n hn => ?_⟩
  rw [h3]
  exact contentsAfter_created hn

/-- **C97 (the journal is gone).** A run that rewrites a file, and `fmt` for the same file at the same time: there is an order of steps in which
the run has the result that it has alone, `fmt` succeeds, and nothing of the journal is left, neither what was in it before nor what the run
has written. -/
theorem C97_journal_gone (base : Sys) (files : Nat → Option Bytes) (runs : ι → Step) {i j : ι} (hij : i ≠ j) (p : Str)
    (hi : Eff.create (base.file p) ∈ ((runs i).run base files).2.log) (hj : (runs j).cmd = .format [.path p])
    (hf : ∀ n, (runs j).fault n = none) {L : Ledger} (hL : base.parse [] = some L) :
    ∃ order, ((together base files runs order).procs i).Finished ((runs i).run base files).1 ∧
      ((together base files runs order).procs j).Finished (.ok ()) ∧
      (together base files runs order).files (base.file p) = some (encodeUtf8 (base.render L)) := by
  obtain ⟨pre, post, hsplit⟩ := List.append_of_mem hi
  obtain ⟨order, h1, h2, h3⟩ := C97_any_moment base files runs hij (show ReadsFirst (runs j).cmd by rw [hj]; exact Nat.le_refl 1) (pre.length + 1)
  have hF : contentsAfter files (((runs i).run base files).2.log.take (pre.length + 1)) (base.file p) = some [] := by
    rw [hsplit, show pre ++ Eff.create (base.file p) :: post = (pre ++ [Eff.create (base.file p)]) ++ post by simp,
      List.take_left' (by simp), contentsAfter_append]
    simp [contentsAfter]
  generalize contentsAfter files (((runs i).run base files).2.log.take (pre.length + 1)) = F at h2 h3 hF
  have hrun : ((runs j).run base F).1 = .ok () ∧ ((runs j).run base F).2.log = wholeWrite base (.path p) (base.render L) := by
    unfold Step.run
    rw [hj]
    have hread : Files.readLedgerFile ((runs j).sys base F) (.path p) World.start = (.ok L, { World.start with ops := 1 }) := by
      show Prog.bind (Files.readFile _ _) _ _ = _
      unfold Prog.bind
      simp only [Files.readFile, World.start, contentsAfter, Step.sys, hF, hf]
      simp only [show decodeUtf8 [] = some [] by decide +kernel, Prog.ofOption, Prog.pure, hL]
    have hwrite : Files.writeLedgerFile ((runs j).sys base F) (.path p) L { World.start with ops := 1 } =
        (.ok (), ⟨wholeWrite base (.path p) (base.render L), 2, false, 0⟩) := by
      simp only [Files.writeLedgerFile, Files.writeFile, Step.sys, hf]
      rfl
    have : SubCommand.run ((runs j).sys base F) (runs j).outside (.format [.path p]) World.start =
        (.ok (), ⟨wholeWrite base (.path p) (base.render L), 2, false, 0⟩) := by
      show Prog.bind _ (fun L => Prog.bind (Files.writeLedgerFile _ _ L) _) _ = _
      unfold Prog.bind
      rw [hread]
      simp only
      rw [hwrite]
      rfl
    rw [this]
    exact ⟨rfl, rfl⟩
  refine ⟨order, h1, by rw [← hrun.1]; exact h2, ?_⟩
  rw [h3, hrun.2, contentsAfter_whole, if_pos (show fileOf base (.path p) = some (base.file p) from rfl)]

end

/-! ### Cases that meet the hypotheses -/

/-- Two runs of `merge`, by the names of their files. -/
def twoMerges (a b : MergeCmd.Args) : Bool → Step
  | true => mergeStep a .sorted (fun _ => none) none
  | false => mergeStep b .rev (fun n => if n = 2 then some 3 else none) none

/-- The files `c` and `d` are merged into the file `p`. -/
def intoThird : MergeCmd.Args := ⟨[Ex.file "c", Ex.file "d"], none, Ex.file "p"⟩

/-- The hypotheses of `C97_left_alone`, `C97_ends` and `C97_one_after_the_other` are met by two runs that merge different files into different files;
one of them fails in the middle of writing. -/
theorem twoMerges_leftAlone (b : Bool) : LeftAlone (Ex.system "ab" "c" fun _ => none) (twoMerges intoOther intoThird) b := by
  have hT : ∀ c g n, Target (twoMerges intoOther intoThird c).cmd g → fileOf (Ex.system "ab" "c" fun _ => none) g = some n →
      n = if c then 111 else 112 := by
    rintro (_ | _) g n (rfl | hg) hn
    · exact (Option.some.inj hn).symm
    · cases hg
    · exact (Option.some.inj hn).symm
    · cases hg
  have hR : ∀ c f n, Reads (twoMerges intoOther intoThird c).cmd f → fileOf (Ex.system "ab" "c" fun _ => none) f = some n → n < 101 := by
    intro c f n hf hn
    cases c with
    | true =>
      rcases List.mem_cons.1 (show f ∈ [Ex.file "a", Ex.file "b"] from hf) with rfl | hf
      · rw [← Option.some.inj hn]; decide
      · rw [List.mem_singleton.1 hf] at hn; rw [← Option.some.inj hn]; decide
    | false =>
      rcases List.mem_cons.1 (show f ∈ [Ex.file "c", Ex.file "d"] from hf) with rfl | hf
      · rw [← Option.some.inj hn]; decide
      · rw [List.mem_singleton.1 hf] at hn; rw [← Option.some.inj hn]; decide
  refine ⟨?_, ?_, ?_⟩
  · intro f n hf hn c _ g hg hgn
    have := hR _ _ _ hf hn
    have := hT _ _ _ hg hgn
    cases c <;> simp at this <;> omega
  · intro f n hf hn c hc g hg hgn
    have h1 := hT _ _ _ hf hn
    have h2 := hT _ _ _ hg hgn
    cases b <;> cases c <;> simp_all
  · intro F F' _
    cases b <;> rfl

example (files : Nat → Option Bytes) (order : List Bool) :
    (together (Ex.system "ab" "c" fun _ => none) files (twoMerges intoOther intoThird) order).files =
      afterSession (Ex.system "ab" "c" fun _ => none) files ([true, false].map fun b => (twoMerges intoOther intoThird b).soFar
        ((together (Ex.system "ab" "c" fun _ => none) files (twoMerges intoOther intoThird) order).procs b)) :=
  C97_one_after_the_other twoMerges_leftAlone order [true, false] (by decide) (fun b _ => by cases b <;> simp)

/-- Two files with a statement each, `b` and `d`, are merged into the journal `a`. -/
def addTo (f : String) : MergeCmd.Args := ⟨[Ex.file "a", Ex.file f], none, Ex.file "a"⟩

/-- The journal with a payment in a café, a statement with a bus ticket and one with something from a shop. -/
def threeFiles : Nat → Option Bytes := fun n =>
  if n = 97 then some (encodeUtf8 "b".toList) else if n = 98 then some (encodeUtf8 "t".toList)
  else if n = 100 then some (encodeUtf8 "a".toList) else none

set_option maxRecDepth 100000 in
/-- **C97 (a case).** Two statements are merged into one journal at the same time. Alone, the first run writes the café and the bus, the second one the
café and the shop. Together, both can succeed, and there is no bus in the journal. -/
theorem C97_no_bus : ∃ (base : Sys) (files : Nat → Option Bytes) (runs : Bool → Step) (order : List Bool),
    (runs true).after base files 97 = some (encodeUtf8 "cb".toList) ∧ (runs false).after base files 97 = some (encodeUtf8 "cs".toList) ∧
    (∀ b, ((together base files runs order).procs b).Finished (.ok ())) ∧
    (together base files runs order).files 97 = some (encodeUtf8 "cs".toList) := by
  have w1 : mergedText threeFiles (addTo "b") = some "cb".toList := by
    unfold mergedText Book.journal
    simp only [mergeInputs, addTo, groups_eval, Ex.mergeSort_eval Book.dateOf]
    decide +kernel
  have r1 : (mergeInputs (mergeSys threeFiles) false (addTo "b").inputs).bind unmergedCount = some 0 := by
    simp only [mergeInputs, addTo, groups_eval]; decide +kernel
  have w2 : mergedText threeFiles (addTo "d") = some "cs".toList := by
    unfold mergedText Book.journal
    simp only [mergeInputs, addTo, groups_eval, Ex.mergeSort_eval Book.dateOf]
    decide +kernel
  have r2 : (mergeInputs (mergeSys threeFiles) false (addTo "d").inputs).bind unmergedCount = some 0 := by
    simp only [mergeInputs, addTo, groups_eval]; decide +kernel
  have a1 := mergeStep_run rfl w1 r1 HashOrder.sorted none
  have a2 := mergeStep_run rfl w2 r2 HashOrder.rev none
  set runs : Bool → Step := fun b => if b then mergeStep (addTo "b") .sorted (fun _ => none) none else mergeStep (addTo "d") .rev (fun _ => none) none
    with hruns
  obtain ⟨order, h1, h2, h3⟩ := C97_lost_update (Ex.system "ab" "c" fun _ => none) threeFiles runs (i := true) (j := false) (by decide) trivial
  have e2 : contentsAfter threeFiles ((runs false).run (Ex.system "ab" "c" fun _ => none) threeFiles).2.log 97 = some (encodeUtf8 "cs".toList) := by
    rw [show ((runs false).run (Ex.system "ab" "c" fun _ => none) threeFiles).2.log = _ from a2.2, contentsAfter_whole,
      if_pos (show fileOf (Ex.system "ab" "c" fun _ => none) (addTo "d").output = some 97 from rfl)]
  refine ⟨Ex.system "ab" "c" fun _ => none, threeFiles, runs, order, ?_, e2, ?_, ?_⟩
  · show contentsAfter threeFiles ((runs true).run (Ex.system "ab" "c" fun _ => none) threeFiles).2.log 97 = _
    rw [show ((runs true).run (Ex.system "ab" "c" fun _ => none) threeFiles).2.log = _ from a1.2, contentsAfter_whole,
      if_pos (show fileOf (Ex.system "ab" "c" fun _ => none) (addTo "b").output = some 97 from rfl)]
  · intro b
    cases b with
    | true => rw [show ((runs true).run (Ex.system "ab" "c" fun _ => none) threeFiles).1 = .ok () from a1.1] at h1; exact h1
    | false => rw [show ((runs false).run (Ex.system "ab" "c" fun _ => none) threeFiles).1 = .ok () from a2.1] at h2; exact h2
  · rw [h3 97 ?_, e2]
    rw [show ((runs false).run (Ex.system "ab" "c" fun _ => none) threeFiles).2.log = _ from a2.2]
    exact List.mem_cons_self

set_option maxRecDepth 100000 in
/-- The hypotheses of `C97_journal_gone` are met: the journal is merged with a statement, and `fmt` is run for it at the same time. -/
example : ∃ order : List Bool,
    (together (Ex.system "ab" "c" fun _ => none) threeFiles
      (fun b => if b then mergeStep (addTo "b") .sorted (fun _ => none) none else { mergeStep (addTo "b") .sorted (fun _ => none) none with
        cmd := .format [Ex.file "a"] }) order).files 97 = some [] := by
  have w1 : mergedText threeFiles (addTo "b") = some "cb".toList := by
    unfold mergedText Book.journal
    simp only [mergeInputs, addTo, groups_eval, Ex.mergeSort_eval Book.dateOf]
    decide +kernel
  have r1 : (mergeInputs (mergeSys threeFiles) false (addTo "b").inputs).bind unmergedCount = some 0 := by
    simp only [mergeInputs, addTo, groups_eval]; decide +kernel
  have a1 := mergeStep_run rfl w1 r1 HashOrder.sorted none
  obtain ⟨order, _, _, h⟩ := C97_journal_gone (Ex.system "ab" "c" fun _ => none) threeFiles
    (fun b => if b then mergeStep (addTo "b") .sorted (fun _ => none) none else { mergeStep (addTo "b") .sorted (fun _ => none) none with
        cmd := .format [Ex.file "a"] }) (i := true) (j := false) (by decide) "a".toList
    (by
      show _ ∈ ((mergeStep (addTo "b") .sorted (fun _ => none) none).run (Ex.system "ab" "c" fun _ => none) threeFiles).2.log
      rw [a1.2]
      exact List.mem_cons_self)
    rfl (fun _ => rfl) (L := ⟨[]⟩) rfl
  exact ⟨order, h⟩

end Verif
