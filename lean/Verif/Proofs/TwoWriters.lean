import Verif.Props.Together
import Verif.Spec.TwoWriters

/-!
# Several runs that write to the same file
-/

namespace Verif
open Spec

/-- A task that reads nothing gets to its end, whatever the files are. -/
theorem blind_end {t : Task Unit} (h : t.Blind) (sys : Sys) (w : World) :
    ∃ L, (t.prog sys w).2.log = w.log ++ L ∧ ∀ G, Reaches (G, ⟨sys, w, .next t⟩)
      (contentsAfter G L, ⟨sys, (t.prog sys w).2, .next (.done (t.prog sys w).1)⟩) := by
  induction t generalizing w with
  | done r => exact ⟨[], by simp [Task.prog], fun G => .refl _⟩
  | read f k ih => exact h.elim
  | look p k ih => exact h.elim
  | load k ih => exact h.elim
  | draw d k ih =>
    obtain ⟨L, h1, h2⟩ := ih _ (h w.drawn) { w with drawn := d w.drawn }
    exact ⟨L, h1, fun G => .first (h2 G)⟩
  | dirs k ih =>
    obtain ⟨L, h1, h2⟩ := ih _ (h (ImportCmd.createDirs sys w).1) (ImportCmd.createDirs sys w).2
    have hlog : (ImportCmd.createDirs sys w).2.log = w.log := by
      simp only [ImportCmd.createDirs]; cases sys.fault w.ops <;> rfl
    refine ⟨L, by rw [hlog] at h1; exact h1, fun G => .first ?_⟩
    have key : (⟨sys, w, .next (.dirs k)⟩ : Proc).step G = (G, ⟨sys, (ImportCmd.createDirs sys w).2,
        .next (k (ImportCmd.createDirs sys w).1)⟩) := by
      simp only [Proc.step, ImportCmd.createDirs, Proc.op]
      cases sys.fault w.ops <;> rfl
    rw [show ((G, (⟨sys, w, .next (.dirs k)⟩ : Proc)).2.step G) = _ from key]
    exact h2 G
  | write f bytes k ih =>
    obtain ⟨L, h1, h2⟩ := ih _ (h (Files.writeBytes sys f bytes w).1) (Files.writeBytes sys f bytes w).2
    cases f with
    | stdio =>
      cases hf : sys.fault w.ops with
      | none =>
        simp only [Files.writeBytes, hf] at h1 h2
        refine ⟨bytes.map .print ++ L, ?_, fun G => .first ?_⟩
        · simp only [Task.prog, Files.writeBytes, hf]; rw [h1, List.append_assoc]
        · simp only [Proc.step, Task.prog, Files.writeBytes, Proc.op, hf]
          refine (reach_printing _ _).trans ?_
          rw [contentsAfter_append, contentsAfter_print]
          exact h2 G
      | some m =>
        simp only [Files.writeBytes, hf] at h1 h2
        refine ⟨(bytes.take m).map .print ++ L, ?_, fun G => .first ?_⟩
        · simp only [Task.prog, Files.writeBytes, hf]; rw [h1, List.append_assoc]
        · simp only [Proc.step, Task.prog, Files.writeBytes, Proc.op, hf]
          refine (reach_printing _ _).trans ?_
          rw [contentsAfter_append, contentsAfter_print]
          exact h2 G
    | path p =>
      have key : ∀ (G : Nat → Option Bytes) (bs : Bytes) (r : Except CmdErr Unit),
          Reaches (setFile G (sys.file p) [], ⟨sys, ⟨w.log ++ [.create (sys.file p)], w.ops + 1, w.stdinRead, w.drawn⟩,
              .writing (sys.file p) 0 bs r k⟩)
            (contentsAfter G (.create (sys.file p) :: bs.map (.write (sys.file p))),
              ⟨sys, ⟨w.log ++ .create (sys.file p) :: bs.map (.write (sys.file p)), w.ops + 1, w.stdinRead, w.drawn⟩, .next (k r)⟩) := by
        intro G bs r
        have := reach_writing (sys := sys) (n := sys.file p) (r := r) (k := k) bs (setFile G (sys.file p) [])
          ⟨w.log ++ [.create (sys.file p)], w.ops + 1, w.stdinRead, w.drawn⟩ 0 [] (by simp [setFile]) rfl
        simp only [List.append_assoc, List.singleton_append] at this
        exact this
      rcases hf : sys.fault w.ops with _ | _ | m
      · simp only [Files.writeBytes, hf] at h1 h2
        refine ⟨.create (sys.file p) :: bytes.map (.write (sys.file p)) ++ L, ?_, fun G => .first ?_⟩
        · simp only [Task.prog, Files.writeBytes, hf]; rw [h1, List.append_assoc]
        · simp only [Proc.step, Task.prog, Files.writeBytes, Proc.op, Proc.did, hf]
          refine (key _ _ _).trans ?_
          rw [contentsAfter_append]
          exact h2 _
      · simp only [Files.writeBytes, hf] at h1 h2
        refine ⟨L, ?_, fun G => .first ?_⟩
        · simp only [Task.prog, Files.writeBytes, hf]; rw [h1]
        · simp only [Proc.step, Task.prog, Files.writeBytes, Proc.op, hf]
          exact h2 _
      · simp only [Files.writeBytes, hf] at h1 h2
        refine ⟨.create (sys.file p) :: (bytes.take m).map (.write (sys.file p)) ++ L, ?_, fun G => .first ?_⟩
        · simp only [Task.prog, Files.writeBytes, hf]; rw [h1, List.append_assoc]
        · simp only [Proc.step, Task.prog, Files.writeBytes, Proc.op, Proc.did, hf]
          refine (key _ _ _).trans ?_
          rw [contentsAfter_append]
          exact h2 _

theorem not_created (n : Nat) (bs : Bytes) : Eff.create n ∉ bs.map Eff.print := by
  intro hx
  obtain ⟨_, _, e⟩ := List.mem_map.1 hx
  cases e

theorem contentsAfter_elsewhere {G : Nat → Option Bytes} {m n : Nat} (hmn : m ≠ n) (bs : Bytes) :
    contentsAfter G (bs.map (.write m)) n = G n := by
  induction bs generalizing G with
  | nil => rfl
  | cons b bs ih =>
    show contentsAfter _ (bs.map (.write m)) n = _
    rw [ih]
    simp only [if_neg (Ne.symm hmn)]

/-- If a task that reads nothing writes to a file, then it comes to the point where it has created the file for the last time; it then
writes a text and does not touch the file any more. -/
theorem blind_create {t : Task Unit} (h : t.Blind) (sys : Sys) (w : World) (n : Nat) :
    ∃ L, (t.prog sys w).2.log = w.log ++ L ∧
      ((Eff.create n ∉ L ∧ ∀ G, contentsAfter G L n = G n) ∨
      ∃ pre text rest w' r k, L = pre ++ .create n :: text.map (.write n) ++ rest ∧ (∀ G, contentsAfter G rest n = G n) ∧
        (∀ G, Reaches (G, ⟨sys, w, .next t⟩) (setFile (contentsAfter G pre) n [], ⟨sys, w', .writing n 0 text r k⟩)) ∧
        ∀ G, Reaches (G, ⟨sys, { w' with log := w'.log ++ text.map (.write n) }, .next (k r)⟩)
          (contentsAfter G rest, ⟨sys, (t.prog sys w).2, .next (.done (t.prog sys w).1)⟩)) := by
  induction t generalizing w with
  | done r => exact ⟨[], by simp [Task.prog], .inl ⟨List.not_mem_nil, fun _ => rfl⟩⟩
  | read f k ih => exact h.elim
  | look p k ih => exact h.elim
  | load k ih => exact h.elim
  | draw d k ih =>
    obtain ⟨L, h1, h2 | ⟨pre, text, rest, w', r, k', e1, e2, e3, e4⟩⟩ := ih _ (h w.drawn) { w with drawn := d w.drawn }
    · exact ⟨L, h1, .inl h2⟩
    · exact ⟨L, h1, .inr ⟨pre, text, rest, w', r, k', e1, e2, fun G => .first (e3 G), e4⟩⟩
  | dirs k ih =>
    have hlog : (ImportCmd.createDirs sys w).2.log = w.log := by
      simp only [ImportCmd.createDirs]; cases sys.fault w.ops <;> rfl
    have key : ∀ G, (⟨sys, w, .next (.dirs k)⟩ : Proc).step G = (G, ⟨sys, (ImportCmd.createDirs sys w).2,
        .next (k (ImportCmd.createDirs sys w).1)⟩) := by
      intro G
      simp only [Proc.step, ImportCmd.createDirs, Proc.op]
      cases sys.fault w.ops <;> rfl
    obtain ⟨L, h1, h2⟩ := ih _ (h (ImportCmd.createDirs sys w).1) (ImportCmd.createDirs sys w).2
    rw [hlog] at h1
    obtain h2 | ⟨pre, text, rest, w', r, k', e1, e2, e3, e4⟩ := h2
    · exact ⟨L, h1, .inl h2⟩
    · refine ⟨L, h1, .inr ⟨pre, text, rest, w', r, k', e1, e2, fun G => .first ?_, e4⟩⟩
      rw [show ((G, (⟨sys, w, .next (.dirs k)⟩ : Proc)).2.step G) = _ from key G]
      exact e3 G
  | write f bytes k ih =>
    obtain ⟨L', hl1, hl2⟩ := blind_end (h (Files.writeBytes sys f bytes w).1) sys (Files.writeBytes sys f bytes w).2
    obtain ⟨L, h1, h2⟩ := ih _ (h (Files.writeBytes sys f bytes w).1) (Files.writeBytes sys f bytes w).2
    rw [hl1] at h1
    obtain rfl := List.append_cancel_left h1
    clear h1
    -- what this write adds
    obtain ⟨A, hA, hprint⟩ : ∃ A, (Files.writeBytes sys f bytes w).2.log = w.log ++ A ∧ ((∀ G, contentsAfter G A n = G n) ∧ Eff.create n ∉ A ∧
        (∀ G, Reaches (G, ⟨sys, w, .next (.write f bytes k)⟩) (contentsAfter G A, ⟨sys, (Files.writeBytes sys f bytes w).2,
          .next (k (Files.writeBytes sys f bytes w).1)⟩)) ∨
        ∃ text w', A = .create n :: text.map (.write n) ∧ (Files.writeBytes sys f bytes w).2 = { w' with log := w'.log ++ text.map (.write n) } ∧
          (∀ G, Reaches (G, ⟨sys, w, .next (.write f bytes k)⟩)
            (setFile G n [], ⟨sys, w', .writing n 0 text (Files.writeBytes sys f bytes w).1 k⟩)) ∧
          (∀ G, Reaches (G, ⟨sys, w, .next (.write f bytes k)⟩) (contentsAfter G A, ⟨sys, (Files.writeBytes sys f bytes w).2,
          .next (k (Files.writeBytes sys f bytes w).1)⟩))) := by
      cases f with
      | stdio =>
        cases hf : sys.fault w.ops with
        | none =>
          simp only [Files.writeBytes, hf]
          refine ⟨bytes.map .print, rfl, .inl ⟨fun G => by rw [contentsAfter_print], not_created _ _, fun G => .first ?_⟩⟩
          simp only [Proc.step, Proc.op, hf]
          rw [contentsAfter_print]
          exact reach_printing _ _
        | some m =>
          simp only [Files.writeBytes, hf]
          refine ⟨(bytes.take m).map .print, rfl, .inl ⟨fun G => by rw [contentsAfter_print], not_created _ _, fun G => .first ?_⟩⟩
          simp only [Proc.step, Proc.op, hf]
          rw [contentsAfter_print]
          exact reach_printing _ _
      | path p =>
        have key : ∀ (G : Nat → Option Bytes) (bs : Bytes) (r : Except CmdErr Unit),
            Reaches (setFile G (sys.file p) [], ⟨sys, ⟨w.log ++ [.create (sys.file p)], w.ops + 1, w.stdinRead, w.drawn⟩,
                .writing (sys.file p) 0 bs r k⟩)
              (contentsAfter G (.create (sys.file p) :: bs.map (.write (sys.file p))),
                ⟨sys, ⟨w.log ++ .create (sys.file p) :: bs.map (.write (sys.file p)), w.ops + 1, w.stdinRead, w.drawn⟩, .next (k r)⟩) := by
          intro G bs r
          have := reach_writing (sys := sys) (n := sys.file p) (r := r) (k := k) bs (setFile G (sys.file p) [])
            ⟨w.log ++ [.create (sys.file p)], w.ops + 1, w.stdinRead, w.drawn⟩ 0 [] (by simp [setFile]) rfl
          simp only [List.append_assoc, List.singleton_append] at this
          exact this
        have both : (sys.fault w.ops = some 0) ∨ ∃ (bs : Bytes) (r : Except CmdErr Unit),
            (∀ G, (⟨sys, w, .next (.write (.path p) bytes k)⟩ : Proc).step G = (setFile G (sys.file p) [],
              ⟨sys, ⟨w.log ++ [.create (sys.file p)], w.ops + 1, w.stdinRead, w.drawn⟩, .writing (sys.file p) 0 bs r k⟩)) ∧
            Files.writeBytes sys (.path p) bytes w =
              (r, ⟨w.log ++ .create (sys.file p) :: bs.map (.write (sys.file p)), w.ops + 1, w.stdinRead, w.drawn⟩) := by
          rcases hf : sys.fault w.ops with _ | _ | m
          · exact .inr ⟨bytes, .ok (), fun G => by simp only [Proc.step, Proc.op, Proc.did, hf], by simp only [Files.writeBytes, hf]⟩
          · exact .inl rfl
          · exact .inr ⟨bytes.take m, .error .write, fun G => by simp only [Proc.step, Proc.op, Proc.did, hf], by simp only [Files.writeBytes, hf]⟩
        obtain hf | ⟨bs, r, hs, hw⟩ := both
        · simp only [Files.writeBytes, hf]
          refine ⟨[], by simp, .inl ⟨fun _ => rfl, List.not_mem_nil, fun G => .first ?_⟩⟩
          simp only [Proc.step, Proc.op, hf]
          exact .refl _
        · rw [hw]
          refine ⟨.create (sys.file p) :: bs.map (.write (sys.file p)), rfl, ?_⟩
          by_cases hn : sys.file p = n
          · subst hn
            refine .inr ⟨bs, ⟨w.log ++ [.create (sys.file p)], w.ops + 1, w.stdinRead, w.drawn⟩, rfl, by simp, fun G => .first ?_, fun G => .first ?_⟩
            · rw [show ((G, (⟨sys, w, .next (.write (.path p) bytes k)⟩ : Proc)).2.step G) = _ from hs G]
              exact .refl _
            · rw [show ((G, (⟨sys, w, .next (.write (.path p) bytes k)⟩ : Proc)).2.step G) = _ from hs G]
              exact key _ _ _
          · refine .inl ⟨fun G => ?_, fun hx => ?_, fun G => .first ?_⟩
            · show contentsAfter _ (bs.map (.write (sys.file p))) n = _
              rw [contentsAfter_elsewhere hn]
              simp only [if_neg (Ne.symm hn)]
            · rcases List.mem_cons.1 hx with e | hx
              · exact hn (Eff.create.inj e).symm
              · obtain ⟨_, _, e⟩ := List.mem_map.1 hx
                cases e
            · rw [show ((G, (⟨sys, w, .next (.write (.path p) bytes k)⟩ : Proc)).2.step G) = _ from hs G]
              exact key _ _ _
    refine ⟨A ++ L', ?_, ?_⟩
    · show (Task.prog sys (k _) _).2.log = _
      rw [hl1, hA, List.append_assoc]
    rcases h2 with ⟨hno, hG⟩ | ⟨pre, text, rest, w', r, k', e1, e2, e3, e4⟩
    · rcases hprint with ⟨g1, g2, g3⟩ | ⟨text, w', g1, g2, g3, g4⟩
      · exact .inl ⟨by simp [g2, hno], fun G => by rw [contentsAfter_append, hG, g1]⟩
      · refine .inr ⟨[], text, L', w', _, k, by rw [g1]; rfl, hG, g3, fun G => ?_⟩
        rw [← g2]
        exact hl2 G
    · have hr : ∀ G, Reaches (G, ⟨sys, w, .next (.write f bytes k)⟩) (contentsAfter G A, ⟨sys, (Files.writeBytes sys f bytes w).2,
          .next (k (Files.writeBytes sys f bytes w).1)⟩) := by
        rcases hprint with ⟨g1, g2, g3⟩ | ⟨text, w', g1, g2, g3, g4⟩
        · exact g3
        · exact g4
      refine .inr ⟨A ++ pre, text, rest, w', r, k', by rw [e1]; simp, e2, fun G => (hr G).trans ?_, e4⟩
      rw [contentsAfter_append]
      exact e3 _

/-! ### Two processes in the middle of writing -/

section
variable {ι : Type} [DecidableEq ι]

/-- A file of which so much is written. -/
theorem putByte_within {old : Bytes} {x y : UInt8} : putByte (old ++ [x]) old.length y = old ++ [y] := by
  simp [putByte]

theorem setFile_setFile (F : Nat → Option Bytes) (n : Nat) (a b : Bytes) : setFile (setFile F n a) n b = setFile F n b := by
  funext m
  unfold setFile
  by_cases h : m = n <;> simp [h]

theorem setFile_get (F : Nat → Option Bytes) (n : Nat) (a : Bytes) : setFile F n a n = some a := if_pos rfl

/-- A process is put at the place of another. -/
def put (P : ι → Proc) (i : ι) (p : Proc) : ι → Proc := fun k => if k = i then p else P k

theorem put_same (P : ι → Proc) (i : ι) (p : Proc) : put P i p i = p := if_pos rfl

theorem put_other (P : ι → Proc) {i j : ι} (h : j ≠ i) (p : Proc) : put P i p j = P j := if_neg h

theorem put_put (P : ι → Proc) (i : ι) (p q : Proc) : put (put P i p) i q = put P i q := by
  funext k
  unfold put
  by_cases h : k = i <;> simp [h]

theorem put_comm (P : ι → Proc) {i j : ι} (h : i ≠ j) (p q : Proc) : put (put P i p) j q = put (put P j q) i p := by
  funext k
  unfold put
  by_cases h1 : k = i
  · subst h1; simp [h]
  · simp [h1]

theorem put_self (P : ι → Proc) (i : ι) : put P i (P i) = P := by
  funext k
  unfold put
  by_cases h : k = i
  · subst h; simp
  · simp [h]

/-- One process alone gets to another state. -/
theorem run_reaches {F : Nat → Option Bytes} {P : ι → Proc} {i : ι} {F' : Nat → Option Bytes} {p' : Proc} (h : Reaches (F, P i) (F', p')) :
    ∃ k, (Shared.mk F P).run (List.replicate k i) = ⟨F', put P i p'⟩ := by
  obtain ⟨k, hk⟩ := h
  refine ⟨k, ?_⟩
  rw [run_replicate]
  simp only
  rw [hk]
  rfl

/-- Two processes get from one state to another, and the files with them. -/
def Goes (P : ι → Proc) (i j : ι) (s s' : (Nat → Option Bytes) × Proc × Proc) : Prop :=
  ∃ order, (Shared.mk s.1 (put (put P i s.2.1) j s.2.2)).run order = ⟨s'.1, put (put P i s'.2.1) j s'.2.2⟩

theorem Goes.trans {P : ι → Proc} {i j : ι} {s s' s''} (h : Goes P i j s s') (h' : Goes P i j s' s'') : Goes P i j s s'' := by
  obtain ⟨a, ha⟩ := h
  obtain ⟨b, hb⟩ := h'
  exact ⟨a ++ b, by rw [run_append, ha, hb]⟩

theorem Goes.first {P : ι → Proc} {i j : ι} (hij : i ≠ j) {F F' : Nat → Option Bytes} {p p' q : Proc} (h : Reaches (F, p) (F', p')) :
    Goes P i j (F, p, q) (F', p', q) := by
  have hji : j ≠ i := fun e => hij e.symm
  obtain ⟨k, hk⟩ := run_reaches (P := put (put P i p) j q) (i := i) (F := F) (by rw [put_other _ hij, put_same]; exact h)
  exact ⟨_, by rw [hk, put_comm _ hji, put_put]⟩

theorem Goes.second {P : ι → Proc} {i j : ι} {F F' : Nat → Option Bytes} {p q q' : Proc} (h : Reaches (F, q) (F', q')) :
    Goes P i j (F, p, q) (F', p, q') := by
  obtain ⟨k, hk⟩ := run_reaches (P := put (put P i p) j q) (i := j) (F := F) (by rw [put_same]; exact h)
  exact ⟨_, by rw [hk, put_put]⟩

/-- One process writes the rest of its text behind what is in the file. -/
theorem reach_write_on {sys : Sys} {n : Nat} {r k} (rest : Bytes) (F : Nat → Option Bytes) (w : World) (old : Bytes) :
    Reaches (setFile F n old, ⟨sys, w, .writing n old.length rest r k⟩)
      (setFile F n (old ++ rest), ⟨sys, { w with log := w.log ++ rest.map (.write n) }, .next (k r)⟩) := by
  induction rest generalizing w old with
  | nil =>
    apply Reaches.first
    simp only [Proc.step, List.append_nil, List.map_nil]
    exact .refl _
  | cons b rest ih =>
    apply Reaches.first
    simp only [Proc.step, Proc.did, setFile_get, Option.getD_some, putByte_end, setFile_setFile]
    have := ih { w with log := w.log ++ [.write n b] } (old ++ [b])
    simp only [List.length_append, List.length_singleton, List.append_assoc, List.singleton_append] at this
    exact this

/-- A process that has nothing more to write goes on. -/
theorem reach_written {sys : Sys} {n pos : Nat} {r k} (F : Nat → Option Bytes) (w : World) :
    Reaches (F, ⟨sys, w, .writing n pos [] r k⟩) (F, ⟨sys, w, .next (k r)⟩) := by
  apply Reaches.first
  simp only [Proc.step]
  exact .refl _

theorem Spec.Mixed.nil_left {b c : Bytes} (h : Mixed [] b c) : c = b := by
  apply List.ext_getElem?
  intro i
  have hl : c.length = b.length := by rw [h.length]; simp
  cases hc : c[i]? with
  | none =>
    rw [List.getElem?_eq_none_iff] at hc
    rw [List.getElem?_eq_none (by omega)]
  | some x =>
    rcases h.bytes i x hc with h | h
    · simp at h
    · exact h.symm

theorem Spec.Mixed.symm {a b c : Bytes} (h : Mixed a b c) : Mixed b a c :=
  ⟨by rw [h.length, Nat.max_comm], fun i x hx => (h.bytes i x hx).symm⟩

theorem Spec.Mixed.tail {x y z : UInt8} {a b c : Bytes} (h : Mixed (x :: a) (y :: b) (z :: c)) : (z = x ∨ z = y) ∧ Mixed a b c := by
  refine ⟨?_, ?_, ?_⟩
  · rcases h.bytes 0 z rfl with h | h
    · exact .inl (by simpa using h.symm)
    · exact .inr (by simpa using h.symm)
  · have := h.length
    simp only [List.length_cons] at this
    omega
  · intro i w hw
    have := h.bytes (i + 1) w (by simpa using hw)
    simpa using this

/-- Two processes that write at the same place of a file can leave any mixture of their texts in it. -/
theorem reach_mixed {n : Nat} {i j : ι} (hij : i ≠ j) {si sj : Sys} {ri rj ki kj} (a b c old : Bytes) (h : Mixed a b c) (F : Nat → Option Bytes)
    (P : ι → Proc) (wi wj : World) :
    ∃ order, (Shared.mk (setFile F n old) (put (put P i ⟨si, wi, .writing n old.length a ri ki⟩) j ⟨sj, wj, .writing n old.length b rj kj⟩)).run order =
      ⟨setFile F n (old ++ c), put (put P i ⟨si, { wi with log := wi.log ++ a.map (.write n) }, .next (ki ri)⟩) j
        ⟨sj, { wj with log := wj.log ++ b.map (.write n) }, .next (kj rj)⟩⟩ := by
  have hji : j ≠ i := fun e => hij e.symm
  induction a generalizing b c old wi wj with
  | nil =>
    obtain rfl := h.nil_left
    obtain ⟨k1, h1⟩ := run_reaches (P := put (put P i ⟨si, wi, .writing n old.length [] ri ki⟩) j ⟨sj, wj, .writing n old.length c rj kj⟩)
      (i := i) (F := setFile F n old) (by rw [put_other _ hij, put_same]; exact reach_written _ _)
    obtain ⟨k2, h2⟩ := run_reaches (P := put (put (put P i ⟨si, wi, .writing n old.length [] ri ki⟩) j ⟨sj, wj, .writing n old.length c rj kj⟩) i
      ⟨si, wi, .next (ki ri)⟩) (i := j) (F := setFile F n old) (by rw [put_other _ hji, put_same]; exact reach_write_on c F wj old)
    refine ⟨List.replicate k1 i ++ List.replicate k2 j, ?_⟩
    rw [run_append, h1, h2]
    simp only [List.map_nil, List.append_nil]
    rw [put_comm _ hji, put_put, put_put]
  | cons x a ih =>
    cases b with
    | nil =>
      obtain rfl := h.symm.nil_left
      obtain ⟨k1, h1⟩ := run_reaches (P := put (put P i ⟨si, wi, .writing n old.length (x :: a) ri ki⟩) j ⟨sj, wj, .writing n old.length [] rj kj⟩)
        (i := j) (F := setFile F n old) (by rw [put_same]; exact reach_written _ _)
      obtain ⟨k2, h2⟩ := run_reaches (P := put (put (put P i ⟨si, wi, .writing n old.length (x :: a) ri ki⟩) j
        ⟨sj, wj, .writing n old.length [] rj kj⟩) j ⟨sj, wj, .next (kj rj)⟩) (i := i) (F := setFile F n old)
        (by rw [put_other _ hij, put_other _ hij, put_same]; exact reach_write_on (x :: a) F wi old)
      refine ⟨List.replicate k1 j ++ List.replicate k2 i, ?_⟩
      rw [run_append, h1, h2]
      simp only [List.map_nil, List.append_nil]
      rw [put_put, put_comm _ hji, put_put]
    | cons y b =>
      match c, h with
      | [], h => have := h.length; simp only [List.length_nil, List.length_cons] at this; omega
      | z :: c, h =>
      obtain ⟨hz, ht⟩ := h.tail
      obtain ⟨order, ho⟩ := ih b c (old ++ [z]) ht { wi with log := wi.log ++ [.write n x] } { wj with log := wj.log ++ [.write n y] }
      simp only [List.length_append, List.length_singleton, List.append_assoc, List.singleton_append] at ho
      have stepI : ∀ (G : Nat → Option Bytes) (Q : ι → Proc), Q i = ⟨si, wi, .writing n old.length (x :: a) ri ki⟩ → (Shared.mk G Q).step i =
          ⟨setFile G n (putByte ((G n).getD []) old.length x), put Q i ⟨si, { wi with log := wi.log ++ [.write n x] },
            .writing n (old.length + 1) a ri ki⟩⟩ := by
        intro G Q hQ
        simp only [Shared.step, hQ, Proc.step, Proc.did]
        rfl
      have stepJ : ∀ (G : Nat → Option Bytes) (Q : ι → Proc), Q j = ⟨sj, wj, .writing n old.length (y :: b) rj kj⟩ → (Shared.mk G Q).step j =
          ⟨setFile G n (putByte ((G n).getD []) old.length y), put Q j ⟨sj, { wj with log := wj.log ++ [.write n y] },
            .writing n (old.length + 1) b rj kj⟩⟩ := by
        intro G Q hQ
        simp only [Shared.step, hQ, Proc.step, Proc.did]
        rfl
      rcases hz with rfl | rfl
      · refine ⟨j :: i :: order, ?_⟩
        show ((Shared.step _ j).step i).run order = _
        rw [stepJ _ _ (by rw [put_same]), stepI _ _ (by rw [put_other _ hij, put_other _ hij, put_same])]
        simp only [setFile_get, Option.getD_some, putByte_end, setFile_setFile, putByte_within]
        rw [put_put, put_comm _ hji, put_put, ho]
        simp
      · refine ⟨i :: j :: order, ?_⟩
        show ((Shared.step _ i).step j).run order = _
        rw [stepI _ _ (by rw [put_other _ hij, put_same]), stepJ _ _ (by rw [put_other _ hji, put_same])]
        simp only [setFile_get, Option.getD_some, putByte_end, setFile_setFile, putByte_within]
        rw [put_comm _ hji, put_put, put_comm _ hij, put_comm _ hij, put_put, put_comm _ hji, ho]
        simp

/-- A process writes part of its text. -/
theorem reach_write_part {sys : Sys} {n : Nat} {r k} (x y : Bytes) (F : Nat → Option Bytes) (w : World) (old : Bytes) :
    Reaches (setFile F n old, ⟨sys, w, .writing n old.length (x ++ y) r k⟩)
      (setFile F n (old ++ x), ⟨sys, { w with log := w.log ++ x.map (.write n) }, .writing n (old.length + x.length) y r k⟩) := by
  induction x generalizing w old with
  | nil =>
    simp only [List.append_nil, List.map_nil, List.nil_append, List.length_nil, Nat.add_zero]
    exact .refl _
  | cons b x ih =>
    apply Reaches.first
    simp only [Proc.step, Proc.did, setFile_get, Option.getD_some, putByte_end, setFile_setFile, List.cons_append]
    have := ih { w with log := w.log ++ [.write n b] } (old ++ [b])
    simp only [List.length_append, List.length_singleton, List.append_assoc, List.singleton_append] at this
    rw [show old.length + (b :: x).length = old.length + 1 + x.length by rw [List.length_cons]; omega]
    exact this

/-- A process that is behind the end of a file writes its text there. -/
theorem reach_write_behind {sys : Sys} {n pos : Nat} {r k} (b : UInt8) (rest : Bytes) (F : Nat → Option Bytes) (w : World) :
    Reaches (setFile F n [], ⟨sys, w, .writing n pos (b :: rest) r k⟩)
      (setFile F n (List.replicate pos 0 ++ b :: rest), ⟨sys, { w with log := w.log ++ (b :: rest).map (.write n) }, .next (k r)⟩) := by
  apply Reaches.first
  simp only [Proc.step, Proc.did, setFile_get, Option.getD_some, setFile_setFile]
  have := reach_write_on (sys := sys) (n := n) (r := r) (k := k) rest F { w with log := w.log ++ [.write n b] } (List.replicate pos 0 ++ [b])
  simp only [List.length_append, List.length_replicate, List.length_singleton, List.append_assoc, List.singleton_append] at this
  rw [show putByte [] pos b = List.replicate pos 0 ++ [b] by simp [putByte]]
  exact this

/-- A process writes its text over what is in the file. -/
theorem reach_write_over {sys : Sys} {n : Nat} {r k} (text : Bytes) (F : Nat → Option Bytes) (w : World) (old a : Bytes) :
    Reaches (setFile F n (old ++ a), ⟨sys, w, .writing n old.length text r k⟩)
      (setFile F n (old ++ text ++ a.drop text.length), ⟨sys, { w with log := w.log ++ text.map (.write n) }, .next (k r)⟩) := by
  induction text generalizing w old a with
  | nil =>
    apply Reaches.first
    simp only [Proc.step, List.append_nil, List.map_nil, List.length_nil, List.drop_zero]
    exact .refl _
  | cons b rest ih =>
    apply Reaches.first
    simp only [Proc.step, Proc.did, setFile_get, Option.getD_some, setFile_setFile]
    have := ih { w with log := w.log ++ [.write n b] } (old ++ [b]) (a.drop 1)
    simp only [List.length_append, List.length_singleton, List.append_assoc, List.singleton_append, List.drop_drop] at this
    have hp : putByte (old ++ a) old.length b = old ++ b :: a.drop 1 := by
      unfold putByte
      rw [List.take_left, show old.length - (old ++ a).length = 0 by simp, List.replicate_zero, List.append_nil, List.drop_append]
      simp
    rw [hp]
    simp only [List.length_cons, List.map_cons, List.append_assoc, List.cons_append]
    rw [Nat.add_comm rest.length 1]
    exact this

theorem contentsAfter_written {G : Nat → Option Bytes} {n : Nat} {pre rest : List Eff} {text : Bytes} (h : ∀ G, contentsAfter G rest n = G n) :
    contentsAfter G (pre ++ .create n :: text.map (.write n) ++ rest) n = some text := by
  rw [contentsAfter_append, h, contentsAfter_append]
  show contentsAfter (setFile _ n []) (text.map (.write n)) n = _
  have key : ∀ (bs old : Bytes) (H : Nat → Option Bytes), H n = some old → contentsAfter H (bs.map (.write n)) n = some (old ++ bs) := by
    intro bs
    induction bs with
    | nil => intro old H h; simpa [contentsAfter] using h
    | cons b bs ih =>
      intro old H h
      show contentsAfter _ (bs.map (.write n)) n = _
      rw [ih (old ++ [b]) _ (by simp [h])]
      simp
  rw [key text [] _ (setFile_get _ _ _)]
  rfl

/-- A run that reads before it writes, and that writes to a file: it comes to the point where it has read, and then to the point where it has created
the file for the last time. -/
theorem run_created (base : Sys) (files : Nat → Option Bytes) {n : Nat} (s : Step) (hs : ReadsFirst s.cmd)
    (hc : Eff.create n ∈ (s.run base files).2.log) :
    ∃ p1, Reaches (files, s.proc base) (files, p1) ∧ ∃ text rest w r k pre,
      contentsAfter files (s.run base files).2.log n = some text ∧ (∀ G, contentsAfter G rest n = G n) ∧
      (∀ G, Reaches (G, p1) (setFile (contentsAfter G pre) n [], ⟨(s.proc base).sys, w, .writing n 0 text r k⟩)) ∧
      ∀ G, Reaches (G, ⟨(s.proc base).sys, { w with log := w.log ++ text.map (.write n) }, .next (k r)⟩)
        (contentsAfter G rest, ⟨(s.proc base).sys, (s.run base files).2, .next (.done (s.run base files).1)⟩) := by
  obtain ⟨w', t', h1, h2, h3, h4⟩ := reach_blind (task_first hs (s.sys base fun _ => none) s.outside) files (s.proc base).sys World.start rfl
  rw [proc_sys] at h4
  have hrun : t'.prog (s.proc base).sys w' = s.run base files := by
    have e : t'.prog (s.proc base).sys w' = t'.prog (s.sys base files) w' := blind_prog h2 (s.proc base).sys (s.proc base).sys.start files w'
    rw [e, h4]
    show _ = s.cmd.run (s.sys base files) s.outside World.start
    rw [← task_prog]
    have : s.cmd.task (s.sys base fun _ => none) s.outside = s.cmd.task (s.sys base files) s.outside :=
      (task_sys (s.sys base fun _ => none) files s.outside s.cmd).symm
    rw [this]
  obtain ⟨L, g1, g2⟩ := blind_create h2 (s.proc base).sys w' n
  rw [hrun, h3, List.nil_append] at g1
  rw [hrun] at g2
  obtain ⟨g2, _⟩ | ⟨pre, text, rest, w, r, k, e1, e2, e3, e4⟩ := g2
  · exact (g2 (g1 ▸ hc)).elim
  · refine ⟨_, h1, text, rest, w, r, k, pre, ?_, e2, e3, e4⟩
    rw [g1, e1]
    exact contentsAfter_written e2

/-- Two runs that read before they write come to the point where both have created the same file, for the last time, and have not yet
written to it. -/
theorem both_created (base : Sys) (files : Nat → Option Bytes) (runs : ι → Step) {i j : ι} (hij : i ≠ j) (hri : ReadsFirst (runs i).cmd)
    (hrj : ReadsFirst (runs j).cmd) {n : Nat} (hi : Eff.create n ∈ ((runs i).run base files).2.log) (hj : Eff.create n ∈ ((runs j).run base files).2.log) :
    ∃ (a b : Bytes) (G : Nat → Option Bytes) (P : ι → Proc) (si sj : Sys) (wi wj : World) (ri rj : Except CmdErr Unit)
      (ki kj : Except CmdErr Unit → Task Unit) (resti restj : List Eff) (k1 k2 k3 k4 : Nat),
      contentsAfter files ((runs i).run base files).2.log n = some a ∧ contentsAfter files ((runs j).run base files).2.log n = some b ∧
      together base files runs (List.replicate k1 i ++ (List.replicate k2 j ++ (List.replicate k3 i ++ List.replicate k4 j))) =
        ⟨setFile G n [], put (put P i ⟨si, wi, .writing n 0 a ri ki⟩) j ⟨sj, wj, .writing n 0 b rj kj⟩⟩ ∧
      (∀ G', Reaches (G', ⟨si, { wi with log := wi.log ++ a.map (.write n) }, .next (ki ri)⟩)
        (contentsAfter G' resti, ⟨si, ((runs i).run base files).2, .next (.done ((runs i).run base files).1)⟩)) ∧
      (∀ G', Reaches (G', ⟨sj, { wj with log := wj.log ++ b.map (.write n) }, .next (kj rj)⟩)
        (contentsAfter G' restj, ⟨sj, ((runs j).run base files).2, .next (.done ((runs j).run base files).1)⟩)) ∧
      (∀ G', contentsAfter G' resti n = G' n) ∧ ∀ G', contentsAfter G' restj n = G' n := by
  have hji : j ≠ i := fun e => hij e.symm
  obtain ⟨pi, hpi, a, resti, wi, ri, ki, prei, a1, a2, a3, a4⟩ := run_created base files _ hri hi
  obtain ⟨pj, hpj, b, restj, wj, rj, kj, prej, b1, b2, b3, b4⟩ := run_created base files _ hrj hj
  obtain ⟨k1, e1⟩ := run_reaches (P := fun k => (runs k).proc base) (i := i) hpi
  obtain ⟨k2, e2⟩ := run_reaches (P := put (fun k => (runs k).proc base) i pi) (i := j) (F := files) (by rw [put_other _ hji]; exact hpj)
  obtain ⟨k3, e3⟩ := run_reaches (P := put (put (fun k => (runs k).proc base) i pi) j pj) (i := i) (F := files)
    (by rw [put_other _ hij, put_same]; exact a3 _)
  obtain ⟨k4, e4⟩ := run_reaches (P := put (put (put (fun k => (runs k).proc base) i pi) j pj) i
    ⟨((runs i).proc base).sys, wi, .writing n 0 a ri ki⟩) (i := j) (F := setFile (contentsAfter files prei) n [])
    (by rw [put_other _ hji, put_same]; exact b3 _)
  refine ⟨a, b, contentsAfter (setFile (contentsAfter files prei) n []) prej, fun k => (runs k).proc base, _, _, wi, wj, ri, rj, ki, kj, resti, restj,
    k1, k2, k3, k4, a1, b1, ?_, a4, b4, a2, b2⟩
  unfold together
  rw [run_append, run_append, run_append, e1, e2, e3, e4, put_comm _ hji, put_put, put_put]

end

end Verif
