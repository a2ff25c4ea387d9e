import Verif.Spec.Files

/-!
# Lemmas about runs and files
-/

namespace Verif
open Spec

/-- What holds after a program that starts in `w`: `ok` if it succeeds and `err` if it fails. -/
def Sat {α : Type} (p : Prog α) (w : World) (ok : α → World → Prop) (err : CmdErr → World → Prop) : Prop :=
  match p w with
  | (.ok a, w') => ok a w'
  | (.error e, w') => err e w'

theorem Sat.pure {α : Type} {a : α} {w : World} {ok : α → World → Prop} {err} (h : ok a w) :
    Sat (Pure.pure a : Prog α) w ok err := h

theorem Sat.fail {α : Type} {e : CmdErr} {w : World} {ok : α → World → Prop} {err} (h : err e w) :
    Sat (Prog.fail e : Prog α) w ok err := h

theorem Sat.bind {α β : Type} {p : Prog α} {f : α → Prog β} {w : World} {ok : β → World → Prop} {err}
    (h : Sat p w (fun a w' => Sat (f a) w' ok err) err) : Sat (p >>= f) w ok err := by
  unfold Sat at h ⊢
  change match Prog.bind p f w with | (.ok a, w') => ok a w' | (.error e, w') => err e w'
  unfold Prog.bind
  rcases hp : p w with ⟨_ | _, w'⟩
  · rw [hp] at h; exact h
  · rw [hp] at h; exact h

theorem Sat.imp {α : Type} {p : Prog α} {w : World} {ok ok' : α → World → Prop} {err err'}
    (h : Sat p w ok err) (h1 : ∀ a w', ok a w' → ok' a w') (h2 : ∀ e w', err e w' → err' e w') : Sat p w ok' err' := by
  unfold Sat at h ⊢
  rcases hp : p w with ⟨_ | _, w'⟩
  · rw [hp] at h; exact h2 _ _ h
  · rw [hp] at h; exact h1 _ _ h

theorem Sat.ofOption {α : Type} {e : CmdErr} {o : Option α} {w : World} {ok : α → World → Prop} {err}
    (h1 : ∀ a, o = some a → ok a w) (h2 : o = none → err e w) : Sat (Prog.ofOption e o) w ok err := by
  cases o with
  | none => exact h2 rfl
  | some a => exact h1 a rfl

theorem Sat.ok {α : Type} {p : Prog α} {w : World} {ok : α → World → Prop} {err} (h : Sat p w ok err) {a w'}
    (hp : p w = (.ok a, w')) : ok a w' := by
  unfold Sat at h; rw [hp] at h; exact h

theorem Sat.err {α : Type} {p : Prog α} {w : World} {ok : α → World → Prop} {err} (h : Sat p w ok err) {e w'}
    (hp : p w = (.error e, w')) : err e w' := by
  unfold Sat at h; rw [hp] at h; exact h

/-- Errors that come from the writing of a file. -/
def CmdErr.isWrite : CmdErr → Bool
  | .write => true
  | .create => true
  | _ => false

theorem readFile_sat (sys : Sys) (f : FileSpec) (w : World) :
    Sat (Files.readFile sys f) w
      (fun s w' => w'.log = w.log ∧ w'.drawn = w.drawn ∧ w'.stdinRead = (w.stdinRead || decide (f = .stdio)) ∧
        (match fileOf sys f with
         | none => decodeUtf8 (if w.stdinRead then [] else sys.stdin)
         | some n => (contentsAfter sys.start w.log n).bind decodeUtf8) = some s)
      (fun e w' => w'.log = w.log ∧ e.isWrite = false ∧ (sys.fault w.ops = none →
        (match fileOf sys f with
         | none => decodeUtf8 (if w.stdinRead then [] else sys.stdin)
         | some n => (contentsAfter sys.start w.log n).bind decodeUtf8) = none)) := by
  unfold Sat Files.readFile
  cases f with
  | stdio =>
    simp only [fileOf]
    cases hf : sys.fault w.ops with
    | some k => simp [CmdErr.isWrite]
    | none =>
      simp only
      cases decodeUtf8 (if w.stdinRead then [] else sys.stdin) with
      | none => simp [Prog.ofOption, Prog.fail, CmdErr.isWrite]
      | some s => simp [Prog.ofOption, Prog.pure]
  | path p =>
    simp only [fileOf]
    cases contentsAfter sys.start w.log (sys.file p) with
    | none => simp [CmdErr.isWrite]
    | some b =>
      simp only
      rcases hf : sys.fault w.ops with _ | _ | k
      · simp only
        cases hd : decodeUtf8 b with
        | none => simp [Prog.ofOption, Prog.fail, CmdErr.isWrite, hd]
        | some s => simp [Prog.ofOption, Prog.pure, hd]
      · simp [CmdErr.isWrite]
      · simp [CmdErr.isWrite]

theorem readLedgerFile_sat (sys : Sys) (f : FileSpec) (w : World) :
    Sat (Files.readLedgerFile sys f) w
      (fun L w' => w'.log = w.log ∧ w'.drawn = w.drawn ∧ w'.stdinRead = (w.stdinRead || decide (f = .stdio)) ∧
        ledgerAt sys (contentsAfter sys.start w.log) w.stdinRead f = some L)
      (fun e w' => w'.log = w.log ∧ e.isWrite = false ∧
        ((∀ n, sys.fault n = none) → ledgerAt sys (contentsAfter sys.start w.log) w.stdinRead f = none)) := by
  unfold Files.readLedgerFile
  apply Sat.bind
  refine (readFile_sat sys f w).imp ?_ ?_
  · rintro s w' ⟨h1, h2, h3, h4⟩
    have h5 : ledgerAt sys (contentsAfter sys.start w.log) w.stdinRead f = sys.parse s := by
      unfold ledgerAt
      cases hf : fileOf sys f with
      | none => rw [hf] at h4; simp only at h4 ⊢; rw [h4]; rfl
      | some n => rw [hf] at h4; simp only at h4 ⊢; rw [h4]; rfl
    apply Sat.ofOption
    · intro L hL
      exact ⟨h1, h2, h3, h5.trans hL⟩
    · intro hL
      exact ⟨h1, rfl, fun _ => h5.trans hL⟩
  · rintro e w' ⟨h1, h2, h3⟩
    refine ⟨h1, h2, fun hn => ?_⟩
    have h4 := h3 (hn _)
    unfold ledgerAt
    cases hf : fileOf sys f with
    | none => rw [hf] at h4; simp only at h4 ⊢; rw [h4]; rfl
    | some n => rw [hf] at h4; simp only at h4 ⊢; rw [h4]; rfl

theorem writeFile_sat (sys : Sys) (f : FileSpec) (text : Str) (w : World) :
    Sat (Files.writeFile sys f text) w
      (fun _ w' => w'.log = w.log ++ wholeWrite sys f text ∧ w'.drawn = w.drawn ∧ w'.stdinRead = w.stdinRead)
      (fun e w' => (∃ n, w'.log = w.log ++ (wholeWrite sys f text).take n ∧ (e = .create ∧ n = 0 ∨ e = .write)) ∧
        ¬ ∀ n, sys.fault n = none) := by
  unfold Sat Files.writeFile
  have hne : ∀ {k}, sys.fault w.ops = some k → ¬ ∀ n, sys.fault n = none := fun h h' => by rw [h'] at h; cases h
  cases f with
  | stdio =>
    cases hf : sys.fault w.ops with
    | none => simp [wholeWrite, fileOf]
    | some k =>
      simp only
      exact ⟨⟨k, by simp [wholeWrite, fileOf, List.map_take]⟩, hne hf⟩
  | path p =>
    rcases hf : sys.fault w.ops with _ | _ | k
    · simp [wholeWrite, fileOf]
    · simp only
      exact ⟨⟨0, by simp⟩, hne hf⟩
    · simp only
      exact ⟨⟨k + 1, by simp [wholeWrite, fileOf, List.map_take]⟩, hne hf⟩

/-! ### Contents -/

theorem contentsAfter_append (start : Nat → Option Bytes) (a b : List Eff) :
    contentsAfter start (a ++ b) = contentsAfter (contentsAfter start a) b := by
  induction a generalizing start with
  | nil => rfl
  | cons e a ih => cases e <;> simp [contentsAfter, ih]

/-- The file an effect touches. -/
def Eff.file : Eff → Option Nat
  | .create n => some n
  | .write n _ => some n
  | .print _ => none

theorem contentsAfter_other (start : Nat → Option Bytes) (es : List Eff) (n : Nat) (h : ∀ e ∈ es, e.file ≠ some n) :
    contentsAfter start es n = start n := by
  induction es generalizing start with
  | nil => rfl
  | cons e es ih =>
    have h1 := h e (by simp)
    have h2 := fun s => ih s (fun e he => h e (List.mem_cons_of_mem _ he))
    cases e with
    | create m =>
      have : n ≠ m := fun e => h1 (by simp [Eff.file, e])
      simp [contentsAfter, h2, this]
    | write m b =>
      have : n ≠ m := fun e => h1 (by simp [Eff.file, e])
      simp [contentsAfter, h2, this]
    | print b => simp [contentsAfter, h2]

theorem contentsAfter_writes (start : Nat → Option Bytes) (n : Nat) (bs : Bytes) (hb : (start n).isSome) :
    contentsAfter start (bs.map (.write n)) n = some ((start n).getD [] ++ bs) := by
  induction bs generalizing start with
  | nil =>
    obtain ⟨x, hx⟩ := Option.isSome_iff_exists.1 hb
    simp [contentsAfter, hx]
  | cons b bs ih =>
    simp only [List.map_cons, contentsAfter]
    rw [ih]
    · simp
    · simp

theorem file_wholeWrite {sys : Sys} {f : FileSpec} {text : Str} {e : Eff} (h : e ∈ wholeWrite sys f text) :
    e.file = fileOf sys f := by
  unfold wholeWrite at h
  split at h
  · rename_i hf
    obtain ⟨b, _, rfl⟩ := List.mem_map.1 h
    exact hf.symm
  · rename_i n hf
    rcases List.mem_cons.1 h with rfl | h
    · exact hf.symm
    · obtain ⟨b, _, rfl⟩ := List.mem_map.1 h
      exact hf.symm

theorem contentsAfter_whole (sys : Sys) (start : Nat → Option Bytes) (f : FileSpec) (text : Str) (n : Nat) :
    contentsAfter start (wholeWrite sys f text) n =
      if fileOf sys f = some n then some (encodeUtf8 text) else start n := by
  by_cases h : fileOf sys f = some n
  · rw [if_pos h]
    unfold wholeWrite
    rw [h]
    simp only [contentsAfter]
    rw [contentsAfter_writes]
    · simp
    · simp
  · rw [if_neg h]
    exact contentsAfter_other _ _ _ (fun e he => by rw [file_wholeWrite he]; exact h)

/-- After part of a write: nothing has happened yet, or the file holds a beginning of the text. -/
theorem contentsAfter_part (sys : Sys) (start : Nat → Option Bytes) (f : FileSpec) (text : Str) (k n : Nat) :
    contentsAfter start ((wholeWrite sys f text).take k) n = start n ∨
    (fileOf sys f = some n ∧ ∃ j, contentsAfter start ((wholeWrite sys f text).take k) n = some ((encodeUtf8 text).take j)) := by
  by_cases h : fileOf sys f = some n
  · cases k with
    | zero => left; rfl
    | succ k =>
      right
      refine ⟨h, k, ?_⟩
      unfold wholeWrite
      rw [h]
      simp only [List.take_succ_cons, contentsAfter]
      rw [← List.map_take, contentsAfter_writes]
      · simp
      · simp
  · left
    exact contentsAfter_other _ _ _ (fun e he => by rw [file_wholeWrite (List.mem_of_mem_take he)]; exact h)

/-- A prefix of several whole writes is some whole writes and part of the next one. -/
theorem prefix_wholeWrites {sys : Sys} {plan : List (FileSpec × Str)} {es : List Eff} (h : es <+: wholeWrites sys plan) :
    ∃ done rest, plan = done ++ rest ∧
      (es = wholeWrites sys done ∨ ∃ f text rest' k, rest = (f, text) :: rest' ∧
        es = wholeWrites sys done ++ (wholeWrite sys f text).take k) := by
  induction plan generalizing es with
  | nil =>
    refine ⟨[], [], rfl, .inl ?_⟩
    exact List.prefix_nil.1 h
  | cons e plan ih =>
    obtain ⟨f, text⟩ := e
    have hw : wholeWrites sys ((f, text) :: plan) = wholeWrite sys f text ++ wholeWrites sys plan := rfl
    rw [hw] at h
    rcases Nat.le_total es.length (wholeWrite sys f text).length with hl | hl
    · refine ⟨[], (f, text) :: plan, rfl, .inr ⟨f, text, plan, es.length, rfl, ?_⟩⟩
      change es = List.take _ _
      exact List.prefix_iff_eq_take.1 (List.prefix_of_prefix_length_le h (List.prefix_append _ _) hl)
    · obtain ⟨es', rfl⟩ := List.prefix_of_prefix_length_le (List.prefix_append _ _) h hl
      rw [List.prefix_append_right_inj] at h
      obtain ⟨done, rest, rfl, h'⟩ := ih h
      refine ⟨(f, text) :: done, rest, rfl, ?_⟩
      rcases h' with rfl | ⟨f', text', rest', k, rfl, rfl⟩
      · exact .inl rfl
      · refine .inr ⟨f', text', rest', k, rfl, ?_⟩
        change _ = (wholeWrite sys f text ++ wholeWrites sys done) ++ _
        rw [List.append_assoc]

theorem contentsAfter_wholeWrites (sys : Sys) (start : Nat → Option Bytes) (plan : List (FileSpec × Str)) (n : Nat) :
    contentsAfter start (wholeWrites sys plan) n = start n ∨
    ∃ text, Planned sys plan n text ∧ contentsAfter start (wholeWrites sys plan) n = some (encodeUtf8 text) := by
  induction plan generalizing start with
  | nil => left; rfl
  | cons e plan ih =>
    obtain ⟨f, text⟩ := e
    have hw : wholeWrites sys ((f, text) :: plan) = wholeWrite sys f text ++ wholeWrites sys plan := rfl
    rw [hw, contentsAfter_append]
    rcases ih (contentsAfter start (wholeWrite sys f text)) with h | ⟨text', ⟨f', hp, hf'⟩, h⟩
    · rw [h, contentsAfter_whole]
      by_cases hf : fileOf sys f = some n
      · rw [if_pos hf]; exact .inr ⟨text, ⟨f, by simp, hf⟩, rfl⟩
      · rw [if_neg hf]; exact .inl rfl
    · exact .inr ⟨text', ⟨f', List.mem_cons_of_mem _ hp, hf'⟩, h⟩

theorem wholeWrites_append (sys : Sys) (a b : List (FileSpec × Str)) :
    wholeWrites sys (a ++ b) = wholeWrites sys a ++ wholeWrites sys b := List.flatMap_append

end Verif
