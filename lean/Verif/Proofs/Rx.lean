import Verif.Base.Rx

/-!
# Lemmas on regular expressions
-/

namespace Verif.Rx

theorem run_seq (a b : Rx) (s : St) (K : St → List St) :
    (run (seq a b) s).flatMap K = (run a s).flatMap (fun s' => (run b s').flatMap K) := by
  rw [run, List.flatMap_assoc]

theorem run_grp (n : Nat) (a : Rx) (s : St) (K : St → List St) :
    (run (grp n a) s).flatMap K =
      (run a s).flatMap (fun s' => K { s' with caps := (n, s.rest.take (s'.pos - s.pos)) :: s'.caps }) := by
  rw [run, List.flatMap_map]

theorem run_opt (a : Rx) (s : St) (K : St → List St) : (run (opt a) s).flatMap K = (run a s).flatMap K ++ K s := by
  unfold opt
  rw [run, List.flatMap_append, run]
  simp

theorem flatMap_ite {p : Prop} [Decidable p] {α β : Type} (l : List α) (K : α → List β) :
    (if p then l else []).flatMap K = if p then l.flatMap K else [] := by split <;> simp

theorem map_ite' {p : Prop} [Decidable p] {α β : Type} (l : List α) (f : α → β) :
    (if p then l else []).map f = if p then l.map f else [] := by split <;> simp

theorem run_bol (s : St) (K : St → List St) : (run bol s).flatMap K = if s.pos = 0 then K s else [] := by
  rw [run]; split <;> simp

theorem run_eol (s : St) : run eol s = if s.rest = [] then [s] else [] := rfl

theorem run_chr_cons (p : Char → Bool) (pos : Nat) (c : Char) (cs : Str) (caps : List (Nat × Str)) :
    run (chr p) ⟨pos, c :: cs, caps⟩ = if p c then [⟨pos + 1, cs, caps⟩] else [] := rfl

theorem run_chr_nil (p : Char → Bool) (pos : Nat) (caps : List (Nat × Str)) : run (chr p) ⟨pos, [], caps⟩ = [] := rfl

theorem run_lit_cons (d : Char) (pos : Nat) (c : Char) (cs : Str) (caps : List (Nat × Str)) :
    run (lit d) ⟨pos, c :: cs, caps⟩ = if c = d then [⟨pos + 1, cs, caps⟩] else [] := by
  unfold lit
  rw [run_chr_cons]; simp

theorem run_lit_nil (d : Char) (pos : Nat) (caps : List (Nat × Str)) : run (lit d) ⟨pos, [], caps⟩ = [] := rfl

theorem star_chr_nil (p : Char → Bool) (pos : Nat) (caps : List (Nat × Str)) :
    run (star (chr p)) ⟨pos, [], caps⟩ = [⟨pos, [], caps⟩] := rfl

theorem star_chr_cons (p : Char → Bool) (pos : Nat) (c : Char) (cs : Str) (caps : List (Nat × Str)) :
    run (star (chr p)) ⟨pos, c :: cs, caps⟩ =
      (if p c then run (star (chr p)) ⟨pos + 1, cs, caps⟩ else []) ++ [⟨pos, c :: cs, caps⟩] := by
  show iter (run (chr p)) (cs.length + 1) _ = _
  unfold iter
  rw [run_chr_cons]
  by_cases h : p c = true
  · simp [h]; rfl
  · simp [h]

/-- Greedy repetition of a class, if what follows fails as long as the class matches. -/
theorem star_chr_max (p : Char → Bool) (K : St → List St)
    (hK : ∀ pos c cs caps, p c = true → K ⟨pos, c :: cs, caps⟩ = []) (pos : Nat) (rest : Str) (caps : List (Nat × Str)) :
    (run (star (chr p)) ⟨pos, rest, caps⟩).flatMap K =
      K ⟨pos + (rest.takeWhile p).length, rest.dropWhile p, caps⟩ := by
  induction rest generalizing pos with
  | nil => rw [star_chr_nil]; simp
  | cons c cs ih =>
    rw [star_chr_cons, List.flatMap_append]
    by_cases h : p c = true
    · rw [if_pos h, ih, List.takeWhile_cons, List.dropWhile_cons, if_pos h, if_pos h]
      simp only [List.flatMap_cons, List.flatMap_nil, hK _ _ _ _ h, List.append_nil, List.length_cons]
      rw [Nat.add_assoc, Nat.add_comm 1]
    · rw [if_neg h, List.takeWhile_cons, List.dropWhile_cons, if_neg h, if_neg h]
      simp

theorem plus_chr_cons (p : Char → Bool) (K : St → List St)
    (hK : ∀ pos c cs caps, p c = true → K ⟨pos, c :: cs, caps⟩ = []) (pos : Nat) (c : Char) (cs : Str) (caps : List (Nat × Str)) :
    (run (plus (chr p)) ⟨pos, c :: cs, caps⟩).flatMap K =
      if p c then K ⟨pos + ((c :: cs).takeWhile p).length, (c :: cs).dropWhile p, caps⟩ else [] := by
  unfold plus
  rw [run_seq, run_chr_cons]
  by_cases h : p c = true
  · rw [if_pos h, if_pos h, List.flatMap_cons, List.flatMap_nil, List.append_nil, star_chr_max p K hK,
      List.takeWhile_cons, List.dropWhile_cons, if_pos h, if_pos h, List.length_cons, Nat.add_assoc, Nat.add_comm 1]
  · rw [if_neg h, if_neg h]; rfl

theorem plus_chr_nil (p : Char → Bool) (K : St → List St) (pos : Nat) (caps : List (Nat × Str)) :
    (run (plus (chr p)) ⟨pos, [], caps⟩).flatMap K = [] := by
  unfold plus
  rw [run_seq, run_chr_nil]; rfl

/-- Greedy repetition at least once, if what follows fails as long as the class matches. -/
theorem plus_chr_max (p : Char → Bool) (K : St → List St)
    (hK : ∀ pos c cs caps, p c = true → K ⟨pos, c :: cs, caps⟩ = []) (pos : Nat) (rest : Str) (caps : List (Nat × Str)) :
    (run (plus (chr p)) ⟨pos, rest, caps⟩).flatMap K =
      if rest.takeWhile p = [] then [] else K ⟨pos + (rest.takeWhile p).length, rest.dropWhile p, caps⟩ := by
  cases rest with
  | nil => rw [plus_chr_nil]; simp
  | cons c cs =>
    rw [plus_chr_cons p K hK]
    by_cases h : p c = true
    · rw [if_pos h, if_neg]
      rw [List.takeWhile_cons, if_pos h]; simp
    · rw [if_neg h, if_pos]
      rw [List.takeWhile_cons, if_neg h]

/-- A pattern that starts with `^` only matches at the start. -/
theorem findFrom_bol (r : Rx) (h : ∀ s : St, s.pos ≠ 0 → run r s = []) (pos : Nat) (hp : pos ≠ 0) (text : Str) : findFrom r pos text = none := by
  induction text generalizing pos with
  | nil => unfold findFrom; rw [h _ hp]; rfl
  | cons c cs ih => unfold findFrom; rw [h _ hp]; simp only [List.head?_nil]; exact ih (pos + 1) (by omega)

theorem captures_bol (r : Rx) (h : ∀ s : St, s.pos ≠ 0 → run r s = []) (text : Str) :
    captures r text = (run r ⟨0, text, []⟩).head?.map (⟨0, ·⟩) := by
  unfold captures
  cases text with
  | nil => rfl
  | cons c cs =>
    unfold findFrom
    cases (run r ⟨0, c :: cs, []⟩).head? with
    | some s => rfl
    | none => exact findFrom_bol r h 1 (by omega) cs

end Verif.Rx
