import Verif.Spec.Together

/-!
# Specification: several runs that write to the same file
-/

namespace Verif.Spec

/-- At every place one of two texts, and as long as the longer one. -/
structure Mixed (a b c : Bytes) : Prop where
  length : c.length = max a.length b.length
  bytes : ∀ (i : Nat) (x : UInt8), c[i]? = some x → a[i]? = some x ∨ b[i]? = some x

/-- What happened, in the order in which it happened, and which run did it. -/
def history {ι : Type} [DecidableEq ι] : Shared ι → List ι → List (ι × Eff)
  | _, [] => []
  | s, i :: is => (((s.step i).procs i).world.log.drop (s.procs i).world.log.length).map (fun e => (i, e)) ++ history (s.step i) is

/-- How many bytes a run has written to a file since it has last created it; the last thing that happened comes first. -/
def placeRev {ι : Type} [DecidableEq ι] (j : ι) (n : Nat) : List (ι × Eff) → Nat
  | [] => 0
  | (i, .create m) :: rest => if i = j ∧ m = n then 0 else placeRev j n rest
  | (i, .write m _) :: rest => if i = j ∧ m = n then placeRev j n rest + 1 else placeRev j n rest
  | (_, .print _) :: rest => placeRev j n rest

/-- The place in a file where the next byte goes that a run writes to it. -/
def place {ι : Type} [DecidableEq ι] (before : List (ι × Eff)) (j : ι) (n : Nat) : Nat := placeRev j n before.reverse

/-- What is in a file, by what happened to it: nothing but what was in it before, if nobody has created it; otherwise the bytes that were written
since it was last created, whoever wrote them: at each place the last one, and a zero where nobody wrote but somebody wrote further on. -/
structure Kept {ι : Type} [DecidableEq ι] (start : Option Bytes) (H : List (ι × Eff)) (n : Nat) (f : Option Bytes) : Prop where
  unmade : (∀ (u : Nat) (k : ι), H[u]? ≠ some (k, .create n)) → f = start
  made : ∀ (t : Nat) (j : ι), H[t]? = some (j, .create n) → (∀ (u : Nat) (k : ι), t < u → H[u]? ≠ some (k, .create n)) → ∃ c, f = some c ∧
    (∀ (v : Nat) (k : ι) (b : UInt8), t < v → H[v]? = some (k, .write n b) →
      (∀ (u : Nat) (l : ι) (x : UInt8), v < u → H[u]? = some (l, .write n x) → place (H.take u) l n ≠ place (H.take v) k n) →
      c[place (H.take v) k n]? = some b) ∧
    (c.length = 0 ∨ ∃ (u : Nat) (k : ι) (x : UInt8), t < u ∧ H[u]? = some (k, .write n x) ∧ c.length = place (H.take u) k n + 1) ∧
    ∀ i, i < c.length → (∀ (u : Nat) (k : ι) (x : UInt8), t < u → H[u]? = some (k, .write n x) → place (H.take u) k n ≠ i) → c[i]? = some 0

end Verif.Spec
