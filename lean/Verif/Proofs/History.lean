import Verif.Proofs.Build
import Verif.Spec.History

/-!
# Histories refine book histories
-/

namespace Verif
open Spec Spec.Book

theorem R.unique {m m' : Merger} {J : Book} (h : R m J) (h' : R m' J) : m = m' := by
  rcases m with ⟨⟨a, bd, bf⟩, ⟨ta, tb⟩⟩
  rcases m' with ⟨⟨a', bd', bf'⟩, ⟨ta', tb'⟩⟩
  have h1 : a = a' := h.arena.trans h'.arena.symm
  have h2 : bd = bd' := Std.ExtTreeMap.ext_getElem? (fun {d} => (h.byDate d).trans (h'.byDate d).symm)
  have h3 : bf = bf' := by
    apply Std.ExtTreeMap.ext_getElem?
    intro f
    apply Option.ext
    intro i
    exact (h.byFp f i).trans (h'.byFp f i).symm
  have h4 : ta = ta' := h.trns.trans h'.trns.symm
  have h5 : tb = tb' := Std.ExtTreeMap.ext_getElem? (fun {d} => (h.trnsByDate d).trans (h'.trnsByDate d).symm)
  subst h1 h2 h3 h4 h5
  rfl

theorem R.step {m : Merger} {J : Book} (hR : R m J) (h : HashOrder) (ts : List TransactionPostings) :
    R (m.merge h ts).2 (J.step ts) := by
  unfold Book.step
  rcases merge_spec hR h ts with ⟨hb, e, he, _⟩ | ⟨hb, m', he, hR'⟩
  · rw [if_pos hb, he]; exact hR
  · rw [if_neg hb, he]; exact hR'

theorem R.continue {m : Merger} {J : Book} (hR : R m J) (calls : History) :
    R (continueFrom m calls) ((inputs calls).foldl Book.step J) := by
  induction calls generalizing m J with
  | nil => exact hR
  | cons c calls ih => exact ih (hR.step c.1 c.2)

theorem run_refines (calls : History) : R (run calls) (Book.ofHistory (inputs calls)) := R_new.continue calls

theorem merge_ok_iff {m : Merger} {J : Book} (hR : R m J) (h : HashOrder) (ts : List TransactionPostings) :
    (∃ u, (m.merge h ts).1 = .ok u) ↔ ¬ J.Bad ts := by
  rcases merge_spec hR h ts with ⟨hb, e, he, _⟩ | ⟨hb, m', he, hR'⟩
  · rw [he]; simp [hb]
  · rw [he]; simp [hb]

theorem merge_ok {m m' : Merger} {J : Book} (hR : R m J) {h : HashOrder} {ts u : List TransactionPostings}
    (he : m.merge h ts = (.ok u, m')) :
    ¬ J.Bad ts ∧ u = J.handedBack (pickFp h J) ts ∧ R m' (J.after ts) := by
  rcases merge_spec hR h ts with ⟨hb, e, he', _⟩ | ⟨hb, m'', he', hR'⟩
  · rw [he] at he'; simp at he'
  · rw [he] at he'
    simp only [Prod.mk.injEq, Except.ok.injEq] at he'
    obtain ⟨h1, h2⟩ := he'
    subst h1 h2
    exact ⟨hb, rfl, hR'⟩

theorem merge_of_not_bad {m : Merger} {J : Book} (hR : R m J) (h : HashOrder) {ts : List TransactionPostings}
    (hb : ¬ J.Bad ts) : ∃ m', m.merge h ts = (.ok (J.handedBack (pickFp h J) ts), m') ∧ R m' (J.after ts) := by
  rcases merge_spec hR h ts with ⟨hb', _⟩ | ⟨_, h⟩
  · exact absurd hb' hb
  · exact h

end Verif
