import Verif.Props.Comments
import Verif.Spec.Ledger
import Verif.Examples.Base

/-!
# C62: ledgers and internal transactions
-/

namespace Verif
open Spec Comment

/-- C62: reading a ledger yields its transactions in order, whatever blank lines there are; it fails exactly if there is
any other item. -/
theorem C62_read (l : Ledger) : TransactionPostings.fromLedger l =
    if l.items.any isOther then none
    else some ((transactionsOf l.items).map TransactionPostings.ofTransaction) := by
  unfold TransactionPostings.fromLedger transactionsOf
  induction l.items with
  | nil => simp [TransactionPostings.fromItems]
  | cons i is ih =>
    cases i with
    | emptyLine => simpa [TransactionPostings.fromItems, isOther] using ih
    | other x => simp [TransactionPostings.fromItems, isOther]
    | transaction t =>
      simp only [TransactionPostings.fromItems, ih]
      by_cases hx : is.any isOther = true
      · simp [hx, isOther]
      · simp [hx, isOther]

theorem mem_intersperse {α : Type} {sep : α} {l : List α} {x : α} (h : x ∈ intersperse sep l) : x = sep ∨ x ∈ l := by
  induction l with
  | nil => cases h
  | cons a l ih =>
    cases l with
    | nil => exact Or.inr h
    | cons b l =>
      unfold intersperse at h
      rcases List.mem_cons.1 h with h | h
      · exact Or.inr (by simp [h])
      · rcases List.mem_cons.1 h with h | h
        · exact Or.inl h
        · rcases ih h with h | h
          · exact Or.inl h
          · exact Or.inr (List.mem_cons_of_mem _ h)

/-- C62: what is written contains the transactions in order, with one blank line between any two, and nothing else. -/
theorem C62_write (h : HashOrder) (ts : List TransactionPostings) :
    transactionsOf (TransactionPostings.intoLedger h ts).items = ts.map (TransactionPostings.intoTransaction h) ∧
    (∀ i ∈ (TransactionPostings.intoLedger h ts).items, isOther i = false) ∧
    (∀ n, (TransactionPostings.intoLedger h ts).items[n]? = some .emptyLine ↔
      n % 2 = 1 ∧ n < (TransactionPostings.intoLedger h ts).items.length) := by
  unfold TransactionPostings.intoLedger ledgerFromTransactions
  generalize ts.map (TransactionPostings.intoTransaction h) = us
  simp only
  refine ⟨?_, ?_, ?_⟩
  · unfold transactionsOf
    induction us with
    | nil => rfl
    | cons u us ih =>
      cases us with
      | nil => rfl
      | cons v us =>
        simp only [List.map_cons, intersperse] at ih ⊢
        rw [List.filterMap_cons, List.filterMap_cons]
        simp only [ih]
  · intro x hx
    rcases mem_intersperse hx with rfl | hx
    · rfl
    · obtain ⟨u, _, rfl⟩ := List.mem_map.1 hx
      rfl
  · induction us with
    | nil => intro n; simp [intersperse]
    | cons u us ih =>
      cases us with
      | nil =>
        intro n
        simp only [List.map_cons, List.map_nil, intersperse]
        cases n <;> simp
      | cons v us =>
        intro n
        simp only [List.map_cons, intersperse] at ih ⊢
        match n with
        | 0 => simp
        | 1 => simp
        | n + 2 =>
          simp only [List.getElem?_cons_succ, List.length_cons] at ih ⊢
          rw [ih n]
          omega

theorem ofTransaction_intoTransaction (h : HashOrder) (t : TransactionPostings) :
    TransactionPostings.ofTransaction (t.intoTransaction h) = reread h t := by
  unfold TransactionPostings.ofTransaction TransactionPostings.intoTransaction reread
  simp only [TransactionInternal.ofTransaction, TransactionInternal.intoTransaction, List.map_map]
  rfl

/-- C62: writing transactions and reading the ledger yields the same transactions with their comments read back. -/
theorem C62_reread (h : HashOrder) (ts : List TransactionPostings) :
    TransactionPostings.fromLedger (TransactionPostings.intoLedger h ts) = some (ts.map (reread h)) := by
  obtain ⟨h1, h2, _⟩ := C62_write h ts
  rw [C62_read, if_neg (by rw [Bool.not_eq_true, List.any_eq_false]; intro i hi; rw [h2 i hi]; simp), h1, List.map_map]
  congr 1
  apply List.map_congr_left
  intro t _
  exact ofTransaction_intoTransaction h t

/-- C62: transactions with comments in normal form come back unchanged. -/
theorem C62_round_trip (h : HashOrder) (ts : List TransactionPostings) (ht : ∀ t ∈ ts, Tidy t) :
    TransactionPostings.fromLedger (TransactionPostings.intoLedger h ts) = some ts := by
  rw [C62_reread]
  congr 1
  conv => rhs; rw [← List.map_id ts]
  apply List.map_congr_left
  intro t hm
  have T := ht t hm
  unfold reread
  rw [C26_round_trip h _ T.trn]
  have hp : t.posts.map (rereadPost h) = t.posts := by
    conv => rhs; rw [← List.map_id t.posts]
    apply List.map_congr_left
    intro p hpm
    unfold rereadPost
    rw [C26_round_trip h _ (T.post p hpm), ← T.postComment p hpm]
    rfl
  rw [hp]
  have : ({ t.trn.raw with comment := none, postings := [] } : Transaction) = t.trn.raw := by
    conv => rhs; rw [show t.trn.raw = { t.trn.raw with comment := t.trn.raw.comment, postings := t.trn.raw.postings } from rfl]
    rw [T.trnComment, T.trnPostings]
  rw [this]
  rfl

/-- C62: reading then writing a ledger keeps everything but blank lines and the layout of comments. -/
theorem C62_rewrite (h : HashOrder) (l : Ledger) (ts : List TransactionPostings) (hl : TransactionPostings.fromLedger l = some ts) :
    transactionsOf (TransactionPostings.intoLedger h ts).items = (transactionsOf l.items).map (fun t =>
      { t with comment := reformat h t.comment
               postings := t.postings.map (fun p => { p with comment := reformat h p.comment }) }) := by
  rw [C62_read] at hl
  split at hl
  · cases hl
  · cases hl
    rw [(C62_write h _).1, List.map_map]
    apply List.map_congr_left
    intro t _
    simp only [Function.comp, TransactionPostings.intoTransaction, TransactionPostings.ofTransaction,
      TransactionInternal.ofTransaction, TransactionInternal.intoTransaction, List.map_map, reformat]
    rfl

/-! A transaction with the comment `sample`, a posting of the bank account with the same comment, and a blank line. -/

/-- A transaction with comments. -/
def commented : TransactionPostings :=
  ⟨⟨⟨none, ⟨2020, 1, 1⟩, none, some .pending, none, "shop".toList, []⟩, sample⟩,
   [{ Ex.post "bank" (-100) [] with comment := sample }, Ex.post "food" 100 []]⟩

theorem normal_empty : Normal Comment.empty where
  tags := by intro t ht; simp [Comment.empty] at ht
  keys := by intro k v h; simp [Comment.empty] at h
  values := by intro k v h; simp [Comment.empty] at h
  lines := by intro l hl; cases hl
  notValue := by intro l hl; simp [Comment.empty] at hl

theorem commented_tidy : Tidy commented where
  trnComment := rfl
  trnPostings := rfl
  trn := sample_normal
  postComment := by
    intro p hp
    simp only [commented, List.mem_cons, List.not_mem_nil, or_false] at hp
    rcases hp with rfl | rfl <;> rfl
  post := by
    intro p hp
    simp only [commented, List.mem_cons, List.not_mem_nil, or_false] at hp
    rcases hp with rfl | rfl
    · exact sample_normal
    · exact normal_empty

example (h : HashOrder) : TransactionPostings.fromLedger (TransactionPostings.intoLedger h [commented, commented]) =
    some [commented, commented] := C62_round_trip h _ (by
      intro t ht
      simp only [List.mem_cons, List.not_mem_nil, or_false, or_self] at ht
      subst ht; exact commented_tidy)

/-- A raw transaction with a comment. -/
def rawTrn : Transaction := ⟨some "k:  v \n:tag:".toList, ⟨2020, 1, 1⟩, none, none, none, "x".toList, []⟩

set_option maxRecDepth 100000 in
example : (TransactionPostings.fromLedger ⟨[.emptyLine, .transaction rawTrn, .emptyLine, .emptyLine, .transaction rawTrn]⟩).map
      (·.map (·.trn.comment.valueTags.toList)) = some [[("k".toList, "v ".toList)], [("k".toList, "v ".toList)]] ∧
    TransactionPostings.fromLedger ⟨[.transaction rawTrn, .other "include x".toList]⟩ = none := by decide +kernel

end Verif
