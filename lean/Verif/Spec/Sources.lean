import Verif.Model.Internal

/-!
# Specification: where a transaction comes from
-/

namespace Verif.Spec

/-- The key that names the source of a transaction. -/
def srcKey : Str := "source-file".toList

/-- The source of a transaction: what it says itself, or else the file. -/
def sourceOf (file : Str) (t : TransactionPostings) : Str := (t.trn.comment.valueTags[srcKey]?).getD file

/-- The transaction with its source noted. -/
def sourced (file : Str) (t : TransactionPostings) : TransactionPostings :=
  { t with trn := { t.trn with comment := { t.trn.comment with
    valueTags := t.trn.comment.valueTags.insert srcKey (sourceOf file t) } } }

/-- The transactions of one source, in order, with the source noted. -/
def ofSource (file : Str) (ts : List TransactionPostings) (s : Str) : List TransactionPostings :=
  (ts.filter (fun t => sourceOf file t = s)).map (sourced file)

end Verif.Spec
