import Verif.Model.ImportCmd
import Verif.Spec.Files

/-!
# Specification: namespaces for imports, and where they are written
-/

namespace Verif.Spec

/-- `t` is `s` with the text `pat` replaced by `new` wherever it is found, from left to right: the text up to and including what is
found first has no other place where `pat` is found, and the search goes on behind it. -/
inductive Replaced (pat new : Str) : Str → Str → Prop
  | none {s} : ¬ pat <:+: s → Replaced pat new s s
  | found {a r r'} : ¬ pat <:+: a ++ pat.dropLast → Replaced pat new r r' → Replaced pat new (a ++ pat ++ r) (a ++ new ++ r')

/-- The file to write to: the given one, or the given path with the namespace filled in. -/
def WritesTo (args : ImportCmd.Args) (ns : Str) (f : FileSpec) : Prop :=
  if args.substituteOutputPath then
    ∃ p p', args.output = .path p ∧ f = .path p' ∧ Replaced ['%', 'F', 'P', '_', 'N', 'S', '%'] ns p p'
  else f = args.output

/-- What the text of the namespace option means: the namespace for each account for which there is one; `table` is what a file with
a table contains. -/
inductive NamespaceOption (table : Str → Option StrMap) (hash : Str → Str) : Str → (Str → Option Str) → Prop
  | accountName : NamespaceOption table hash "account-name".toList some
  | generated : NamespaceOption table hash "generated".toList (fun account => some (hash account))
  | fixed (x : Str) : NamespaceOption table hash ("fixed:".toList ++ x) (fun _ => some x)
  | lookup (path : Str) (t : StrMap) : table path = some t →
    NamespaceOption table hash ("lookup:".toList ++ path) (fun account => t[account]?)

end Verif.Spec
