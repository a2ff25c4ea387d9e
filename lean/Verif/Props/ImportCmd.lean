import Verif.Spec.ImportCmd
import Verif.Props.Crash
import Verif.Props.Fingerprint
import Verif.Props.NationwidePdf
import Verif.Examples.Systems

/-!
# C56, C57: namespaces for imports, and where imports are written
-/

namespace Verif
open Spec Nationwide

/-! ## C56: the namespace option -/

/-- The namespace that is generated for an account. -/
def generatedNs (sha1 : Bytes → Bytes) (account : Str) : Str :=
  (Base64.encode (sha1 (Enc.str "Nationwide".toList ++ Enc.str account))).take 8

/-- The namespace for an account, if there is one. -/
def namespaceFor (L : ImportLib) (ns : FpNamespace) (account : Str) : Option Str :=
  match ns.make L account with
  | .ok s => some s
  | .error _ => none

theorem startsWith_iff (pre s : Str) : Str.startsWith s pre = true ↔ ∃ x, s = pre ++ x := by
  unfold Str.startsWith
  rw [List.isPrefixOf_iff_prefix]
  exact ⟨fun ⟨x, h⟩ => ⟨x, h.symm⟩, fun ⟨x, h⟩ => ⟨x, h.symm⟩⟩

/-- C56: the text of the option is accepted exactly if it is one of `account-name`, `generated`, `fixed:` and a text, `lookup:` and the
name of a file with a table; then each account has the namespace that the documentation says. -/
theorem C56_option (L : ImportLib) (table : Str → Option StrMap) (s : Str) (f : Str → Option Str) :
    (∃ ns, FpNamespace.fromStr table s = some ns ∧ namespaceFor L ns = f) ↔ NamespaceOption table (generatedNs L.sha1) s f := by
  have hl : ∀ t, namespaceFor L (.lookup t) = fun account => t[account]? := by
    intro t
    funext account
    unfold namespaceFor FpNamespace.make
    simp only
    cases t[account]? <;> rfl
  constructor
  · rintro ⟨ns, h, rfl⟩
    unfold FpNamespace.fromStr at h
    split at h
    · rename_i hs
      cases h; subst hs
      exact .accountName
    · split at h
      · rename_i hs
        cases h; subst hs
        exact .generated
      · split at h
        · rename_i hs
          cases h
          obtain ⟨x, rfl⟩ := (startsWith_iff _ _).1 hs
          rw [List.drop_left]
          exact .fixed x
        · split at h
          · rename_i hs
            obtain ⟨x, rfl⟩ := (startsWith_iff _ _).1 hs
            rw [List.drop_left] at h
            obtain ⟨t, ht, rfl⟩ := Option.map_eq_some_iff.1 h
            rw [hl]
            exact .lookup x t ht
          · cases h
  · intro h
    unfold FpNamespace.fromStr
    cases h with
    | accountName => exact ⟨.accountName, rfl, rfl⟩
    | generated => exact ⟨.generated, rfl, rfl⟩
    | fixed x =>
      have hpre : Str.startsWith ("fixed:".toList ++ x) fixedPrefix = true := (startsWith_iff _ _).2 ⟨x, rfl⟩
      refine ⟨.fixed x, ?_, rfl⟩
      rw [if_neg (by intro h; exact absurd (congrArg List.head? h) (by simp)),
        if_neg (by intro h; exact absurd (congrArg List.head? h) (by simp)), if_pos hpre]
      rfl
    | lookup path t ht =>
      have hpre : Str.startsWith ("lookup:".toList ++ path) lookupPrefix = true := (startsWith_iff _ _).2 ⟨path, rfl⟩
      refine ⟨.lookup t, ?_, hl t⟩
      have hfix : ¬ Str.startsWith ("lookup:".toList ++ path) fixedPrefix = true := by
        rw [startsWith_iff]
        rintro ⟨x, h⟩
        exact absurd (congrArg List.head? h) (by simp [fixedPrefix])
      rw [if_neg (by intro h; exact absurd (congrArg List.head? h) (by simp)),
        if_neg (by intro h; exact absurd (congrArg List.head? h) (by simp)), if_neg hfix, if_pos hpre]
      rw [show List.drop lookupPrefix.length ("lookup:".toList ++ path) = path from rfl, ht]
      rfl

/-- Each case of the option, and three texts that are not accepted. -/
example : NamespaceOption (fun p => if p = "t".toList then some (Std.ExtTreeMap.ofList [("me".toList, "m".toList)]) else none)
      (fun _ => []) "lookup:t".toList (fun account => (Std.ExtTreeMap.ofList (cmp := compare) [("me".toList, "m".toList)])[account]?) ∧
    (FpNamespace.fromStr (fun _ => none) "lookup:t".toList).isNone ∧ (FpNamespace.fromStr (fun _ => some ∅) "Generated".toList).isNone ∧
    (FpNamespace.fromStr (fun _ => some ∅) "generated ".toList).isNone ∧ (FpNamespace.fromStr (fun _ => some ∅) "fixed:".toList).isSome :=
  ⟨.lookup "t".toList _ rfl, by decide, by decide, by decide, by decide⟩

theorem sha1_length (m : Bytes) : (Sha1.digest m).length = 20 := by
  unfold Sha1.digest
  simp [be_length]

theorem encode_take (x : Bytes) (h : 6 ≤ x.length) : (Base64.encode x).take 8 = Base64.encode (x.take 6) := by
  match x, h with
  | a :: b :: c :: d :: e :: f :: rest, _ => simp [Base64.encode]

theorem encode_length_six (x : Bytes) (h : x.length = 6) : (Base64.encode x).length = 8 := by
  match x, h with
  | [a, b, c, d, e, f], _ => simp [Base64.encode]

/-- C56: a generated namespace has eight characters, all of which namespaces may have. -/
theorem C56_generated (sha1 : Bytes → Bytes) (h : ∀ m, 6 ≤ (sha1 m).length) (account : Str) :
    (generatedNs sha1 account).length = 8 ∧ ∀ c ∈ generatedNs sha1 account, PartChar c := by
  unfold generatedNs
  refine ⟨?_, fun c hc => base64_part (base64_chars _ c (List.mem_of_mem_take hc))⟩
  rw [encode_take _ (h _)]
  exact encode_length_six _ (by rw [List.length_take]; have := h (Enc.str "Nationwide".toList ++ Enc.str account); omega)

/-- C56: two accounts have the same generated namespace only if the first 48 bits of their hashes agree. -/
theorem C56_generated_distinct (sha1 : Bytes → Bytes) (h : ∀ m, 6 ≤ (sha1 m).length) (a b : Str) :
    generatedNs sha1 a = generatedNs sha1 b ↔
      (sha1 (Enc.str "Nationwide".toList ++ Enc.str a)).take 6 = (sha1 (Enc.str "Nationwide".toList ++ Enc.str b)).take 6 := by
  unfold generatedNs
  rw [encode_take _ (h _), encode_take _ (h _)]
  exact ⟨base64_inj, fun h => by rw [h]⟩

/-- The theorems hold for SHA-1. -/
example (account : Str) : (generatedNs Sha1.digest account).length = 8 :=
  (C56_generated _ (fun m => by rw [sha1_length]; decide) account).1

set_option maxRecDepth 100000 in
/-- Two accounts with different namespaces. -/
example : generatedNs Sha1.digest "Acc 1".toList = "uw3+L/7U".toList ∧ generatedNs Sha1.digest "Acc 2".toList = "/kWMMrKr".toList := by
  decide +kernel

/-! ## C57: the output path -/

theorem replaceFrom_skip (pat new : Str) (n : Nat) (s : Str) : Str.replaceFrom pat new n s = Str.replaceAll pat new (s.drop n) := by
  induction s generalizing n with
  | nil => cases n <;> rfl
  | cons c cs ih =>
    cases n with
    | zero => rfl
    | succ n => rw [Str.replaceFrom, ih, List.drop_succ_cons]

theorem replaceAll_cons {pat : Str} (new : Str) (hp : pat ≠ []) (c : Char) (cs : Str) :
    Str.replaceAll pat new (c :: cs) =
      if pat <+: c :: cs then new ++ Str.replaceAll pat new ((c :: cs).drop pat.length) else c :: Str.replaceAll pat new cs := by
  rw [Str.replaceAll, Str.replaceFrom]
  by_cases h : pat <+: c :: cs
  · rw [if_pos (List.isPrefixOf_iff_prefix.2 h), if_pos h, replaceFrom_skip]
    have : pat.length = pat.length - 1 + 1 := by
      have := List.length_pos_iff.2 hp; omega
    rw [this, List.drop_succ_cons]
    rfl
  · rw [if_neg (by rwa [List.isPrefixOf_iff_prefix]), if_neg h]
    rfl

theorem replaceAll_none {pat : Str} (new : Str) (hp : pat ≠ []) {s : Str} (h : ¬ pat <:+: s) : Str.replaceAll pat new s = s := by
  induction s with
  | nil => rfl
  | cons c cs ih =>
    rw [List.infix_cons_iff] at h
    rw [replaceAll_cons new hp, if_neg (fun h' => h (.inl h')), ih (fun h' => h (.inr h'))]

theorem replaceAll_found {pat : Str} (new : Str) (hp : pat ≠ []) (a r : Str) (h : ¬ pat <:+: a ++ pat.dropLast) :
    Str.replaceAll pat new (a ++ pat ++ r) = a ++ new ++ Str.replaceAll pat new r := by
  induction a with
  | nil =>
    cases pat with
    | nil => exact absurd rfl hp
    | cons x xs =>
      rw [List.nil_append, List.cons_append, replaceAll_cons new hp, if_pos ⟨r, rfl⟩]
      congr 2
      rw [← List.cons_append, List.drop_left]
  | cons c a ih =>
    have h1 : ¬ pat <+: c :: (a ++ pat ++ r) := by
      intro hpre
      apply h
      rw [List.cons_append, List.infix_cons_iff]
      left
      have hl : (c :: (a ++ pat.dropLast)).length ≥ pat.length := by
        simp only [List.length_cons, List.length_append, List.length_dropLast]; omega
      have h2 : c :: (a ++ pat.dropLast) <+: c :: (a ++ pat ++ r) := by
        rw [List.cons_prefix_cons]
        refine ⟨rfl, ?_⟩
        rw [List.append_assoc, List.prefix_append_right_inj]
        exact (List.dropLast_prefix pat).trans (List.prefix_append _ _)
      exact List.prefix_of_prefix_length_le hpre h2 hl
    rw [List.cons_append, List.cons_append, replaceAll_cons new hp, if_neg h1, ih]
    · rfl
    · intro h'
      exact h (by rw [List.cons_append, List.infix_cons_iff]; exact .inr h')

theorem first_found {pat : Str} (hp : pat ≠ []) {s : Str} (h : pat <:+: s) :
    ∃ a r, s = a ++ pat ++ r ∧ ¬ pat <:+: a ++ pat.dropLast := by
  induction s with
  | nil => exact absurd (List.infix_nil.1 h) hp
  | cons c cs ih =>
    by_cases hpre : pat <+: c :: cs
    · obtain ⟨r, hr⟩ := hpre
      refine ⟨[], r, hr.symm, fun h' => ?_⟩
      have := h'.length_le
      have := List.length_pos_iff.2 hp
      simp only [List.nil_append, List.length_dropLast] at *
      omega
    · rcases List.infix_cons_iff.1 h with h | h
      · exact absurd h hpre
      · obtain ⟨a, r, rfl, h'⟩ := ih h
        refine ⟨c :: a, r, rfl, fun hi => ?_⟩
        rcases List.infix_cons_iff.1 hi with hi | hi
        · apply hpre
          refine hi.trans ?_
          rw [List.cons_prefix_cons]
          refine ⟨rfl, ?_⟩
          change a ++ pat.dropLast <+: a ++ pat ++ r
          rw [List.append_assoc, List.prefix_append_right_inj]
          exact (List.dropLast_prefix pat).trans (List.prefix_append _ _)
        · exact h' hi

theorem Spec.Replaced.exists {pat : Str} (new : Str) (hp : pat ≠ []) (s : Str) : ∃ t, Replaced pat new s t := by
  induction hn : s.length using Nat.strongRecOn generalizing s with
  | ind n ih =>
    by_cases h : pat <:+: s
    · obtain ⟨a, r, rfl, h'⟩ := first_found hp h
      obtain ⟨t, ht⟩ := ih r.length (by have := List.length_pos_iff.2 hp; simp at hn; omega) r rfl
      exact ⟨_, .found h' ht⟩
    · exact ⟨s, .none h⟩

/-- C57: replacing means what it says, for every text to be found that is not empty. In particular there is exactly one result. -/
theorem C57_replace {pat : Str} (new : Str) (hp : pat ≠ []) (s t : Str) : Str.replaceAll pat new s = t ↔ Replaced pat new s t := by
  have key : ∀ {t}, Replaced pat new s t → Str.replaceAll pat new s = t := by
    intro t h
    induction h with
    | none h => exact replaceAll_none new hp h
    | found h _ ih => rw [replaceAll_found new hp _ _ h, ih]
  refine ⟨?_, key⟩
  rintro rfl
  obtain ⟨t, ht⟩ := Spec.Replaced.exists new hp s
  rw [key ht]
  exact ht

/-- C57: which file an import is written to. With the option, each placeholder in the path is replaced by the namespace and
nothing else is changed; there is no result for standard output. Without it, the output is the given one. -/
theorem C57_output (args : ImportCmd.Args) (ns : Str) (f : FileSpec) : ImportCmd.outputFor args ns = some f ↔ WritesTo args ns f := by
  unfold ImportCmd.outputFor WritesTo
  cases hs : args.substituteOutputPath with
  | false =>
    simp only [Bool.not_false, if_true, Bool.false_eq_true, if_false, Option.some.injEq]
    exact eq_comm
  | true =>
    simp only [Bool.not_true, Bool.false_eq_true, if_false, if_true]
    cases ho : args.output with
    | stdio => simp
    | path p =>
      simp only [Option.some.injEq, FileSpec.path.injEq]
      constructor
      · rintro rfl
        exact ⟨p, _, rfl, rfl, (C57_replace ns (by decide) p _).1 rfl⟩
      · rintro ⟨_, p', rfl, rfl, h⟩
        rw [← (C57_replace ns (by decide) p p').2 h]
        rfl

/-- What an import writes: the transactions, with empty lines between them, to the right file. -/
def Imports (sys : Sys) (L : ImportLib) (importer : ImportCmd.Importer) (args : ImportCmd.Args) (imp : Import) (f : FileSpec)
    (effects : List Eff) : Prop :=
  importer.doImport L = .ok imp ∧ WritesTo args imp.userFpNamespace f ∧ (args.makeParentDirs = true → f ≠ .stdio) ∧
    effects = wholeWrite sys f (sys.render (ledgerFromTransactions imp.transactions))

/-- The options can be used together with the output. -/
def FitTogether (args : ImportCmd.Args) : Prop :=
  args.output = .stdio → args.substituteOutputPath = false ∧ args.makeParentDirs = false

theorem makeDirs_sat (sys : Sys) (hasParent : Str → Bool) (args : ImportCmd.Args) (f : FileSpec) (w : World) :
    Sat (ImportCmd.makeDirs sys hasParent args f) w (fun _ w' => w'.log = w.log ∧ (args.makeParentDirs = true → f ≠ .stdio))
      (fun _ w' => w'.log = w.log ∧ ((∀ n, sys.fault n = none) → f = .stdio ∧ args.makeParentDirs = true)) := by
  unfold ImportCmd.makeDirs
  cases hm : args.makeParentDirs with
  | false => exact Sat.pure ⟨rfl, by simp⟩
  | true =>
    rw [if_pos rfl]
    cases f with
    | stdio => exact Sat.fail ⟨rfl, fun _ => ⟨rfl, rfl⟩⟩
    | path p =>
      simp only
      cases hasParent p with
      | false => exact Sat.pure ⟨rfl, by simp⟩
      | true =>
        rw [if_pos rfl]
        unfold Sat ImportCmd.createDirs
        cases hf : sys.fault w.ops with
        | none => exact ⟨rfl, by simp⟩
        | some k => exact ⟨rfl, fun h => by rw [h] at hf; cases hf⟩

theorem writesTo_stdio {args : ImportCmd.Args} {ns : Str} (h : WritesTo args ns .stdio) :
    args.output = .stdio ∧ args.substituteOutputPath = false := by
  unfold WritesTo at h
  cases hs : args.substituteOutputPath with
  | true => rw [hs, if_pos rfl] at h; obtain ⟨_, _, _, h, _⟩ := h; cases h
  | false => rw [hs] at h; exact ⟨h.symm, rfl⟩

theorem import_sat (sys : Sys) (L : ImportLib) (hasParent : Str → Bool) (importer : ImportCmd.Importer) (args : ImportCmd.Args) (w : World) :
    Sat (ImportCmd.run sys L hasParent importer args) w
      (fun _ w' => FitTogether args ∧ ∃ imp f es, Imports sys L importer args imp f es ∧ w'.log = w.log ++ es)
      (fun _ w' => (∃ imp f es n, Imports sys L importer args imp f es ∧ w'.log = w.log ++ es.take n) ∧ (¬ ∀ n, sys.fault n = none) ∨
        w'.log = w.log ∧ ((∀ n, sys.fault n = none) → (∃ e, importer.doImport L = .error e) ∨ ¬ FitTogether args)) := by
  unfold ImportCmd.run
  cases hi : importer.doImport L with
  | error e => exact Sat.fail (.inr ⟨rfl, fun _ => .inl ⟨e, rfl⟩⟩)
  | ok imp =>
    simp only
    apply Sat.bind
    apply Sat.ofOption
    · intro f hf
      rw [C57_output] at hf
      apply Sat.bind
      refine (makeDirs_sat sys hasParent args f w).imp ?_ ?_
      · rintro _ w₁ ⟨h1, h2⟩
        refine (writeFile_sat sys f _ w₁).imp ?_ ?_
        · rintro _ w₂ ⟨h3, _⟩
          refine ⟨?_, imp, f, _, ⟨hi, hf, h2, rfl⟩, by rw [h3, h1]⟩
          intro ho
          cases hs : args.substituteOutputPath with
          | true =>
            unfold WritesTo at hf
            rw [hs, if_pos rfl, ho] at hf
            obtain ⟨_, _, h, _⟩ := hf
            cases h
          | false =>
            refine ⟨rfl, ?_⟩
            unfold WritesTo at hf
            rw [hs] at hf
            have hf : f = args.output := hf
            cases hm : args.makeParentDirs with
            | false => rfl
            | true => exact absurd (hf.trans ho) (h2 hm)
        · rintro e w₂ ⟨⟨n, h3, _⟩, h4⟩
          exact .inl ⟨⟨imp, f, _, n, ⟨hi, hf, h2, rfl⟩, by rw [h3, h1]⟩, h4⟩
      · rintro e w₁ ⟨h1, h2⟩
        refine .inr ⟨h1, fun hn => .inr fun hfit => ?_⟩
        obtain ⟨rfl, hm⟩ := h2 hn
        have := (hfit (writesTo_stdio hf).1).2
        rw [hm] at this
        cases this
    · intro hnone
      refine .inr ⟨rfl, fun _ => .inr fun hfit => ?_⟩
      unfold ImportCmd.outputFor at hnone
      cases hs : args.substituteOutputPath with
      | false => rw [hs] at hnone; cases hnone
      | true =>
        rw [hs] at hnone
        cases ho : args.output with
        | path p => rw [ho] at hnone; cases hnone
        | stdio => rw [(hfit ho).1] at hs; cases hs

/-- C57, for the whole command: if it succeeds, then what was imported has been written, in full and to the file with the namespace
filled in, and nothing else was written. If it fails, then nothing was written, or only a part of that. -/
theorem C57_run (sys : Sys) (L : ImportLib) (hasParent : Str → Bool) (importer : ImportCmd.Importer) (args : ImportCmd.Args) :
    match (ImportCmd.run sys L hasParent importer args World.start).1 with
    | .ok _ => ∃ imp f, Imports sys L importer args imp f (ImportCmd.run sys L hasParent importer args World.start).2.log
    | .error _ => (ImportCmd.run sys L hasParent importer args World.start).2.log = [] ∨ ∃ imp f es, Imports sys L importer args imp f es ∧
        (ImportCmd.run sys L hasParent importer args World.start).2.log <+: es := by
  have hs := import_sat sys L hasParent importer args World.start
  rcases hr : ImportCmd.run sys L hasParent importer args World.start with ⟨e | ⟨⟩, w⟩
  · rcases hs.err hr with ⟨⟨imp, f, es, n, h1, h2⟩, _⟩ | ⟨h, _⟩
    · exact .inr ⟨imp, f, es, h1, by rw [h2]; exact List.take_prefix _ _⟩
    · exact .inl h
  · obtain ⟨_, imp, f, es, h1, h2⟩ := hs.ok hr
    exact ⟨imp, f, by rw [h2]; exact h1⟩

/-- C57: when no operation on files fails, the command succeeds exactly if the import does and the options fit together: standard
output is rejected if there is a path to be filled in or directories to be created. -/
theorem C57_succeeds_iff (sys : Sys) (L : ImportLib) (hasParent : Str → Bool) (importer : ImportCmd.Importer) (args : ImportCmd.Args)
    (hf : ∀ n, sys.fault n = none) :
    (ImportCmd.run sys L hasParent importer args World.start).1 = .ok () ↔
      (∃ imp, importer.doImport L = .ok imp) ∧ FitTogether args := by
  have hs := import_sat sys L hasParent importer args World.start
  rcases hr : ImportCmd.run sys L hasParent importer args World.start with ⟨e | ⟨⟩, w⟩
  · rcases hs.err hr with ⟨_, h⟩ | ⟨_, h⟩
    · exact absurd hf h
    · refine ⟨fun h => by simp at h, ?_⟩
      rintro ⟨⟨imp, h1⟩, h2⟩
      rcases h hf with ⟨e, h⟩ | h
      · rw [h1] at h; cases h
      · exact absurd h2 h
  · obtain ⟨h0, imp, f, es, h1, h2⟩ := hs.ok hr
    exact ⟨fun _ => ⟨⟨imp, h1.1⟩, h0⟩, fun _ => rfl⟩

theorem import_plan (sys : Sys) (L : ImportLib) (hasParent : Str → Bool) (importer : ImportCmd.Importer) (args : ImportCmd.Args) :
    ∃ plan : List (FileSpec × Str), (∀ e ∈ plan, ∃ imp, importer.doImport L = .ok imp ∧ WritesTo args imp.userFpNamespace e.1) ∧
      (ImportCmd.run sys L hasParent importer args World.start).2.log <+: wholeWrites sys plan ∧
      ((ImportCmd.run sys L hasParent importer args World.start).1 = .ok () →
        (ImportCmd.run sys L hasParent importer args World.start).2.log = wholeWrites sys plan) := by
  have h := C57_run sys L hasParent importer args
  have key : ∀ {imp f es}, Imports sys L importer args imp f es →
      ∃ plan : List (FileSpec × Str), (∀ e ∈ plan, ∃ imp, importer.doImport L = .ok imp ∧ WritesTo args imp.userFpNamespace e.1) ∧
        es = wholeWrites sys plan := by
    rintro imp f es ⟨h1, h2, _, h3⟩
    refine ⟨[(f, sys.render (ledgerFromTransactions imp.transactions))], ?_, by rw [h3]; simp [wholeWrites]⟩
    intro e he
    rw [List.mem_singleton] at he
    exact ⟨imp, h1, by rw [he]; exact h2⟩
  rcases hr : ImportCmd.run sys L hasParent importer args World.start with ⟨e | ⟨⟩, w⟩
  · rw [hr] at h
    rcases h with h | ⟨imp, f, es, h1, h2⟩
    · exact ⟨[], by simp, by rw [h]; exact List.nil_prefix, fun h => by cases h⟩
    · obtain ⟨plan, h3, rfl⟩ := key h1
      exact ⟨plan, h3, h2, fun h => by cases h⟩
  · rw [hr] at h
    obtain ⟨imp, f, h1⟩ := h
    obtain ⟨plan, h3, h4⟩ := key h1
    exact ⟨plan, h3, by rw [h4]; exact List.prefix_rfl, fun _ => h4⟩

/-- C59 for `import`. -/
theorem C59_import (sys : Sys) (L : ImportLib) (hasParent : Str → Bool) (importer : ImportCmd.Importer) (args : ImportCmd.Args) :
    CrashSafe sys (ImportCmd.run sys L hasParent importer args World.start).1 (ImportCmd.run sys L hasParent importer args World.start).2.log := by
  obtain ⟨plan, _, h1, h2⟩ := import_plan sys L hasParent importer args
  exact crashSafe_of_plan h1 h2

/-- C60 for `import`, as far as it goes: only the file with the namespace filled in is touched. -/
theorem C60_import_partial (sys : Sys) (L : ImportLib) (hasParent : Str → Bool) (importer : ImportCmd.Importer) (args : ImportCmd.Args)
    {imp : Import} {f : FileSpec} (hi : importer.doImport L = .ok imp) (hw : WritesTo args imp.userFpNamespace f) :
    LosesNothingBetweenWrites sys [f] (ImportCmd.run sys L hasParent importer args World.start).1
      (ImportCmd.run sys L hasParent importer args World.start).2.log := by
  obtain ⟨plan, h0, h1, h2⟩ := import_plan sys L hasParent importer args
  refine losesNothing_of_plan h1 h2 (fun e he => ?_)
  obtain ⟨imp', g1, g2⟩ := h0 e he
  rw [hi] at g1
  cases g1
  rw [← C57_output] at hw g2
  rw [hw] at g2
  cases g2
  exact List.mem_singleton_self _

/-! ### Namespaces with slashes -/

theorem Spec.Replaced.count {pat new s t : Str} (h : Replaced pat new s t) (c : Char) :
    ∃ n : Nat, t.count c + n * pat.count c = s.count c + n * new.count c ∧ (pat <:+: s → 1 ≤ n) := by
  induction h with
  | none h => exact ⟨0, by omega, fun h' => absurd h' h⟩
  | @found a r r' h1 h2 ih =>
    obtain ⟨n, h, _⟩ := ih
    refine ⟨n + 1, ?_, fun _ => by omega⟩
    simp only [List.count_append, Nat.add_mul, Nat.one_mul]
    omega

/-- A finding: if the namespace has a slash then the output with the namespace filled in is in another directory than the path says:
it has more slashes. Generated namespaces can have slashes. -/
theorem C57_slashes {args : ImportCmd.Args} {ns p p' : Str} (hs : args.substituteOutputPath = true) (hw : WritesTo args ns (.path p'))
    (ho : args.output = .path p) (hp : "%FP_NS%".toList <:+: p) (hns : '/' ∈ ns) : p.count '/' < p'.count '/' := by
  unfold WritesTo at hw
  rw [hs, if_pos rfl, ho] at hw
  obtain ⟨_, _, h1, h2, h3⟩ := hw
  cases h1; cases h2
  obtain ⟨n, h4, h5⟩ := h3.count '/'
  have h6 := h5 hp
  have h7 := List.count_pos_iff.2 hns
  have h8 : List.count '/' (['%', 'F', 'P', '_', 'N', 'S', '%'] : Str) = 0 := by decide
  rw [h8] at h4
  have := Nat.mul_le_mul h6 h7
  omega

set_option maxRecDepth 100000 in
/-- The namespace of one account is put into another directory, and that of another account makes an absolute path. The second
placeholder shares a character with the first one and is not replaced. -/
example : ImportCmd.outputFor ⟨.path "out/%FP_NS%.journal".toList, true, false⟩ (generatedNs Sha1.digest "Acc 1".toList) =
      some (.path "out/uw3+L/7U.journal".toList) ∧
    ImportCmd.outputFor ⟨.path "%FP_NS%.journal".toList, true, false⟩ (generatedNs Sha1.digest "Acc 2".toList) =
      some (.path "/kWMMrKr.journal".toList) ∧
    ImportCmd.outputFor ⟨.path "%FP_NS%FP_NS%%FP_NS%".toList, true, false⟩ "x".toList = some (.path "xFP_NS%x".toList) ∧
    ImportCmd.outputFor ⟨.stdio, true, false⟩ "x".toList = none := by decide +kernel

set_option maxRecDepth 100000 in
/-- A statement with three transactions is written to the file with the namespace filled in: the first letter of each description. -/
example : FitTogether ⟨.path "%FP_NS%".toList, true, true⟩ ∧
    (∃ imp, (ImportCmd.Importer.nationwidePdf (.fixed "acc".toList) (Ex.pdfDoc Ex.pdfPage1 Ex.pdfPage2)).doImport Ex.plainLib = .ok imp ∧
      imp.userFpNamespace = "acc".toList) ∧
    (ImportCmd.run (Ex.system "" "" fun _ => none) Ex.plainLib (fun _ => true)
      (.nationwidePdf (.fixed "acc".toList) (Ex.pdfDoc Ex.pdfPage1 Ex.pdfPage2)) ⟨.path "%FP_NS%".toList, true, true⟩ World.start).2.log =
      .create 97 :: (encodeUtf8 "CCS".toList).map (.write 97) :=
  ⟨by unfold FitTogether; simp, NationwidePdf.of_run (by decide +kernel), by decide +kernel⟩

end Verif
