import Verif.Proofs.Pipe

/-!
# Standard input in place of a file
-/

namespace Verif
open Spec Spec.Book

/-- Two programs do the same, as far as relations on states and results say: from related states, both succeed or both fail. -/
def Lockstep {α β : Type} (S S' : World → World → Prop) (Rel : α → β → Prop) (q : Prog α) (q' : Prog β) : Prop :=
  ∀ w w', S w w' → match q w, q' w' with
    | (.ok a, v), (.ok b, v') => Rel a b ∧ S' v v'
    | (.error _, _), (.error _, _) => True
    | _, _ => False

theorem Lockstep.bind {α β γ δ : Type} {S S' S'' : World → World → Prop} {Rel : α → β → Prop} {Rel' : γ → δ → Prop}
    {q : Prog α} {q' : Prog β} {f : α → Prog γ} {f' : β → Prog δ} (h : Lockstep S S' Rel q q')
    (hf : ∀ a b, Rel a b → Lockstep S' S'' Rel' (f a) (f' b)) : Lockstep S S'' Rel' (q >>= f) (q' >>= f') := by
  intro w w' hw
  have h1 := h w w' hw
  rw [bind_run, bind_run]
  rcases hq : q w with ⟨e | a, v⟩ <;> rcases hq' : q' w' with ⟨e' | b, v'⟩ <;> rw [hq, hq'] at h1
  · trivial
  · exact h1.elim
  · exact h1.elim
  · exact hf a b h1.1 v v' h1.2

theorem Lockstep.fail {α β : Type} {S S' : World → World → Prop} {Rel : α → β → Prop} (e e' : CmdErr) :
    Lockstep S S' Rel (Prog.fail e) (Prog.fail e') := fun _ _ _ => trivial

theorem Lockstep.pure {α β : Type} {S : World → World → Prop} {Rel : α → β → Prop} {a : α} {b : β} (h : Rel a b) :
    Lockstep S S Rel (Pure.pure a) (Pure.pure b) := fun _ _ hw => ⟨h, hw⟩

theorem Lockstep.ofOption {α : Type} {S : World → World → Prop} (e : CmdErr) (x : Option α) :
    Lockstep S S Eq (Prog.ofOption e x) (Prog.ofOption e x) := by
  cases x with
  | none => exact .fail _ _
  | some a => exact .pure rfl

theorem Lockstep.ofExcept {ε α : Type} {S : World → World → Prop} (x : Except ε α) :
    Lockstep S S Eq (ImportCmd.ofExcept x) (ImportCmd.ofExcept x) := by
  cases x with
  | error => exact .fail _ _
  | ok a => exact .pure rfl

/-- Both did the same so far; if the file in question has not been read yet, then nothing was written and standard input has not been read. -/
structure SoFar (read : Bool) (w w' : World) : Prop where
  log : w.log = w'.log
  ops : w.ops = w'.ops
  drawn : w.drawn = w'.drawn
  fresh : read = false → w.log = [] ∧ w'.stdinRead = false

section Feed
variable {sys : Sys} {p : Str} {b : Bytes} {F : Nat → Option Bytes} (hb : sys.start (sys.file p) = some b)
  (hF : ∀ n, n ≠ sys.file p → F n = sys.start n)

theorem contentsAfter_agree {F G : Nat → Option Bytes} {n : Nat} (h : F n = G n) (es : List Eff) :
    contentsAfter F es n = contentsAfter G es n := by
  induction es generalizing F G with
  | nil => exact h
  | cons e es ih => cases e <;> exact ih (by simp only [h])

include hb in
theorem readBytes_fed : Lockstep (SoFar false) (SoFar true) Eq (Files.readBytes sys (.path p)) (Files.readBytes (withInput sys b F) .stdio) := by
  intro w w' hw
  obtain ⟨h1, h2⟩ := hw.fresh rfl
  have h3 : contentsAfter sys.start w.log (sys.file p) = some b := by rw [h1]; exact hb
  simp only [Files.readBytes, h3, h2, withInput, ← hw.ops]
  rcases sys.fault w.ops with _ | _ | k
  · exact ⟨rfl, hw.log, rfl, hw.drawn, fun x => by cases x⟩
  · trivial
  · trivial

include hF in
theorem readBytes_beside {read : Bool} {f : FileSpec} (h : OtherFile sys p f) :
    Lockstep (SoFar read) (SoFar read) Eq (Files.readBytes sys f) (Files.readBytes (withInput sys b F) f) := by
  intro w w' hw
  obtain ⟨n, h1, h2⟩ := h
  cases f with
  | stdio => cases h1
  | path q =>
    have h1 : sys.file q = n := Option.some.inj h1
    have h3 : contentsAfter (withInput sys b F).start w'.log ((withInput sys b F).file q) = contentsAfter sys.start w.log (sys.file q) := by
      rw [← hw.log]
      exact contentsAfter_agree (hF _ (by rw [show (withInput sys b F).file q = n from h1]; exact h2)) _
    simp only [Files.readBytes, h3, ← hw.ops, show (withInput sys b F).fault = sys.fault from rfl]
    cases contentsAfter sys.start w.log (sys.file q) with
    | none => trivial
    | some c =>
      rcases sys.fault w.ops with _ | _ | k
      · exact ⟨rfl, hw.log, rfl, hw.drawn, fun x => hw.fresh x⟩
      · trivial
      · trivial

theorem Lockstep.readFile {S S' : World → World → Prop} {sys sys' : Sys} {f f' : FileSpec}
    (h : Lockstep S S' Eq (Files.readBytes sys f) (Files.readBytes sys' f')) :
    Lockstep S S' Eq (Files.readFile sys f) (Files.readFile sys' f') := by
  rw [readFile_eq, readFile_eq]
  exact h.bind fun a c hac => by subst hac; exact .ofOption _ _

theorem Lockstep.readLedgerFile {S S' : World → World → Prop} {sys sys' : Sys} (hp : sys'.parse = sys.parse) {f f' : FileSpec}
    (h : Lockstep S S' Eq (Files.readBytes sys f) (Files.readBytes sys' f')) :
    Lockstep S S' Eq (Files.readLedgerFile sys f) (Files.readLedgerFile sys' f') := by
  unfold Files.readLedgerFile
  refine h.readFile.bind fun a c hac => ?_
  subst hac
  rw [hp]
  exact .ofOption _ _

theorem writeFile_lock {sys sys' : Sys} (hs : sys'.fault = sys.fault) (hfile : sys'.file = sys.file) (f : FileSpec) (text : Str) :
    Lockstep (SoFar true) (SoFar true) Eq (Files.writeFile sys f text) (Files.writeFile sys' f text) := by
  intro w w' hw
  unfold Files.writeFile
  simp only [hs, hfile, hw.ops, hw.log]
  cases f with
  | stdio =>
    cases sys.fault w'.ops with
    | none => exact ⟨trivial, rfl, rfl, hw.drawn, fun x => by cases x⟩
    | some k => trivial
  | path q =>
    rcases sys.fault w'.ops with _ | _ | k
    · exact ⟨trivial, rfl, rfl, hw.drawn, fun x => by cases x⟩
    · trivial
    · trivial

theorem importRun_lock {sys sys' : Sys} (hs : sys'.fault = sys.fault) (hfile : sys'.file = sys.file) (hr : sys'.render = sys.render)
    (L : ImportLib) (hasParent : Str → Bool) (importer : ImportCmd.Importer) (args : ImportCmd.Args) :
    Lockstep (SoFar true) (SoFar true) Eq (ImportCmd.run sys L hasParent importer args) (ImportCmd.run sys' L hasParent importer args) := by
  unfold ImportCmd.run
  cases importer.doImport L with
  | error e => exact .fail _ _
  | ok imp =>
    refine (Lockstep.ofOption _ _).bind fun out out' h => ?_
    subst h
    refine Lockstep.bind (S' := SoFar true) (Rel := Eq) ?_ fun _ _ _ => ?_
    · unfold ImportCmd.makeDirs
      split
      · cases out with
        | stdio => exact .fail _ _
        | path q =>
          simp only
          split
          · intro w w' hw
            unfold ImportCmd.createDirs
            simp only [hs, hw.ops]
            cases sys.fault w'.ops with
            | none => exact ⟨trivial, hw.log, by simp, hw.drawn, fun x => by cases x⟩
            | some k => trivial
          · exact .pure rfl
      · exact .pure rfl
    · unfold Files.writeLedgerFile
      rw [hr]
      exact writeFile_lock hs hfile _ _

include hb hF in
/-- All commands but `merge`. -/
theorem feed_lock {cmd cmd' : SubCommand} (h : ReadsFor sys p cmd cmd') (hm : ¬ IsMerge cmd) (hr : rulesFor F cmd' = rulesFor sys.start cmd) (o : Outside) :
    Lockstep (SoFar false) (SoFar true) Eq (cmd.run sys o) (cmd'.run (withInput sys b F) o) := by
  cases h with
  | applyRules rules output =>
    show Lockstep _ _ _ (Rules.applyRules sys _ _ _ _ _ _) (Rules.applyRules (withInput sys b F) _ _ _ _ _ _)
    unfold Rules.applyRules
    have hr : rules F = rules sys.start := hr
    rw [show (withInput sys b F).start = F from rfl, hr]
    refine (Lockstep.ofOption _ _).bind fun T T' hT => ?_
    subst hT
    refine (Lockstep.readLedgerFile (sys := sys) (sys' := withInput sys b F) rfl (readBytes_fed hb)).bind fun L L' hL => ?_
    subst hL
    refine (Lockstep.ofOption _ _).bind fun ts ts' hts => ?_
    subst hts
    cases T.updateTransactions o.lower o.fuel ts with
    | error e => exact .fail _ _
    | ok ts => exact writeFile_lock rfl rfl _ _
  | nationwideCsv fpNs legacy args =>
    show Lockstep _ _ _ (ImportCmd.runFiles sys _ _ _ _) (ImportCmd.runFiles (withInput sys b F) _ _ _ _)
    unfold ImportCmd.runFiles
    refine Lockstep.bind (S' := SoFar true) (Rel := Eq) ?_ fun i i' hi => ?_
    · unfold ImportCmd.Source.importer
      refine (readBytes_fed hb).bind fun x y hxy => ?_
      subst hxy
      exact .ofExcept _
    · subst hi
      exact importRun_lock rfl rfl rfl _ _ _ _
  | paypalCsv ns legacy tz args htz =>
    show Lockstep _ _ _ (ImportCmd.runFiles sys _ _ _ _) (ImportCmd.runFiles (withInput sys b F) _ _ _ _)
    unfold ImportCmd.runFiles
    refine Lockstep.bind (S' := SoFar true) (Rel := Eq) ?_ fun i i' hi => ?_
    · unfold ImportCmd.Source.importer
      refine (Lockstep.readFile (readBytes_fed hb)).bind fun x y hxy => ?_
      subst hxy
      refine (Lockstep.readFile (readBytes_beside hF htz)).bind fun x y hxy => ?_
      subst hxy
      exact .ofExcept _
    · subst hi
      exact importRun_lock rfl rfl rfl _ _ _ _
  | timeZones ns legacy input args hin =>
    show Lockstep _ _ _ (ImportCmd.runFiles sys _ _ _ _) (ImportCmd.runFiles (withInput sys b F) _ _ _ _)
    unfold ImportCmd.runFiles
    refine Lockstep.bind (S' := SoFar true) (Rel := Eq) ?_ fun i i' hi => ?_
    · unfold ImportCmd.Source.importer
      refine (Lockstep.readFile (readBytes_beside hF hin)).bind fun x y hxy => ?_
      subst hxy
      refine (Lockstep.readFile (readBytes_fed hb)).bind fun x y hxy => ?_
      subst hxy
      exact .ofExcept _
    · subst hi
      exact importRun_lock rfl rfl rfl _ _ _ _
  | merge => exact absurd trivial hm

/-! ### `merge` -/

/-- The mergers are the same but for notes of sources. -/
structure AccAlike (a a' : MergeCmd.Acc) : Prop where
  calls : a.calls = a'.calls
  unmerged : a.unmerged.map unsourced = a'.unmerged.map unsourced
  books : ∃ J J', R a.merger J ∧ R a'.merger J' ∧ J.relabel unsourcedHead = J'.relabel unsourcedHead

theorem unsourcedHead_date (x : TransactionInternal) : (unsourcedHead x).raw.date = x.raw.date := rfl

theorem handedBack_relabel (J : Book) (pick : Nat → Str) (ts : List TransactionPostings) :
    (J.handedBack pick ts).map unsourced = (J.relabel unsourcedHead).handedBack pick (ts.map unsourced) := by
  unfold handedBack
  rw [List.filter_map, List.map_map, List.map_map]
  have : (fun t => decide (Undecided (J.relabel unsourcedHead) t)) ∘ unsourced = fun t => decide (Undecided J t) := by
    funext t
    exact decide_eq_decide.2 (undecided_relabel unsourcedHead_date J t)
  rw [this]
  rfl

theorem pickFp_relabel (h : HashOrder) (J : Book) : pickFp h (J.relabel unsourcedHead) = pickFp h J := rfl

/-- The same merge calls but for notes of sources. -/
theorem mergeGroups_alike (ho : Nat → HashOrder) {gs gs' : List (List TransactionPostings)}
    (hg : gs.map (·.map unsourced) = gs'.map (·.map unsourced)) {a a' : MergeCmd.Acc} (h : AccAlike a a') :
    match MergeCmd.mergeGroups ho gs a, MergeCmd.mergeGroups ho gs' a' with
    | .ok c, .ok c' => AccAlike c c'
    | .error _, .error _ => True
    | _, _ => False := by
  induction gs generalizing gs' a a' with
  | nil =>
    cases gs' with
    | nil => exact h
    | cons => cases hg
  | cons g gs ih =>
    cases gs' with
    | nil => cases hg
    | cons g' gs' =>
      rw [List.map_cons, List.map_cons, List.cons.injEq] at hg
      obtain ⟨hg1, hg2⟩ := hg
      obtain ⟨J, J', r, r', hJ⟩ := h.books
      have hbad : J.Bad g ↔ J'.Bad g' := by
        rw [← bad_relabel unsourcedHead_date J g, ← bad_relabel unsourcedHead_date J' g', withHead_unsourced, hJ, hg1]
      unfold MergeCmd.mergeGroups
      rcases merge_spec r (ho a.calls) g with ⟨h1, e, he, _⟩ | ⟨h1, m, he, hr⟩ <;>
        rcases merge_spec r' (ho a'.calls) g' with ⟨h1', e', he', _⟩ | ⟨h1', m', he', hr'⟩ <;> rw [he, he']
      · trivial
      · exact absurd (hbad.1 h1) h1'
      · exact absurd (hbad.2 h1') h1
      · apply ih hg2
        refine ⟨by rw [h.calls], ?_, _, _, hr, hr', ?_⟩
        · rw [List.map_append, List.map_append, h.unmerged, handedBack_relabel, handedBack_relabel, hJ, hg1, h.calls,
            ← pickFp_relabel _ J, ← pickFp_relabel _ J', hJ]
        · rw [← after_relabel unsourcedHead_date, ← after_relabel unsourcedHead_date, withHead_unsourced, hJ, hg1]

theorem groups_named (h : HashOrder) (d d' : Str) {ts : List TransactionPostings} (hn : NoSources ts) :
    (Sources.groups h d ts).map (·.map unsourced) = (Sources.groups h d' ts).map (·.map unsourced) := by
  rw [groups_none hn, groups_none hn]
  split
  · rfl
  · simp only [List.map_cons, List.map_nil, List.map_map]
    congr 1
    apply List.map_congr_left
    intro t _
    show unsourced (sourced d t) = unsourced (sourced d' t)
    have e := unsourced_none (hn t ‹_›)
    have k1 := unsourced_sourced d t
    have k2 := unsourced_sourced d' t
    rw [e] at k1 k2
    rw [k1, k2]

theorem readInputs_step {sys sys' : Sys} (hp : sys'.parse = sys.parse) {S S' S'' : World → World → Prop} {ho : Nat → HashOrder} {f f' : FileSpec} {fs fs' : List FileSpec}
    {a a' : MergeCmd.Acc} (h : AccAlike a a') (hf : Lockstep S S' Eq (Files.readBytes sys f) (Files.readBytes sys' f'))
    (hn : ∀ w w' L ts v, S w w' → Files.readLedgerFile sys f w = (.ok L, v) → TransactionPostings.fromLedger L = some ts →
      f.display sys = f'.display sys' ∨ NoSources ts)
    (ih : ∀ c c', AccAlike c c' → Lockstep S' S'' AccAlike (MergeCmd.readInputs sys ho fs c) (MergeCmd.readInputs sys' ho fs' c')) :
    Lockstep S S'' AccAlike (MergeCmd.readInputs sys ho (f :: fs) a) (MergeCmd.readInputs sys' ho (f' :: fs') a') := by
  intro w w' hw
  have h1 := Lockstep.readLedgerFile hp hf w w' hw
  have h2 := hn w w'
  unfold MergeCmd.readInputs Sources.readLedgerFile
  simp only [bind_assoc']
  rw [bind_run, bind_run]
  rcases hq : Files.readLedgerFile sys f w with ⟨e | L, v⟩ <;> rcases hq' : Files.readLedgerFile sys' f' w' with ⟨e' | L', v'⟩ <;> rw [hq, hq'] at h1
  · trivial
  · exact h1.elim
  · exact h1.elim
  · obtain ⟨rfl, hv⟩ := h1
    simp only
    cases hts : TransactionPostings.fromLedger L with
    | none => trivial
    | some ts =>
      have h3 : (Sources.groups (ho a.calls) (f.display sys) ts).map (·.map unsourced) =
          (Sources.groups (ho a'.calls) (f'.display sys') ts).map (·.map unsourced) := by
        rw [C23_deterministic (ho a.calls) HashOrder.sorted, C23_deterministic (ho a'.calls) HashOrder.sorted]
        rcases h2 L ts v hw hq hts with h | h
        · rw [h]
        · exact groups_named _ _ _ h
      have h4 := mergeGroups_alike ho h3 h
      have h5 : ∀ e, (Prog.ofOption e (some ts) : Prog (List TransactionPostings)) = Pure.pure ts := fun _ => rfl
      simp only [h5, pure_bind']
      rcases hm : MergeCmd.mergeGroups ho (Sources.groups (ho a.calls) (f.display sys) ts) a with e | c <;>
        rcases hm' : MergeCmd.mergeGroups ho (Sources.groups (ho a'.calls) (f'.display sys') ts) a' with e' | c' <;> rw [hm, hm'] at h4
      · trivial
      · exact h4.elim
      · exact h4.elim
      · exact ih c c' h4 v v' hv

include hF in
theorem readInputs_behind {read : Bool} {ho : Nat → HashOrder} {fs : List FileSpec} (h : ∀ f ∈ fs, OtherFile sys p f) (a a' : MergeCmd.Acc)
    (ha : AccAlike a a') :
    Lockstep (SoFar read) (SoFar read) AccAlike (MergeCmd.readInputs sys ho fs a) (MergeCmd.readInputs (withInput sys b F) ho fs a') := by
  induction fs generalizing a a' with
  | nil => exact .pure ha
  | cons f fs ih =>
    exact readInputs_step (sys := sys) (sys' := withInput sys b F) rfl ha (readBytes_beside hF (h f (by simp))) (fun _ _ _ _ _ _ _ _ => .inl (by cases f <;> rfl))
      (fun c c' hc => ih (fun g hg => h g (by simp [hg])) c c' hc)

include hb hF in
theorem readInputs_fed {ho : Nat → HashOrder} {before behind : List FileSpec} (h : ∀ f ∈ before ++ behind, OtherFile sys p f)
    (hn : ∀ ts, contentOf sys sys.start p = some ts → NoSources ts) (a a' : MergeCmd.Acc) (ha : AccAlike a a') :
    Lockstep (SoFar false) (SoFar true) AccAlike (MergeCmd.readInputs sys ho (before ++ .path p :: behind) a)
      (MergeCmd.readInputs (withInput sys b F) ho (before ++ .stdio :: behind) a') := by
  induction before generalizing a a' with
  | nil =>
    refine readInputs_step (sys := sys) (sys' := withInput sys b F) rfl ha (readBytes_fed hb) ?_
      (fun c c' hc => readInputs_behind hF (fun g hg => h g (by simpa using hg)) c c' hc)
    intro w w' L ts v hw hL hts
    refine .inr (hn ts ?_)
    obtain ⟨_, _, _, h4⟩ := (readLedgerFile_sat sys (.path p) w).ok hL
    rw [(hw.fresh rfl).1] at h4
    have h4 : ledgerAt sys sys.start false (.path p) = some L := h4
    unfold contentOf
    rw [h4]
    exact hts
  | cons f before ih =>
    exact readInputs_step (sys := sys) (sys' := withInput sys b F) rfl ha (readBytes_beside hF (h f (by simp))) (fun _ _ _ _ _ _ _ _ => .inl (by cases f <;> rfl))
      (fun c c' hc => ih (fun g hg => h g (List.mem_cons_of_mem _ hg)) c c' hc)

/-- The text of what is unmerged, and where it goes. -/
def unmergedPlan (sys : Sys) (args : MergeCmd.Args) (u : List TransactionPostings) : List (FileSpec × Str) :=
  match args.unmerged with
  | some f => if u = [] then [] else [(f, sys.render (TransactionPostings.intoLedger HashOrder.sorted u))]
  | none => []

theorem writeFile_ops {sys sys' : Sys} (hs : sys'.fault = sys.fault) (hfile : sys'.file = sys.file) (f : FileSpec) (text text' : Str) (w w' : World) (h : w.ops = w'.ops) :
    match Files.writeFile sys f text w, Files.writeFile sys' f text' w' with
    | (.ok _, v), (.ok _, v') => v.ops = v'.ops ∧ v.log = w.log ++ wholeWrite sys f text ∧ v'.log = w'.log ++ wholeWrite sys f text'
    | (.error _, _), (.error _, _) => True
    | _, _ => False := by
  unfold Files.writeFile
  simp only [hs, hfile, h]
  cases f with
  | stdio =>
    cases sys.fault w'.ops with
    | none => exact ⟨rfl, rfl, rfl⟩
    | some k => trivial
  | path q =>
    rcases sys.fault w'.ops with _ | _ | k
    · exact ⟨rfl, rfl, rfl⟩
    · trivial
    · trivial

theorem writeUnmerged_lock {sys sys' : Sys} (hs : sys'.fault = sys.fault) (hfile : sys'.file = sys.file) (hr : sys'.render = sys.render)
    (h h' : HashOrder) {args args' : MergeCmd.Args} (ha : args'.unmerged = args.unmerged)
    {u u' : List TransactionPostings} (hu : u.map unsourced = u'.map unsourced) :
    Lockstep (fun w w' => w.ops = w'.ops ∧ w.log = [] ∧ w'.log = [])
      (fun v v' => v.ops = v'.ops ∧ v.log = wholeWrites sys (unmergedPlan sys args u) ∧ v'.log = wholeWrites sys (unmergedPlan sys args u'))
      Eq (MergeCmd.writeUnmerged sys h args u) (MergeCmd.writeUnmerged sys' h' args' u') := by
  have he : u = [] ↔ u' = [] := by rw [← List.map_eq_nil_iff (f := unsourced), hu, List.map_eq_nil_iff]
  rintro w w' ⟨h1, h2, h3⟩
  unfold MergeCmd.writeUnmerged unmergedPlan
  by_cases hue : u = []
  · have hue' := he.1 hue
    rw [if_pos (by simp [hue]), if_pos (by simp [hue'])]
    refine ⟨rfl, h1, ?_, ?_⟩
    · rw [h2]; cases args.unmerged <;> simp [hue, wholeWrites]
    · rw [h3]; cases args.unmerged <;> simp [hue', wholeWrites]
  · have hue' : ¬ u' = [] := fun x => hue (he.2 x)
    rw [if_neg (by simpa using hue), if_neg (by simpa using hue'), ha]
    cases args.unmerged with
    | none => trivial
    | some f =>
      simp only
      rw [if_neg hue, if_neg hue']
      unfold Files.writeLedgerFile
      rw [hr, intoLedger_order h HashOrder.sorted, intoLedger_order h' HashOrder.sorted]
      have k := writeFile_ops hs hfile f (sys.render (TransactionPostings.intoLedger HashOrder.sorted u))
        (sys.render (TransactionPostings.intoLedger HashOrder.sorted u')) w w' h1
      revert k
      rcases Files.writeFile sys f _ w with ⟨e | ⟨⟩, v⟩ <;> rcases Files.writeFile sys' f _ w' with ⟨e' | ⟨⟩, v'⟩ <;> intro k
      · trivial
      · exact k
      · exact k
      · obtain ⟨k1, k2, k3⟩ := k
        refine ⟨trivial, k1, ?_, ?_⟩
        · rw [k2, h2]; simp [wholeWrites]
        · rw [k3, h3]; simp [wholeWrites]

theorem journal_unsourced {J J' : Book} (h : J.relabel unsourcedHead = J'.relabel unsourcedHead) :
    J.journal.map unsourced = J'.journal.map unsourced := by
  have h1 := journal_relabel unsourcedHead_date J
  have h2 := journal_relabel unsourcedHead_date J'
  rw [withHead_unsourced] at h1 h2
  rw [← h1, ← h2, h]

include hb hF in
theorem feed_merge {ho : Nat → HashOrder} {before behind : List FileSpec} (h : ∀ f ∈ before ++ behind, OtherFile sys p f)
    (hn : ∀ ts, contentOf sys sys.start p = some ts → NoSources ts) (unmerged : Option FileSpec) (output : FileSpec) :
    match MergeCmd.run sys ho ⟨before ++ .path p :: behind, unmerged, output⟩ World.start,
      MergeCmd.run (withInput sys b F) ho ⟨before ++ .stdio :: behind, unmerged, output⟩ World.start with
    | (.ok _, v), (.ok _, v') => SameButSources sys (.merge ⟨before ++ .path p :: behind, unmerged, output⟩) v.log v'.log
    | (.error _, _), (.error _, _) => True
    | _, _ => False := by
  have hs : SoFar false World.start World.start := ⟨rfl, rfl, rfl, fun _ => ⟨rfl, rfl⟩⟩
  have ha : AccAlike ⟨0, Merger.new, []⟩ ⟨0, Merger.new, []⟩ := ⟨rfl, rfl, _, _, R_new, R_new, rfl⟩
  have h1 := readInputs_fed hb hF (ho := ho) h hn _ _ ha _ _ hs
  have s1 := readInputs_sat sys ho (before ++ .path p :: behind) ⟨0, Merger.new, []⟩ R_new World.start rfl
  unfold MergeCmd.run
  rw [bind_run, bind_run]
  rcases hq : MergeCmd.readInputs sys ho (before ++ .path p :: behind) ⟨0, Merger.new, []⟩ World.start with ⟨e | a, v⟩ <;>
    rcases hq' : MergeCmd.readInputs (withInput sys b F) ho (before ++ .stdio :: behind) ⟨0, Merger.new, []⟩ World.start with ⟨e' | a', v'⟩ <;>
    rw [hq, hq'] at h1
  · trivial
  · exact h1.elim
  · exact h1.elim
  · obtain ⟨hacc, hv⟩ := h1
    obtain ⟨hl, -⟩ := s1.ok hq
    have hl' : v'.log = [] := by rw [← hv.log]; exact hl
    simp only
    have h2 := writeUnmerged_lock (sys := sys) (sys' := withInput sys b F) rfl rfl rfl (ho a.calls) (ho a'.calls)
      (args := ⟨before ++ .path p :: behind, unmerged, output⟩) (args' := ⟨before ++ .stdio :: behind, unmerged, output⟩) rfl hacc.unmerged v v'
      ⟨hv.ops, hl, hl'⟩
    rw [bind_run, bind_run]
    revert h2
    rcases MergeCmd.writeUnmerged sys _ _ _ v with ⟨e | ⟨⟩, x⟩ <;> rcases MergeCmd.writeUnmerged (withInput sys b F) _ _ _ v' with ⟨e' | ⟨⟩, x'⟩ <;> intro h2
    · trivial
    · exact h2.elim
    · exact h2.elim
    · obtain ⟨_, k1, k2, k3⟩ := h2
      obtain ⟨J, J', r, r', hJ⟩ := hacc.books
      have hj := journal_unsourced hJ
      have hstrip : ∀ ts, Sources.stripSources ts = ts.map unsourced := fun _ => rfl
      simp only [r.build (ho a.calls), r'.build (ho a'.calls), hstrip]
      unfold Files.writeLedgerFile
      rw [intoLedger_order (ho a.calls) HashOrder.sorted, intoLedger_order (ho a'.calls) HashOrder.sorted, ← hj]
      have k := writeFile_ops (sys := sys) (sys' := withInput sys b F) rfl rfl output
        (sys.render (TransactionPostings.intoLedger HashOrder.sorted (J.journal.map unsourced)))
        (sys.render (TransactionPostings.intoLedger HashOrder.sorted (J.journal.map unsourced))) x x' k1
      rw [show (withInput sys b F).render = sys.render from rfl]
      revert k
      rcases Files.writeFile sys output _ x with ⟨e | ⟨⟩, y⟩ <;> rcases Files.writeFile (withInput sys b F) output _ x' with ⟨e' | ⟨⟩, y'⟩ <;> intro k
      · trivial
      · exact k
      · exact k
      · obtain ⟨_, g2, g3⟩ := k
        refine ⟨_, rfl, a.unmerged, a'.unmerged, J.journal.map unsourced, hacc.unmerged, ?_, ?_⟩
        · rw [g2, k2]
          show _ = wholeWrites sys (unmergedPlan sys _ _ ++ [_])
          simp [wholeWrites]
        · rw [g3, k3]
          show _ = wholeWrites sys (unmergedPlan sys _ _ ++ [_])
          simp [wholeWrites]

end Feed
end Verif
