import Verif.Spec.Pipe
import Verif.Props.DaysCmd

/-!
# Standard input and output in place of a file
-/

namespace Verif
open Spec Spec.Book

/-! ### The last thing that a command does is to write its output -/

/-- What the command does before it writes its output, and the text. -/
def beforeOutput (sys : Sys) (o : Outside) : SubCommand → Prog Str
  | .applyRules rules input _ => do
    let table ← Prog.ofOption .other (rules sys.start)
    let ledger ← Files.readLedgerFile sys input
    let trns ← Prog.ofOption .unhandledItem (TransactionPostings.fromLedger ledger)
    match table.updateTransactions o.lower o.fuel trns with
    | .error _ => Prog.fail .other
    | .ok trns => pure (sys.render (TransactionPostings.intoLedger (o.orders 0) trns))
  | .importFrom source _ => do
    let importer ← source.importer sys
    match importer.doImport o.lib with
    | .error _ => Prog.fail .other
    | .ok imp => pure (sys.render (ledgerFromTransactions imp.transactions))
  | .merge args => do
    let acc ← MergeCmd.readInputs sys o.orders args.inputs ⟨0, Merger.new, []⟩
    MergeCmd.writeUnmerged sys (o.orders acc.calls) args acc.unmerged
    match acc.merger.build (o.orders acc.calls) with
    | .error e => Prog.fail (.merge e)
    | .ok trns => pure (sys.render (TransactionPostings.intoLedger (o.orders acc.calls) (Sources.stripSources trns)))
  | _ => Prog.fail .other

theorem bind_assoc' {α β γ : Type} (p : Prog α) (f : α → Prog β) (g : β → Prog γ) : ((p >>= f) >>= g) = (p >>= fun a => f a >>= g) := by
  funext w
  show (match (match p w with | (.ok a, w) => f a w | (.error e, w) => (.error e, w)) with
    | (.ok a, w) => g a w | (.error e, w) => (.error e, w)) =
    (match p w with | (.ok a, w) => (match f a w with | (.ok a, w) => g a w | (.error e, w) => (.error e, w)) | (.error e, w) => (.error e, w))
  rcases p w with ⟨e | a, w⟩ <;> rfl

theorem fail_bind' {α β : Type} (e : CmdErr) (f : α → Prog β) : ((Prog.fail e : Prog α) >>= f) = Prog.fail e := rfl
theorem pure_bind' {α β : Type} (a : α) (f : α → Prog β) : ((pure a : Prog α) >>= f) = f a := rfl

theorem applyRules_last (sys : Sys) (o : Outside) (rules : (Nat → Option Bytes) → Option Rules.Table) (input output : FileSpec) :
    (SubCommand.applyRules rules input output).run sys o =
      (beforeOutput sys o (.applyRules rules input output) >>= Files.writeFile sys output) := by
  show Rules.applyRules sys _ _ _ _ input output = _
  unfold Rules.applyRules beforeOutput
  simp only [bind_assoc']
  congr 1; funext table
  congr 1; funext ledger
  congr 1; funext trns
  cases table.updateTransactions o.lower o.fuel trns <;> rfl

theorem import_last (sys : Sys) (o : Outside) (source : ImportCmd.Source) (output : FileSpec) :
    (SubCommand.importFrom source ⟨output, false, false⟩).run sys o =
      (beforeOutput sys o (.importFrom source ⟨output, false, false⟩) >>= Files.writeFile sys output) := by
  show ImportCmd.runFiles sys _ _ source _ = _
  unfold ImportCmd.runFiles beforeOutput
  simp only [bind_assoc']
  congr 1; funext importer
  unfold ImportCmd.run
  cases importer.doImport o.lib <;> rfl

theorem merge_last (sys : Sys) (o : Outside) (args : MergeCmd.Args) :
    (SubCommand.merge args).run sys o = (beforeOutput sys o (.merge args) >>= Files.writeFile sys args.output) := by
  show MergeCmd.run sys _ args = _
  unfold MergeCmd.run beforeOutput
  simp only [bind_assoc']
  congr 1; funext acc
  congr 1; funext _
  cases acc.merger.build (o.orders acc.calls) <;> rfl

/-- The effects are on files other than `p`. -/
def Beside (sys : Sys) (p : Str) (log : List Eff) : Prop := ∀ e ∈ log, ∃ n, e.file = some n ∧ n ≠ sys.file p

theorem beside_nil {sys : Sys} {p : Str} : Beside sys p [] := fun _ h => (List.not_mem_nil h).elim

theorem beside_whole {sys : Sys} {p : Str} {f : FileSpec} (h : OtherFile sys p f) (text : Str) : Beside sys p (wholeWrite sys f text) := by
  obtain ⟨n, h1, h2⟩ := h
  intro e he
  exact ⟨n, (file_wholeWrite he).trans h1, h2⟩

theorem beside_contents {sys : Sys} {p : Str} {log : List Eff} (h : Beside sys p log) (F : Nat → Option Bytes) :
    contentsAfter F log (sys.file p) = F (sys.file p) := by
  apply contentsAfter_other
  intro e he hn
  obtain ⟨n, h1, h2⟩ := h e he
  rw [h1] at hn
  exact h2 (Option.some.inj hn)

theorem onScreen_append (a b : List Eff) : onScreen (a ++ b) = onScreen a ++ onScreen b := List.flatMap_append

theorem onScreen_print (b : Bytes) : onScreen (b.map .print) = b := by
  induction b with
  | nil => rfl
  | cons c b ih =>
    show [c] ++ onScreen (b.map .print) = c :: b
    rw [ih]; rfl

theorem beside_silent {sys : Sys} {p : Str} {log : List Eff} (h : Beside sys p log) : onScreen log = [] := by
  unfold onScreen
  rw [List.flatMap_eq_nil_iff]
  intro e he
  obtain ⟨n, h1, _⟩ := h e he
  cases e with
  | print b => cases h1
  | create m => rfl
  | write m b => rfl

theorem applyRules_before (sys : Sys) (o : Outside) (rules : (Nat → Option Bytes) → Option Rules.Table) (input output : FileSpec) :
    Sat (beforeOutput sys o (.applyRules rules input output)) World.start (fun _ w => w.log = []) (fun _ w => w.log = []) := by
  unfold beforeOutput
  apply Sat.bind
  apply Sat.ofOption (h2 := fun _ => rfl)
  intro table _
  apply Sat.bind
  refine (readLedgerFile_sat sys input World.start).imp ?_ (fun _ _ h => h.1)
  rintro L w ⟨h1, _⟩
  apply Sat.bind
  apply Sat.ofOption (h2 := fun _ => h1)
  intro ts _
  cases table.updateTransactions o.lower o.fuel ts with
  | error e => exact Sat.fail h1
  | ok ts => exact Sat.pure h1

theorem import_before (sys : Sys) (o : Outside) (source : ImportCmd.Source) (args : ImportCmd.Args) :
    Sat (beforeOutput sys o (.importFrom source args)) World.start (fun _ w => w.log = []) (fun _ w => w.log = []) := by
  unfold beforeOutput
  apply Sat.bind
  refine (importer_sat sys source).imp ?_ (fun _ _ h => h.1)
  rintro importer w ⟨h1, _⟩
  cases importer.doImport o.lib with
  | error e => exact Sat.fail h1
  | ok ts => exact Sat.pure h1

theorem merge_before (sys : Sys) (o : Outside) (args : MergeCmd.Args) {p : Str} (hu : ∀ f, args.unmerged = some f → OtherFile sys p f) :
    Sat (beforeOutput sys o (.merge args)) World.start (fun _ w => Beside sys p w.log) (fun _ w => Beside sys p w.log) := by
  unfold beforeOutput
  apply Sat.bind
  refine (readInputs_sat sys o.orders args.inputs ⟨0, Merger.new, []⟩ R_new World.start rfl).imp ?_ (fun _ _ h => by rw [h.1]; exact beside_nil)
  rintro acc w ⟨h1, gs, u, _, _, h4, _⟩
  rw [h4.build (o.orders acc.calls)]
  apply Sat.bind
  unfold MergeCmd.writeUnmerged
  split
  · exact Sat.pure (Sat.pure (by rw [h1]; exact beside_nil))
  · cases ha : args.unmerged with
    | none => exact Sat.fail (by rw [h1]; exact beside_nil)
    | some f =>
      refine (writeFile_sat _ _ _ _).imp ?_ ?_
      · rintro _ w' ⟨g1, _⟩
        refine Sat.pure ?_
        rw [g1, h1]
        exact beside_whole (hu f ha) _
      · rintro e w' ⟨⟨k, g1, _⟩, _⟩
        rw [g1, h1]
        exact fun x hx => beside_whole (hu f ha) _ x (List.mem_of_mem_take hx)

/-- The command and the one that prints differ only in where they write a text in the end. -/
theorem printsFor_same {sys : Sys} {p : Str} {cmd cmd' : SubCommand} (h : PrintsFor sys p cmd cmd') (o : Outside) :
    ∃ q : Prog Str, cmd.run sys o = (q >>= Files.writeFile sys (.path p)) ∧ cmd'.run sys o = (q >>= Files.writeFile sys .stdio) ∧
      Sat q World.start (fun _ w => Beside sys p w.log) (fun _ w => Beside sys p w.log) := by
  cases h with
  | applyRules rules input =>
    exact ⟨_, applyRules_last _ _ _ _ _, applyRules_last _ _ _ _ _,
      (applyRules_before sys o rules input _).imp (fun _ w h => by rw [h]; exact beside_nil) (fun _ w h => by rw [h]; exact beside_nil)⟩
  | importFrom source =>
    exact ⟨_, import_last _ _ _ _, import_last _ _ _ _,
      (import_before sys o source _).imp (fun _ w h => by rw [h]; exact beside_nil) (fun _ w h => by rw [h]; exact beside_nil)⟩
  | merge inputs unmerged hu =>
    exact ⟨beforeOutput sys o (.merge ⟨inputs, unmerged, .path p⟩), merge_last sys o _, merge_last sys o _, merge_before sys o _ hu⟩

theorem bind_run {α β : Type} (q : Prog α) (f : α → Prog β) (w : World) :
    (q >>= f) w = match q w with
      | (.ok a, w) => f a w
      | (.error e, w) => (.error e, w) := rfl

theorem print_instead {sys : Sys} {p : Str} {cmd cmd' : SubCommand} (h : PrintsFor sys p cmd cmd') (o : Outside) :
    ((cmd'.run sys o World.start).1 = .ok () ↔ (cmd.run sys o World.start).1 = .ok ()) ∧
    ((cmd.run sys o World.start).1 = .ok () → ∃ (text : Str) (log : List Eff), Beside sys p log ∧
      (cmd.run sys o World.start).2.log = log ++ wholeWrite sys (.path p) text ∧
      (cmd'.run sys o World.start).2.log = log ++ wholeWrite sys .stdio text) := by
  obtain ⟨q, h1, h2, h3⟩ := printsFor_same h o
  rw [h1, h2, bind_run, bind_run]
  rcases hq : q World.start with ⟨e | text, w⟩
  · exact ⟨Iff.rfl, fun x => by cases x⟩
  · have h4 : Beside sys p w.log := h3.ok hq
    simp only [Files.writeFile]
    rcases sys.fault w.ops with _ | _ | k
    · exact ⟨⟨fun _ => rfl, fun _ => rfl⟩, fun _ => ⟨text, w.log, h4, rfl, rfl⟩⟩
    · exact ⟨⟨fun x => (by cases x), fun x => (by cases x)⟩, fun x => (by cases x)⟩
    · exact ⟨⟨fun x => (by cases x), fun x => (by cases x)⟩, fun x => (by cases x)⟩

/-- If the command that prints fails, and not because of printing, then nothing is printed. -/
theorem print_fails {sys : Sys} {p : Str} {cmd cmd' : SubCommand} (h : PrintsFor sys p cmd cmd') (o : Outside) {e : CmdErr} (he : e ≠ .write)
    (hr : (cmd'.run sys o World.start).1 = .error e) : onScreen (cmd'.run sys o World.start).2.log = [] := by
  obtain ⟨q, -, h2, h3⟩ := printsFor_same h o
  rw [h2, bind_run] at hr ⊢
  rcases hq : q World.start with ⟨e' | text, w⟩
  · exact beside_silent (h3.err hq)
  · rw [hq] at hr
    simp only [Files.writeFile] at hr
    cases hf : sys.fault w.ops with
    | none => rw [hf] at hr; cases hr
    | some k =>
      rw [hf] at hr
      cases hr
      exact absurd rfl he

end Verif
