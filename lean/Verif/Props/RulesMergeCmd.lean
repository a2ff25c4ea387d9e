import Verif.Spec.RulesMergeCmd
import Verif.Props.RulesMerge
import Verif.Props.DaysCmd
import Verif.Props.SessionRules

/-!
# C93 for runs of `apply-rules` and `merge` on files
-/

namespace Verif
open Spec Spec.Book Spec.Rules Verif.Rules

/-- A run of `apply-rules` that can read its input and has no errors. -/
theorem rules_step {base : Sys} {files files' : Nat → Option Bytes} {changed : List Nat} {T : Table} {lower : Str → Str} {fuel : Nat} {q r : Str} {s : Step}
    (hs : AppliesRules files changed T lower fuel q r s) (hf : ∀ n, n ∉ changed → files' n = files n) {W W' : List TransactionPostings}
    (hW : contentOf base files' q = some W) (hT : T.updateTransactions lower fuel W = .ok W') :
    (s.run base files').1 = .ok () ∧
    ∀ n, s.after base files' n = if n = base.file r then some (encodeUtf8 (textOf base W')) else files' n := by
  obtain ⟨⟨rules, hc, hr⟩, rfl, rfl, hfault, hk⟩ := hs
  obtain ⟨L, hL, hts⟩ := Option.bind_eq_some_iff.1 hW
  obtain ⟨text, ht, hp⟩ := Option.bind_eq_some_iff.1 (show ((files' (base.file q)).bind decodeUtf8).bind base.parse = some L from hL)
  obtain ⟨b, hb, hd⟩ := Option.bind_eq_some_iff.1 ht
  have hrun : ∃ w, s.run base files' = (.ok (), w) ∧ w.log = wholeWrite (s.sys base files') (.path r) (textOf base W') := by
    unfold Step.run
    rw [hc]
    show ∃ w, applyRules (s.sys base files') (s.outside.orders 0) s.outside.lower s.outside.fuel (rules files') (.path q) (.path r) World.start = _ ∧ _
    rw [hr files' hf]
    have h1 : Files.readLedgerFile (s.sys base files') (.path q) World.start = (.ok L, { World.start with ops := 1 }) := by
      unfold Files.readLedgerFile
      show Prog.bind (Files.readFile _ _) _ _ = _
      have h0 : Files.readFile (s.sys base files') (.path q) World.start = (.ok text, { World.start with ops := 1 }) := by
        unfold Files.readFile
        simp only
        rw [show contentsAfter (s.sys base files').start World.start.log ((s.sys base files').file q) = some b from hb]
        simp only
        rw [show (s.sys base files').fault World.start.ops = none from hfault _]
        simp only
        rw [hd]
        rfl
      unfold Prog.bind
      rw [h0]
      simp only
      rw [show (s.sys base files').parse text = some L from hp]
      rfl
    have h2 : ∃ w, Files.writeLedgerFile (s.sys base files') (.path r) (TransactionPostings.intoLedger (s.outside.orders 0) W')
        { World.start with ops := 1 } = (.ok (), w) ∧ w.log = wholeWrite (s.sys base files') (.path r) (textOf base W') := by
      unfold Files.writeLedgerFile Files.writeFile
      rw [show (s.sys base files').fault (World.mk World.start.log 1 World.start.stdinRead World.start.drawn).ops = none from hfault _]
      refine ⟨_, rfl, ?_⟩
      rw [intoLedger_order _ HashOrder.sorted]
      rfl
    obtain ⟨w, h2, hl⟩ := h2
    refine ⟨w, ?_, hl⟩
    unfold applyRules
    show Prog.bind (Prog.ofOption _ _) _ _ = _
    unfold Prog.bind
    show Prog.bind (Files.readLedgerFile _ _) _ _ = _
    unfold Prog.bind
    rw [h1]
    show Prog.bind (Prog.ofOption _ _) _ _ = _
    rw [hts]
    unfold Prog.bind
    simp only [Prog.ofOption, Prog.pure]
    rw [hT]
    exact h2
  obtain ⟨w, hrun, hlog⟩ := hrun
  refine ⟨congrArg Prod.fst hrun, ?_⟩
  intro n
  unfold Step.after
  rw [hk, hrun]
  simp only
  rw [hlog, contentsAfter_whole]
  by_cases hn : n = base.file r
  · rw [if_pos hn, if_pos (show fileOf (s.sys base files') (.path r) = some n by rw [hn]; rfl)]
  · rw [if_neg hn, if_neg (show fileOf (s.sys base files') (.path r) ≠ some n from fun h => hn (Option.some.inj h).symm)]

/-- A run of `merge` whose inputs make a journal. -/
theorem merge_step {base : Sys} {files : Nat → Option Bytes} {p : Str} {qs : List Str} {s : Step} (hs : MergesInto p s qs) {js : List TransactionPostings}
    {D : Str → List TransactionPostings} (hJ : contentOf base files p = some js) (hJr : NoSources js)
    (hD : ∀ q ∈ qs, base.file q ≠ base.file p ∧ contentOf base files q = some (D q) ∧ NoSources (D q)) {j : List TransactionPostings}
    (hj : journalOf ((.sorted, js) :: qs.map fun q => (HashOrder.sorted, D q)) = some j) :
    (s.run base files).1 = .ok () ∧
    ∀ n, s.after base files n = if n = base.file p then some (encodeUtf8 (textOf base j)) else files n := by
  obtain ⟨m1, m2, m3⟩ := hs
  set c : Str → List TransactionPostings := fun q => if q = p then js else D q with hc
  have hcq : ∀ q ∈ qs, c q = D q := by
    intro q hq
    rw [hc]
    exact if_neg fun h => (hD q hq).1 (by rw [h])
  have hcp : c p = js := if_pos rfl
  obtain ⟨res, w, h1, h2⟩ := C92_run (s.sys base files) s.outside.orders (p :: qs) c (.path p) (fun _ => .sorted) m2 (by
    intro q hq
    rcases List.mem_cons.1 hq with rfl | hq
    · rw [hcp]
      exact ⟨hJ, hJr⟩
    · rw [hcq q hq]
      exact ⟨(hD q hq).2.1, (hD q hq).2.2⟩)
  have hcalls : (p :: qs).map (fun q => (HashOrder.sorted, c q)) = (.sorted, js) :: qs.map fun q => (HashOrder.sorted, D q) := by
    rw [List.map_cons, hcp]
    congr 1
    apply List.map_congr_left
    intro q hq
    rw [hcq q hq]
  rw [hcalls, hj] at h2
  obtain ⟨rfl, hlog⟩ := h2
  have hrun : s.run base files = (.ok (), w) := by
    unfold Step.run
    rw [m1]
    exact h1
  refine ⟨congrArg Prod.fst hrun, ?_⟩
  intro n
  unfold Step.after
  rw [m3, hrun]
  simp only
  rw [hlog, contentsAfter_whole]
  by_cases hn : n = base.file p
  · rw [if_pos hn, if_pos (show fileOf (s.sys base files) (.path p) = some n by rw [hn]; rfl)]
    rfl
  · rw [if_neg hn, if_neg (show fileOf (s.sys base files) (.path p) ≠ some n from fun h => hn (Option.some.inj h).symm)]

theorem journalOf_orders {calls calls' : History} (h : inputs calls = inputs calls') {j : List TransactionPostings} (hj : journalOf calls = some j) :
    journalOf calls' = some j := by
  rw [journalOf_books] at hj ⊢
  rwa [← h]

theorem readable1_rules {lower : Str → Str} {T : Table} {fuel : Nat} {W W' : List TransactionPostings} (h : T.updateTransactions lower fuel W = .ok W')
    (hr : ∀ t ∈ W, Readable1 t) (hs : NoSources W') (hp : PlainComments W') : ∀ t ∈ W', Readable1 t := by
  intro t' ht'
  obtain ⟨t, ht, h1, h2⟩ := forall₂_mem_right (C34_unchanged _ _ _ _ _ h) ht'
  obtain ⟨⟨a, b, _, _⟩, e⟩ := hr t ht
  refine ⟨⟨h1.comment.trans a, h1.postings.trans b, hs t' ht', (hp t' ht').1⟩, fun p' hp' => ⟨?_, (hp t' ht').2 p' hp'⟩⟩
  obtain ⟨p, hpm, h3⟩ := forall₂_mem_right h2 hp'
  exact h3.comment.trans (e p hpm).1

theorem contentOf_congr {base : Sys} {files files' : Nat → Option Bytes} {q : Str} (h : files' (base.file q) = files (base.file q)) :
    contentOf base files' q = contentOf base files q := by
  unfold contentOf ledgerAt
  show (((files' (base.file q)).bind decodeUtf8).bind base.parse).bind _ = (((files (base.file q)).bind decodeUtf8).bind base.parse).bind _
  rw [h]

/-- **C93 with files.** The journal `p` has the transactions `js`, in which the rules find nothing to do; the file `q` has the transactions
`W`, and no posting of them could be taken for one of the journal. One can apply the rules to `q` (writing to `r`, which may be `q`) and
merge the result into the journal, or merge `q` into the journal and apply the rules to the journal: all runs succeed, and the journal is
the same to the byte. No file notes a source, comments are plain, and what is printed is parsed again as it was. -/
theorem C93_commands (base : Sys) (p q r : Str) (files : Nat → Option Bytes) (T : Table) (lower : Str → Str) (fuel : Nat) (hT : LeavesFingerprints T)
    (js W W' j : List TransactionPostings) (h h₁ : HashOrder) (hq : base.file q ≠ base.file p) (hr : base.file r ≠ base.file p)
    (hJ : contentOf base files p = some js) (hJs : NoSources js) (hJc : PlainComments js)
    (hW : contentOf base files q = some W) (hWs : NoSources W) (hWc : PlainComments W)
    (hjs : T.updateTransactions lower fuel js = .ok js) (hW' : T.updateTransactions lower fuel W = .ok W') (hWs' : NoSources W')
    (hWc' : PlainComments W') (hu : Unlike js W) (hj : journalOf [(h, js), (h₁, W)] = some j) (hb : ParsedBack base W') (hb' : ParsedBack base j)
    (a₁ a₂ b₁ b₂ : Step) (ha₁ : AppliesRules files [base.file p, base.file r] T lower fuel q r a₁) (ha₂ : MergesInto p a₂ [r])
    (hb₁ : MergesInto p b₁ [q]) (hb₂ : AppliesRules files [base.file p, base.file r] T lower fuel p p b₂) :
    ∃ j', T.updateTransactions lower fuel j = .ok j' ∧
      EveryStep base (fun f s => (s.run base f).1 = .ok ()) files [a₁, a₂] ∧ EveryStep base (fun f s => (s.run base f).1 = .ok ()) files [b₁, b₂] ∧
      afterSession base files [a₁, a₂] (base.file p) = some (encodeUtf8 (textOf base j')) ∧
      afterSession base files [b₁, b₂] (base.file p) = some (encodeUtf8 (textOf base j')) := by
  have hJr := readable1_of_content hJ hJs hJc
  have hWr := readable1_of_content hW hWs hWc
  have hWr' := readable1_rules hW' hWr hWs' hWc'
  have hjr : ∀ t ∈ j, Readable1 t := by
    refine readable1_journal hj ?_
    intro ts hts
    rcases List.mem_cons.1 (show ts ∈ [js, W] from hts) with rfl | hts
    · exact hJr
    · rw [List.mem_singleton.1 hts]; exact hWr
  -- the journal either way
  have hall : ∃ j', T.updateTransactions lower fuel j = .ok j' := by
    cases hx : T.updateTransactions lower fuel j with
    | ok j' => exact ⟨j', rfl⟩
    | error e =>
      exfalso
      obtain ⟨A, hA, e', he⟩ := (C93_errors lower T fuel [(h, js), (h₁, W)]
        (List.pairwise_cons.2 ⟨fun B hB => by rw [List.mem_singleton.1 hB]; exact hu, List.pairwise_singleton _ _⟩) j hj).1 ⟨e, hx⟩
      rcases List.mem_cons.1 (show A ∈ [js, W] from hA) with rfl | hA
      · rw [hjs] at he; cases he
      · rw [List.mem_singleton.1 hA, hW'] at he; cases he
  obtain ⟨j', hj'⟩ := hall
  have hmerged := (C93_new_file lower T fuel hT h h₁ .sorted .sorted js W W' hjs hW' hu j').2 ⟨j, hj, hj'⟩
  -- rules first
  obtain ⟨a1, a2⟩ := rules_step (base := base) ha₁ (fun _ _ => rfl) hW hW'
  have hJ₁ : contentOf base (a₁.after base files) p = some js := by
    rw [contentOf_congr (by rw [a2, if_neg (Ne.symm hr)]), hJ]
  have hr₁ : contentOf base (a₁.after base files) r = some W' := content_of_text hWr' hb (by rw [a2, if_pos rfl])
  obtain ⟨a3, a4⟩ := merge_step (base := base) ha₂ hJ₁ hJs (D := fun _ => W')
    (fun x hx => by rw [List.mem_singleton.1 hx]; exact ⟨hr, hr₁, hWs'⟩) hmerged
  -- merging first
  obtain ⟨b1, b2⟩ := merge_step (base := base) hb₁ hJ hJs (D := fun _ => W)
    (fun x hx => by rw [List.mem_singleton.1 hx]; exact ⟨hq, hW, hWs⟩) (journalOf_orders (calls := [(h, js), (h₁, W)]) (calls' := [(.sorted, js), (.sorted, W)]) rfl hj)
  have hp₁ : contentOf base (b₁.after base files) p = some j := content_of_text hjr hb' (by rw [b2, if_pos rfl])
  obtain ⟨b3, b4⟩ := rules_step (base := base) (files' := b₁.after base files) hb₂
    (fun n hn => by rw [b2, if_neg fun hx => hn (by rw [hx]; exact List.mem_cons_self)]) hp₁ hj'
  refine ⟨j', hj', ⟨a1, a3, trivial⟩, ⟨b1, b3, trivial⟩, ?_, ?_⟩
  · show a₂.after base (a₁.after base files) (base.file p) = _
    rw [a4, if_pos rfl]
  · show b₂.after base (b₁.after base files) (base.file p) = _
    rw [b4, if_pos rfl]

/-! ### An example -/

/-- The journal `j` (number 106) has the shop on one day, and every other file has the statement with the shop on another day. -/
noncomputable def shopFiles (n : Nat) : Option Bytes :=
  some (encodeUtf8 (textOf daySystem (if n = 106 then Ex.shopJournal else Ex.shopStatement)))

/-- A run of `apply-rules` with the rules that know the shop. -/
def shopRules (q r : String) : Step :=
  { mergeStep ⟨[], none, .stdio⟩ .rev (fun _ => none) none with
    cmd := .applyRules (fun _ => some Ex.betterRules) (.path q.toList) (.path r.toList)
    outside := { (mergeStep ⟨[], none, .stdio⟩ .rev (fun _ => none) none).outside with lower := id, fuel := 2 } }

set_option maxRecDepth 100000 in
theorem shop_simple : (∀ t ∈ Ex.shopJournal, Simple t) ∧ (∀ t ∈ Ex.shopStatement, Simple t) ∧
    ∀ t ∈ [Ex.trn 1 "shop" [Ex.post "assets:a" (-5) ["fp-1"], Ex.post "expenses:food" 5 ["fp-2"]]], Simple t := by decide +kernel

set_option maxRecDepth 100000 in
/-- The hypotheses of `C93_commands` are met: rules for the statement `s`, written to `t`, and then merging `t`; or merging `s` and then
rules for the journal. -/
example : ∃ j', (∃ t ∈ j', ∃ p ∈ t.posts, p.raw.account = "expenses:food".toList ∧ dateOf t = ⟨2020, 1, 1⟩) ∧
    afterSession daySystem shopFiles [shopRules "s" "t", (dayStep .rev ["t".toList]).1] 106 = some (encodeUtf8 (textOf daySystem j')) ∧
    afterSession daySystem shopFiles [(dayStep .sorted ["s".toList]).1, shopRules "j" "j"] 106 = some (encodeUtf8 (textOf daySystem j')) := by
  have hrs : ∀ {ts : List TransactionPostings}, (∀ t ∈ ts, Simple t) → NoSources ts ∧ PlainComments ts := fun h =>
    ⟨fun t ht => (h t ht).readable1.1.2.2.1, fun t ht => ⟨(h t ht).readable1.1.2.2.2, fun p hp => ((h t ht).readable1.2 p hp).2⟩⟩
  obtain ⟨s1, s2, s3⟩ := shop_simple
  have hj : journalOf [(.sorted, Ex.shopJournal), (.sorted, Ex.shopStatement)] = some (Ex.shopStatement ++ Ex.shopJournal) := by
    unfold journalOf
    simp only [Ex.build_eval]
    decide +kernel
  have hr : Ex.betterRules.updateTransactions id 2 (Ex.shopStatement ++ Ex.shopJournal) =
      .ok (Ex.trn 1 "shop" [Ex.post "assets:a" (-5) ["fp-1"], Ex.post "expenses:food" 5 ["fp-2"]] :: Ex.shopJournal) := by decide +kernel
  obtain ⟨j', h1, _, _, h2, h3⟩ := C93_commands daySystem "j".toList "s".toList "t".toList shopFiles Ex.betterRules id 2 Ex.betterRules_leave
    Ex.shopJournal Ex.shopStatement [Ex.trn 1 "shop" [Ex.post "assets:a" (-5) ["fp-1"], Ex.post "expenses:food" 5 ["fp-2"]]] _ .sorted .sorted
    (by decide +kernel) (by decide +kernel) (content_of_text (fun t ht => (s1 t ht).readable1) (daySystem_back _) rfl) (hrs s1).1 (hrs s1).2
    (content_of_text (fun t ht => (s2 t ht).readable1) (daySystem_back _) rfl) (hrs s2).1 (hrs s2).2
    (by decide +kernel) (by decide +kernel) (hrs s3).1 (hrs s3).2 (by decide +kernel) hj (daySystem_back _) (daySystem_back _)
    (shopRules "s" "t") (dayStep .rev ["t".toList]).1 (dayStep .sorted ["s".toList]).1 (shopRules "j" "j")
    ⟨⟨_, rfl, fun _ _ => rfl⟩, rfl, rfl, fun _ => rfl, rfl⟩ ⟨rfl, fun _ => rfl, rfl⟩ ⟨rfl, fun _ => rfl, rfl⟩
    ⟨⟨_, rfl, fun _ _ => rfl⟩, rfl, rfl, fun _ => rfl, rfl⟩
  rw [hr] at h1
  cases h1
  exact ⟨_, by decide +kernel, h2, h3⟩

end Verif
