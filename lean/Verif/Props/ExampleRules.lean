import Verif.Spec.ExampleRules
import Verif.Props.RulesAgain
import Verif.Props.ImportAll
import Verif.Proofs.Reread

/-!
# C106: the rules of the example and imported statements
-/

namespace Verif
open Spec Rules Spec.Rules Spec.RulesAgain RulesAgain Spec.ExampleRules

/-! ### The table -/

theorem example_listed {name : Str} {ch : Chain} (h : exampleTable[name]? = some ch) : (name, ch) ∈ exampleChains := by
  have hm : name ∈ exampleChains.map Prod.fst := by
    have : name ∈ exampleTable := Std.ExtTreeMap.mem_iff_isSome_getElem?.2 (by rw [h]; rfl)
    rwa [exampleTable, Std.ExtTreeMap.mem_ofList, List.contains_iff_mem] at this
  obtain ⟨⟨name', ch'⟩, he, rfl⟩ := List.mem_map.1 hm
  have := example_chain he
  rw [Table.getChain, h] at this
  cases this
  exact he

theorem example_all {P : Action → Prop} (h : ∀ e ∈ exampleChains, ∀ r ∈ e.2, P r.action) :
    ∀ (name : Str) (ch : Chain), exampleTable[name]? = some ch → ∀ r ∈ ch, P r.action :=
  fun _ _ hn r hr => h _ (example_listed hn) r hr

/-- An action of the example that is not a list of actions. -/
def ExampleStep (a : Action) : Prop :=
  (∃ name, a = .jumpChain name) ∨ (∃ account, a = .setAccount account) ∨ (∃ key, a = .removePostingValueTag key) ∨
    a = .addPostingFlagTag "unknown-account".toList ∨ a = .removePostingFlagTag "unknown-account".toList

theorem example_steps : ∀ e ∈ exampleChains, ∀ r ∈ e.2, ExampleStep r.action ∨ ∃ as, r.action = .all as ∧ ∀ a ∈ as, ExampleStep a := by
  have hj : ∀ name, ExampleStep (.jumpChain name) := fun name => .inl ⟨name, rfl⟩
  have hs : ∀ account, ExampleStep (.setAccount account) := fun account => .inr (.inl ⟨account, rfl⟩)
  have hr : ∀ key, ExampleStep (.removePostingValueTag key) := fun key => .inr (.inr (.inl ⟨key, rfl⟩))
  have ha : ExampleStep (.addPostingFlagTag "unknown-account".toList) := .inr (.inr (.inr (.inl rfl)))
  have hd : ExampleStep (.removePostingFlagTag "unknown-account".toList) := .inr (.inr (.inr (.inr rfl)))
  unfold exampleChains
  simp only [List.forall_mem_cons, List.not_mem_nil, false_implies, implies_true, and_true]
  refine ⟨.inr ⟨_, rfl, ?_⟩, .inr ⟨_, rfl, ?_⟩, .inl ha, ⟨.inl hd, .inl (hj _), .inl (hj _), .inl (hj _), .inl (hj _)⟩,
    ⟨.inr ⟨_, rfl, ?_⟩, .inl (hj _)⟩, ⟨.inl (hs _), .inl (hj _)⟩, ⟨.inl (hs _), .inl (hs _), .inl (hj _)⟩,
    ⟨.inl (hs _), .inl (hs _), .inl (hj _)⟩⟩
  · simp only [List.forall_mem_cons, List.not_mem_nil, false_implies, implies_true, and_true]
    exact ⟨hj _, hj _⟩
  · simp only [List.forall_mem_cons, List.not_mem_nil, false_implies, implies_true, and_true]
    exact ⟨hr _, hr _, hr _⟩
  · simp only [List.forall_mem_cons, List.not_mem_nil, false_implies, implies_true, and_true]
    exact ⟨hr _, hj _⟩

theorem example_tag : ¬ IsFp "unknown-account".toList ∧ ¬ IsCand "unknown-account".toList ∧ Word "unknown-account".toList ∧
    '\n' ∉ "unknown-account".toList := by
  decide +kernel

theorem ExampleStep.touches {a : Action} (h : ExampleStep a) {tag : Str} (ht : Touches a tag) : tag = "unknown-account".toList := by
  rcases h with ⟨_, rfl⟩ | ⟨_, rfl⟩ | ⟨_, rfl⟩ | rfl | rfl <;> cases ht <;> rfl

theorem ExampleStep.adds {a : Action} (h : ExampleStep a) {tag : Str} (ht : AddsTag a tag) : tag = "unknown-account".toList := by
  rcases h with ⟨_, rfl⟩ | ⟨_, rfl⟩ | ⟨_, rfl⟩ | rfl | rfl <;> cases ht <;> rfl

theorem ExampleStep.noValue {a : Action} (h : ExampleStep a) {key value : Str} : ¬ AddsValue a key value := by
  rcases h with ⟨_, rfl⟩ | ⟨_, rfl⟩ | ⟨_, rfl⟩ | rfl | rfl <;> intro ht <;> cases ht

/-- The rules of the example can be loaded, whatever the order in which the chains are looked at, and they meet what is asked of rules in
the theorems about the way from a statement to the journal (C72, C79, C93). -/
theorem C106_table : (∀ order : List (Str × Chain) → List (Str × Chain), (∀ l, (order l).Perm l) → exampleTable.validate order = .ok ()) ∧
    LeavesFingerprints exampleTable ∧ PlainTable exampleTable ∧ NotesNoSource exampleTable := by
  have hsteps : ∀ {Q : Action → Prop}, (∀ a, ExampleStep a → Q a) → (∀ as, (∀ a ∈ as, ExampleStep a) → Q (.all as)) →
      ∀ (name : Str) (ch : Chain), exampleTable[name]? = some ch → ∀ r ∈ ch, Q r.action := by
    intro Q h1 h2
    refine example_all fun e he r hr => ?_
    rcases example_steps e he r hr with h | ⟨as, h, hs⟩
    · exact h1 _ h
    · rw [h]
      exact h2 as hs
  have hvalue : ∀ (name : Str) (ch : Chain), exampleTable[name]? = some ch → ∀ r ∈ ch, ∀ key value, ¬ AddsValue r.action key value :=
    hsteps (Q := fun a => ∀ key value, ¬ AddsValue a key value) (fun a h key value => h.noValue) fun as hs key value ht => by
      cases ht with
      | inside hm ht => exact (hs _ hm).noValue ht
  refine ⟨fun order ho => (validate_ok ho).2 ⟨?_, ?_⟩, ?_, ?_, fun name ch hn r hr value => hvalue name ch hn r hr _ value⟩
  · exact Std.ExtTreeMap.mem_ofList.2 (by decide +kernel)
  · have hall : ∀ dest ∈ ["expenses".toList, "income".toList, "bank_account".toList, "mark-unknown".toList], dest ∈ exampleTable :=
      fun dest hd => Std.ExtTreeMap.mem_ofList.2 (by
        simp only [List.mem_cons, List.not_mem_nil, or_false] at hd
        rcases hd with rfl | rfl | rfl | rfl <;> decide +kernel)
    simp only [List.forall_mem_cons, List.not_mem_nil, false_implies, implies_true, and_true] at hall
    obtain ⟨h1, h2, h3, h4⟩ := hall
    refine example_all (P := fun a => ∀ dest, a = .jumpChain dest → dest ∈ exampleTable) ?_
    unfold exampleChains
    simp only [List.forall_mem_cons, List.not_mem_nil, false_implies, implies_true, and_true, reduceCtorEq, Action.jumpChain.injEq,
      forall_eq', true_and]
    exact ⟨⟨h1, h2, h3, h4⟩, h4, h4, h4, h4⟩
  · refine hsteps (Q := fun a => ∀ tag, Touches a tag → ¬ IsFp tag ∧ ¬ IsCand tag) (fun a h tag ht => ?_) fun as hs tag ht => ?_
    · rw [h.touches ht]
      exact ⟨example_tag.1, example_tag.2.1⟩
    · cases ht with
      | inside hm ht =>
        rw [(hs _ hm).touches ht]
        exact ⟨example_tag.1, example_tag.2.1⟩
  · intro name ch hn r hr
    refine ⟨?_, fun key value ht => absurd ht (hvalue name ch hn r hr key value)⟩
    refine hsteps (Q := fun a => ∀ tag, AddsTag a tag → Word tag ∧ '\n' ∉ tag) (fun a h tag ht => ?_) (fun as hs tag ht => ?_) name ch hn r hr
    · rw [h.adds ht]
      exact example_tag.2.2
    · cases ht with
      | inside hm ht =>
        rw [(hs _ hm).adds ht]
        exact example_tag.2.2

/-! ### Values of imported postings, when they are read again -/

/-- The values of a posting without text in its comment, when it is read again: without blanks around them, and those that are blank are not
read as values. -/
theorem Spec.Says.read_value {h : HashOrder} {p : Posting} {account : Str} {amount : Amount} {balance : Option Amount} {status : Option Status}
    {tags : List Str} {values : List (Str × Str)} (hs : Says h p account amount balance status tags values)
    (hw : ∀ t ∈ tags, Word t ∧ '\n' ∉ t) (hv : ∀ e ∈ values, Word e.1 ∧ Trimmed e.1 ∧ '\n' ∉ e.1 ∧ '\n' ∉ e.2) (k : Str) :
    (Comment.fromOptComment p.comment).valueTags[k]? = ((values.lookup k).map Str.trim).filter fun v => v ≠ [] := by
  obtain ⟨c, hc, e⟩ := hs.comment
  have hkeys : ∀ (k v : Str), c.valueTags[k]? = some v → Word k ∧ Trimmed k ∧ '\n' ∉ k ∧ '\n' ∉ v := by
    intro k v hkv
    rw [hc.values] at hkv
    exact hv _ (lookup_mem hkv)
  have hp : Parsed c := ⟨fun t ht => hw t ((hc.tags t).1 ht), fun k v hkv => ⟨(hkeys k v hkv).1, (hkeys k v hkv).2.2⟩, by rw [hc.lines]; simp⟩
  have hr : Readable c := ⟨hp, fun k v hkv => by
    rw [trim_trimmed (hkeys k v hkv).2.1]
    exact (hkeys k v hkv).1.1⟩
  have ha : alone c = [] := by
    unfold alone
    rw [hc.lines]
    split <;> rfl
  have hf : filled c = ((c.valueTags.map fun _ v => Str.trim v).toList).filter fun e => e.2 ≠ [] := by
    rw [Std.ExtTreeMap.toList_map, List.filter_map]
    unfold filled
    refine List.map_congr_left fun e he => ?_
    have he := Std.ExtTreeMap.mem_toList_iff_getElem?_eq_some.1 (List.mem_filter.1 he).1
    rw [trim_trimmed (hkeys _ _ he).2.1]
  rw [e, hr.back h]
  show (insAll (insAll ∅ _) (filled c))[k]? = _
  rw [hf, insAll_filtered, ha, Std.ExtTreeMap.getElem?_map, hc.values]
  show Option.or _ (∅ : StrMap)[k]? = _
  rw [Std.ExtTreeMap.getElem?_empty, Option.or_none]

/-! ### Statements of Nationwide -/

theorem example_assigned (d : Str) (p : PostingInternal) : Assigned (exampleResult d p) p.raw.account (found d p) := by
  refine ⟨rfl, ?_, example_values d p _ (.inl rfl), example_values d p _ (.inr (.inl rfl)), example_values d p _ (.inr (.inr rfl))⟩
  rw [exampleResult_eq]
  dsimp only
  by_cases h : found d p = none
  · rw [if_pos h, tags_insert]
    exact iff_of_true (.inl rfl) h
  · rw [if_neg h, tags_erase]
    exact iff_of_false (fun h' => h'.1 rfl) h

/-- The own posting of an imported transaction. -/
theorem assigned_own {h : HashOrder} {p : Posting} {amount : Amount} {balance : Option Amount} {status : Option Status}
    {tags : List Str} {values : List (Str × Str)} {account : Str} (d : Str) (hs : Says h p ownAccount amount balance status tags values)
    (hw : ∀ t ∈ tags, Word t ∧ '\n' ∉ t) (hv : ∀ e ∈ values, Word e.1 ∧ Trimmed e.1 ∧ '\n' ∉ e.1 ∧ '\n' ∉ e.2)
    (hb : values.lookup "bank".toList = some "Nationwide".toList) (ha : values.lookup "account".toList = some account) :
    Assigned (exampleResult d (PostingInternal.ofPosting p)) ownAccount (ownFound account.trim) := by
  have hacc : (PostingInternal.ofPosting p).raw.account = ownAccount := hs.account
  have hn : Str.trim "Nationwide".toList = "Nationwide".toList ∧ "Nationwide".toList ≠ [] ∧ "Current".toList ≠ [] ∧ "Savings".toList ≠ [] ∧
      ownAccount ≠ "expenses:unknown".toList ∧ ownAccount ≠ "income:unknown".toList := by decide +kernel
  have hvb : (PostingInternal.ofPosting p).comment.valueTags["bank".toList]? = some "Nationwide".toList := by
    refine (hs.read_value hw hv _).trans ?_
    rw [hb, Option.map_some, hn.1]
    exact Option.filter_some_pos (decide_eq_true hn.2.1)
  have hva : (PostingInternal.ofPosting p).comment.valueTags["account".toList]? = (some account.trim).filter fun v => v ≠ [] := by
    refine (hs.read_value hw hv _).trans ?_
    rw [ha, Option.map_some]
  have hf : found d (PostingInternal.ofPosting p) = ownFound account.trim := by
    rw [found_bank (by rw [hacc]; exact hn.2.2.2.2.1) (by rw [hacc]; exact hn.2.2.2.2.2), if_pos hvb, bankOf, ownFound, hva]
    by_cases he : account.trim = []
    · rw [he, Option.filter_some_neg (by simp), if_neg (by simp), if_neg (by simp), if_neg hn.2.2.1.symm, if_neg hn.2.2.2.1.symm]
    · rw [Option.filter_some_pos (by simpa using he)]
      simp only [Option.some.injEq]
  have := example_assigned d (PostingInternal.ofPosting p)
  rwa [hacc, hf] at this

/-- The other posting of an imported transaction. -/
theorem assigned_other {h : HashOrder} {p : Posting} {amt amount : Amount} {balance : Option Amount} {status : Option Status}
    {tags : List Str} {values : List (Str × Str)} (d : Str) (hs : Says h p (NationwideCsv.peerAccount amt) amount balance status tags values)
    (hw : ∀ t ∈ tags, Word t ∧ '\n' ∉ t) (hv : ∀ e ∈ values, Word e.1 ∧ Trimmed e.1 ∧ '\n' ∉ e.1 ∧ '\n' ∉ e.2) :
    Assigned (exampleResult d (PostingInternal.ofPosting p)) (NationwideCsv.peerAccount amt)
      (otherFound amt.quantity.neg d ((values.lookup "trn_type".toList).map Str.trim)) := by
  have hacc : (PostingInternal.ofPosting p).raw.account = NationwideCsv.peerAccount amt := hs.account
  have hn : "Interest".toList ≠ [] ∧ incomeAccount ≠ "expenses:unknown".toList := by decide +kernel
  have hvt : (PostingInternal.ofPosting p).comment.valueTags["trn_type".toList]? = some "Interest".toList ↔
      (values.lookup "trn_type".toList).map Str.trim = some "Interest".toList := by
    rw [show (PostingInternal.ofPosting p).comment.valueTags["trn_type".toList]? = _ from hs.read_value hw hv _, Option.filter_eq_some_iff]
    exact and_iff_left (decide_eq_true hn.1)
  have hf : found d (PostingInternal.ofPosting p) = otherFound amt.quantity.neg d ((values.lookup "trn_type".toList).map Str.trim) := by
    cases hneg : amt.quantity.neg with
    | true =>
      have : (PostingInternal.ofPosting p).raw.account = "expenses:unknown".toList := by
        rw [hacc, NationwideCsv.peerAccount, if_pos hneg]; rfl
      rw [found, if_pos this, otherFound, if_pos rfl]
    | false =>
      have : (PostingInternal.ofPosting p).raw.account = incomeAccount := by
        rw [hacc, NationwideCsv.peerAccount, if_neg (by rw [hneg]; decide)]
      rw [found_income (by rw [this]; exact hn.2) this, otherFound, if_neg (show ¬ false = true by decide)]
      simp only [hvt]
  have := example_assigned d (PostingInternal.ofPosting p)
  rwa [hacc, hf] at this

/-- What is known after the rules of the example about the transaction of a row: it has the date and the description of the row, and of its two
postings the first has the account `own`, and the second the account `other`. -/
structure RowAssigned (t : TransactionPostings) (date : Date) (description : Str) (own : Option Str) (amt : Amount) (other : Option Str) : Prop where
  date : t.trn.raw.date = date
  description : t.trn.raw.description = description
  posts : ∃ p q, t.posts = [p, q] ∧ Assigned p ownAccount own ∧ Assigned q (NationwideCsv.peerAccount amt) other

namespace NationwideCsv
open Nationwide

theorem example_row {t : Transaction} {date : Date} {e : Option Date} {description : Str} {p q : Posting} {own other : Option Str} {amt : Amount}
    (hts : TransactionSays t date e description [p, q])
    (hp : Assigned (exampleResult description (PostingInternal.ofPosting p)) ownAccount own)
    (hq : Assigned (exampleResult description (PostingInternal.ofPosting q)) (peerAccount amt) other) :
    RowAssigned ⟨(TransactionPostings.ofTransaction t).trn, (TransactionPostings.ofTransaction t).posts.map
      (exampleResult (TransactionPostings.ofTransaction t).trn.raw.description)⟩ date description own amt other := by
  have hd : (TransactionPostings.ofTransaction t).trn.raw.description = description := hts.description
  refine ⟨hts.date, hd, _, _, ?_, hp, hq⟩
  dsimp only
  rw [hd]
  show (t.postings.map PostingInternal.ofPosting).map _ = _
  rw [hts.postings]
  rfl

/-- C106, six columns: the rules of the example are applied to the statement without an error, and give a transaction for each row, in the
order of the rows. Its first posting has the account for the name of the account of the statement; its second one the account for
what the row says. -/
theorem C106_six {L : ImportLib} {fpNs : FpNamespace} {legacy : Bool} {records : List (Option Row)} {imp : Import} {account : Str}
    {rows : List (Option Row)} (h : getTransactions L fpNs legacy records = .ok imp) (hs : FileShape L records account sixColumns rows)
    (hpl : PlainFields records) (lower : Str → Str) (n : Nat) : ∃ (rs : List RecordSix) (us : List TransactionPostings),
    exampleTable.updateTransactions lower (n + 4) imp.postings = .ok us ∧ us.length = rows.length ∧ rs.length = rows.length ∧
    ∀ i (hi : i < rs.length), (∃ row, rows[i]? = some (some row) ∧ SixRow L row rs[i]) ∧ ∃ u amt, us[i]? = some u ∧
      OwnAmount rs[i].paidIn rs[i].paidOut amt ∧ RowAssigned u rs[i].date rs[i].description (ownFound account.trim) amt
        (otherFound amt.quantity.neg rs[i].description (some rs[i].type_.trim)) := by
  obtain ⟨_, hl, rs, hl', hr⟩ := C45_six h hs
  obtain ⟨hacc, hrows⟩ := shape_plain hs hpl
  refine ⟨rs, _, C105_example_once lower n _, by rw [List.length_map, Import.postings, List.length_map, hl], hl', fun i hi => ?_⟩
  obtain ⟨⟨row, e1, hrow⟩, t, e2, amt, p, q, ho, hts, hp, hq⟩ := hr i hi
  have hgood : GoodNamespace imp.userFpNamespace := by
    refine (good_of_row h hs).resolve_left ?_
    rintro rfl
    rw [hl'] at hi
    cases hi
  have hnl : '\n' ∉ rs[i].type_ := by
    obtain ⟨d, o, i', b, _, e, _⟩ := hrow
    exact (hrows _ (List.mem_of_getElem? e1) _ (by rw [e]; simp)).2
  have hv := six_values_plain hacc hnl
  have hw := six_words L rs[i] hgood (sinceChange (rs.map RecordSix.date) i) legacy (selfAndPeerAccountAmount amt ownAccount)
  refine ⟨⟨row, e1, hrow⟩, _, amt, by rw [List.getElem?_map, Import.postings, List.getElem?_map, e2]; rfl, ho, ?_⟩
  have hlook : (("seq".toList, numbered imp.userFpNamespace (sinceChange (rs.map RecordSix.date) i + 1)) ::
      sixValues account rs[i]).lookup "bank".toList = some "Nationwide".toList ∧
      (("seq".toList, numbered imp.userFpNamespace (sinceChange (rs.map RecordSix.date) i + 1)) ::
      sixValues account rs[i]).lookup "account".toList = some account ∧
      (sixValues account rs[i]).lookup "trn_type".toList = some rs[i].type_ := by
    refine ⟨?_, ?_, ?_⟩ <;> rfl
  have := assigned_other (amt := amt) rs[i].description hq hw.2 hv
  rw [hlook.2.2] at this
  exact example_row hts (assigned_own _ hp hw.1 (seq_plain hgood _ hv) hlook.1 hlook.2.1) this

/-- C106, five columns: the same, but the type of a transaction is not known. -/
theorem C106_five {L : ImportLib} {fpNs : FpNamespace} {legacy : Bool} {records : List (Option Row)} {imp : Import} {account : Str}
    {rows : List (Option Row)} (h : getTransactions L fpNs legacy records = .ok imp) (hs : FileShape L records account fiveColumns rows)
    (hpl : PlainFields records) (lower : Str → Str) (n : Nat) : ∃ (rs : List RecordFive) (us : List TransactionPostings),
    exampleTable.updateTransactions lower (n + 4) imp.postings = .ok us ∧ us.length = rows.length ∧ rs.length = rows.length ∧
    ∀ i (hi : i < rs.length), (∃ row, rows[i]? = some (some row) ∧ FiveRow L row rs[i]) ∧ ∃ u amt description, us[i]? = some u ∧
      OwnAmount rs[i].paidIn rs[i].paidOut amt ∧
      (description = if rs[i].location = [] then rs[i].transactions else rs[i].transactions ++ " @ ".toList ++ rs[i].location) ∧
      RowAssigned u rs[i].date description (ownFound account.trim) amt (otherFound amt.quantity.neg description none) := by
  obtain ⟨_, hl, rs, hl', hr⟩ := C45_five h hs
  obtain ⟨hacc, hrows⟩ := shape_plain hs hpl
  refine ⟨rs, _, C105_example_once lower n _, by rw [List.length_map, Import.postings, List.length_map, hl], hl', fun i hi => ?_⟩
  obtain ⟨⟨row, e1, hrow⟩, t, e2, amt, p, q, ho, hts, hp, hq⟩ := hr i hi
  have hgood : GoodNamespace imp.userFpNamespace := by
    refine (good_of_row h hs).resolve_left ?_
    rintro rfl
    rw [hl'] at hi
    cases hi
  have hnl : '\n' ∉ rs[i].transactions ∧ '\n' ∉ rs[i].location := by
    obtain ⟨d, o, i', _, e, _⟩ := hrow
    have := hrows _ (List.mem_of_getElem? e1)
    rw [e] at this
    exact ⟨(this _ (by simp)).2, (this _ (by simp)).2⟩
  have hv := five_values_plain hacc hnl.1 hnl.2
  have hw := five_words L rs[i] hgood (sinceChange (rs.map RecordFive.date) i)
  refine ⟨⟨row, e1, hrow⟩, _, amt, _, by rw [List.getElem?_map, Import.postings, List.getElem?_map, e2]; rfl, ho, rfl, ?_⟩
  have hlook : (fiveValues account rs[i]).lookup "bank".toList = some "Nationwide".toList ∧
      (fiveValues account rs[i]).lookup "account".toList = some account ∧
      (fiveValues account rs[i]).lookup "trn_type".toList = none := by
    unfold fiveValues
    split <;> exact ⟨rfl, rfl, rfl⟩
  have hseq : ∀ k, k ≠ "seq".toList → (("seq".toList, numbered imp.userFpNamespace (sinceChange (rs.map RecordFive.date) i + 1)) ::
      fiveValues account rs[i]).lookup k = (fiveValues account rs[i]).lookup k := fun k hk => by
    rw [List.lookup_cons, beq_false_of_ne hk]
  have := assigned_other (amt := amt) (if rs[i].location = [] then rs[i].transactions else rs[i].transactions ++ " @ ".toList ++ rs[i].location)
    hq hw.2 hv
  rw [hlook.2.2] at this
  exact example_row hts (assigned_own _ hp hw.1 (seq_plain hgood _ hv) ((hseq _ (by decide +kernel)).trans hlook.1)
    ((hseq _ (by decide +kernel)).trans hlook.2.1)) this

set_option maxRecDepth 100000 in
/-- The file of the test with six columns (/repo/testdata/importers/nationwide_csv_6.csv) meets the hypotheses. -/
theorem Ex.six_meets : ∃ imp, getTransactions Ex.plainLib .generated true Ex.file6 = .ok imp ∧ PlainFields Ex.file6 ∧
    FileShape Ex.plainLib Ex.file6 "Current".toList sixColumns (Ex.file6.drop 4) := by
  cases h : getTransactions Ex.plainLib .generated true Ex.file6 with
  | error e =>
    have : (getTransactions Ex.plainLib .generated true Ex.file6).isOk = true := by decide +kernel
    rw [h] at this
    cases this
  | ok imp => exact ⟨imp, rfl, by unfold PlainFields; decide +kernel, [], "£150.00".toList, [], "£150.00".toList, [], rfl,
      by decide +kernel, by decide +kernel⟩

set_option maxRecDepth 100000 in
/-- What the rules of the example make of that file: the accounts, and whether a posting is marked. -/
example : (match getTransactions Ex.plainLib .generated true Ex.file6 with
    | .ok imp => match exampleTable.updateTransactions id 4 imp.postings with
      | .ok us => us.map fun u => u.posts.map fun p => (p.raw.account, decide ("unknown-account".toList ∈ p.comment.tags))
      | .error _ => []
    | .error _ => []) =
    [[("assets:nationwide:current".toList, false), ("expenses:petty".toList, false)],
     [("assets:nationwide:current".toList, false), ("income:salary".toList, false)],
     [("assets:nationwide:current".toList, false), ("expenses:unknown".toList, true)]] := by decide +kernel

set_option maxRecDepth 100000 in
/-- The same for the file with five columns: nothing in it is known. -/
example : (∃ imp, getTransactions Ex.plainLib .generated false Ex.file5 = .ok imp ∧ imp.transactions.length = 3) ∧ PlainFields Ex.file5 ∧
    FileShape Ex.plainLib Ex.file5 "My Account ****4321".toList fiveColumns (Ex.file5.drop 4) ∧
    ownFound (Str.trim "My Account ****4321".toList) = none := by
  refine ⟨?_, by unfold PlainFields; decide +kernel, ⟨[], "£-123.45".toList, [], "£500.00".toList, [], rfl, by decide +kernel, by decide +kernel⟩,
    by decide +kernel⟩
  have h5 : (getTransactions Ex.plainLib .generated false Ex.file5).map (fun i => i.transactions.length) = .ok 3 := by decide +kernel
  cases h : getTransactions Ex.plainLib .generated false Ex.file5 with
  | error e => rw [h] at h5; cases h5
  | ok imp =>
    rw [h] at h5
    exact ⟨imp, rfl, Except.ok.inj h5⟩

end NationwideCsv

/-- **C106.** From a Nationwide CSV file to the journal with the rules of the example: if no operation on files fails and what is printed can be
read again, then the statement is imported and the rules are applied; and the merge succeeds exactly if no two postings of the
statement share a fingerprint. -/
theorem C106_journal {sys : Sys} {L : ImportLib} {imp : Import} {fpNs : Nationwide.FpNamespace} {legacy : Bool} {input : FileSpec} {b : Bytes}
    (lower : Str → Str) (raw ruled merged : Str) (hf : ∀ n, sys.fault n = none) (hback : ∀ l, sys.parse (sys.render l) = some l)
    (hb : bytesAt sys false input = some b)
    (hi : (ImportCmd.Texts.nationwideCsv fpNs legacy (Windows1252.decode b)).doImport L = .ok imp)
    (hpl : NationwideCsv.PlainFields ((Csv.trimmedRecords ',' (Windows1252.decode b)).map some)) :
    ∃ next, ∃ P : PreparedFrom sys L (.nationwideCsv fpNs legacy input) lower exampleTable raw ruled imp next, P.Faithful ∧
      (∀ (orders : Nat → HashOrder) (out : FileSpec), (MergeCmd.run next orders ⟨[.path ruled], none, out⟩ World.start).1 = .ok () ↔
        NationwideCsv.DistinctFingerprints imp.transactions) ∧
      ∀ files, Merges next [] ruled [] merged files → ∃ js h,
        files (sys.file merged) = some (encodeUtf8 (sys.render (TransactionPostings.intoLedger h js))) ∧
        js.Pairwise (fun t u => (compare t.trn.raw.date u.trn.raw.date).isLE = true) ∧
        ∀ d : Date, List.Forall₂ IsImported (imp.transactions.filter fun t => t.date = d) (js.filter fun J => J.trn.raw.date = d) := by
  obtain ⟨next, P, hF, hn⟩ := prepared_exists hf hback (ReadsFrom.nationwideCsv hb rfl) hi (C105_example_once lower 0 _) raw ruled
  obtain ⟨_, h1, h2⟩ := C79_nationwide_journal (merged := merged) P hF hb hpl C106_table.2.1 C106_table.2.2.1 C106_table.2.2.2
  exact ⟨next, P, hF, h1 hn, h2⟩

set_option maxRecDepth 100000 in
/-- A system as in `C106_journal`, with the statement of three transactions in the file `a`. -/
example : let sys := Ex.statementSystem Ex.bytes5 []
    (∀ n, sys.fault n = none) ∧ (∀ l, sys.parse (sys.render l) = some l) ∧ bytesAt sys false (.path "a".toList) = some Ex.bytes5 ∧
    (∃ imp, (ImportCmd.Texts.nationwideCsv .generated false (Windows1252.decode Ex.bytes5)).doImport Ex.plainLib = .ok imp ∧
      imp.transactions.length = 3) ∧
    NationwideCsv.PlainFields ((Csv.trimmedRecords ',' (Windows1252.decode Ex.bytes5)).map some) := by
  refine ⟨fun _ => rfl, fun l => Ex.exactSystem_comesBack ⟨[]⟩ ⟨[]⟩ l, Ex.statement_bytes _ _, ⟨Ex.pipeImport, ?_, ?_⟩, ?_⟩
  · rw [Ex.csv_text]
    show NationwideCsv.getTransactions Ex.plainLib .generated false ((Csv.trimmedRecords ',' Ex.text5).map some) = _
    rw [Ex.csv_records]
    exact Ex.pipe_import
  · decide +kernel
  · rw [Ex.csv_text, Ex.csv_records]
    unfold NationwideCsv.PlainFields
    decide +kernel

end Verif
