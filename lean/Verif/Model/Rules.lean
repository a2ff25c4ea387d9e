import Verif.Model.Commands

/-!
# Rules (/repo/src/rules)

Regexes in rules are written by the user: they are arbitrary functions here. So is `str::to_lowercase`, which is the
parameter `lower`.
-/

namespace Verif

/-- `str::contains(&str)` (call site /repo/src/rules/table/predicate.rs:69). -/
def Str.containsStr (want : Str) : Str → Bool
  | [] => want.isEmpty
  | c :: cs => want.isPrefixOf (c :: cs) || containsStr want cs

namespace Rules

/-- `StringMatch` (/repo/src/rules/table/predicate.rs:55-61). -/
inductive StringMatch where
  | asLower (m : StringMatch)
  | contains (want : Str)
  | eq (want : Str)
  /-- the `is_match` function of the regex -/
  | matches_ (isMatch : Str → Bool)

/-- `StringMatch::matches_string` (/repo/src/rules/table/predicate.rs:64-73). -/
def StringMatch.matchesString (lower : Str → Str) : StringMatch → Str → Bool
  | .asLower m, s => m.matchesString lower (lower s)
  | .contains want, s => Str.containsStr want s
  | .eq want, s => want == s
  | .matches_ isMatch, s => isMatch s

/-- `Predicate` (/repo/src/rules/table/predicate.rs:7-19). -/
inductive Predicate where
  | all (ps : List Predicate)
  | any (ps : List Predicate)
  | account (m : StringMatch)
  | postingFlagTag (m : StringMatch)
  | postingHasFlagTag (tag : Str)
  | postingHasValueTag (key : Str)
  | postingValueTag (key : Str) (m : StringMatch)
  | not (p : Predicate)
  | transactionDescription (m : StringMatch)
  | true_

/-- `PostingContext` (/repo/src/rules/table/ctx.rs:3-6). -/
structure Ctx where
  trn : TransactionInternal
  post : PostingInternal
  deriving DecidableEq

mutual
/-- `Predicate::is_match` (/repo/src/rules/table/predicate.rs:22-47). The order in which the tags are tried makes no
difference to `any`. -/
def Predicate.isMatch (lower : Str → Str) : Predicate → Ctx → Bool
  | .true_, _ => true
  | .all ps, ctx => Predicate.allMatch lower ps ctx
  | .any ps, ctx => Predicate.anyMatch lower ps ctx
  | .account m, ctx => m.matchesString lower ctx.post.raw.account
  | .not p, ctx => !p.isMatch lower ctx
  | .postingFlagTag m, ctx => ctx.post.comment.tags.toList.any (m.matchesString lower)
  | .postingHasFlagTag tag, ctx => ctx.post.comment.tags.contains tag
  | .postingHasValueTag key, ctx => ctx.post.comment.valueTags.contains key
  | .postingValueTag key m, ctx => ((ctx.post.comment.valueTags[key]?).map (m.matchesString lower)).getD false
  | .transactionDescription m, ctx => m.matchesString lower ctx.trn.raw.description
/-- `preds.iter().all(..)` (/repo/src/rules/table/predicate.rs:26). -/
def Predicate.allMatch (lower : Str → Str) : List Predicate → Ctx → Bool
  | [], _ => true
  | p :: ps, ctx => p.isMatch lower ctx && Predicate.allMatch lower ps ctx
/-- `preds.iter().any(..)` (/repo/src/rules/table/predicate.rs:27). -/
def Predicate.anyMatch (lower : Str → Str) : List Predicate → Ctx → Bool
  | [], _ => false
  | p :: ps, ctx => p.isMatch lower ctx || Predicate.anyMatch lower ps ctx
end

/-- `RuleResult` (/repo/src/rules/table/mod.rs:157-161). -/
inductive RuleResult where
  | continue_
  | return_
  deriving DecidableEq

/-- `Action` (/repo/src/rules/table/mod.rs:163-179). -/
inductive Action where
  | addPostingFlagTag (tag : Str)
  | addPostingValueTag (key value : Str)
  | addTransactionFlagTag (tag : Str)
  | addTransactionValueTag (key value : Str)
  | all (actions : List Action)
  | error (msg : Str)
  | noop
  | jumpChain (name : Str)
  | setAccount (account : Str)
  | removePostingFlagTag (tag : Str)
  | removePostingValueTag (key : Str)
  | removeTransactionFlagTag (tag : Str)
  | removeTransactionValueTag (key : Str)
  /-- `RegexReplace::replacement` as a function (/repo/src/rules/table/mod.rs:254-264) -/
  | replaceTransactionDescription (replacement : Str → Str)

/-- `Rule` (/repo/src/rules/table/mod.rs:135-140). -/
structure Rule where
  predicate : Predicate
  action : Action
  result : RuleResult

/-- `Chain` (/repo/src/rules/table/mod.rs:109-110). -/
abbrev Chain := List Rule

/-- `Table` (/repo/src/rules/table/mod.rs:54-57). -/
abbrev Table := Std.ExtTreeMap Str Chain compare

/-- `START_CHAIN` (/repo/src/rules/table/mod.rs:19). -/
def startChain : Str := "start".toList

/-- How applying rules fails. `diverged` is not an error of the code: the fuel of the model ran out; the code goes on
(/repo/src/rules/table/mod.rs:88,210). -/
inductive RuleErr where
  | chainNotFound (name : Str)
  | reported (msg : Str)
  | diverged
  deriving DecidableEq

/-- The result of applying rules: the changed context (/repo/src/rules/table/mod.rs:143; the context is `&mut` there). -/
abbrev Res := Except RuleErr Ctx

mutual
/-- `Action::apply` (/repo/src/rules/table/mod.rs:182-242); `jump` applies another chain. -/
def Action.apply (jump : Str → Ctx → Res) : Action → Ctx → Res
  | .addPostingFlagTag tag, ctx => .ok { ctx with post := { ctx.post with comment := { ctx.post.comment with
      tags := ctx.post.comment.tags.insert tag } } }
  | .addPostingValueTag key value, ctx => .ok { ctx with post := { ctx.post with comment := { ctx.post.comment with
      valueTags := ctx.post.comment.valueTags.insert key value } } }
  | .addTransactionFlagTag tag, ctx => .ok { ctx with trn := { ctx.trn with comment := { ctx.trn.comment with
      tags := ctx.trn.comment.tags.insert tag } } }
  | .addTransactionValueTag key value, ctx => .ok { ctx with trn := { ctx.trn with comment := { ctx.trn.comment with
      valueTags := ctx.trn.comment.valueTags.insert key value } } }
  | .all actions, ctx => Action.applyAll jump actions ctx
  | .error msg, _ => .error (.reported msg)
  | .noop, ctx => .ok ctx
  | .jumpChain name, ctx => jump name ctx
  | .setAccount account, ctx => .ok { ctx with post := { ctx.post with raw := { ctx.post.raw with account := account } } }
  | .removePostingFlagTag tag, ctx => .ok { ctx with post := { ctx.post with comment := { ctx.post.comment with
      tags := ctx.post.comment.tags.erase tag } } }
  | .removePostingValueTag key, ctx => .ok { ctx with post := { ctx.post with comment := { ctx.post.comment with
      valueTags := ctx.post.comment.valueTags.erase key } } }
  | .removeTransactionFlagTag tag, ctx => .ok { ctx with trn := { ctx.trn with comment := { ctx.trn.comment with
      tags := ctx.trn.comment.tags.erase tag } } }
  | .removeTransactionValueTag key, ctx => .ok { ctx with trn := { ctx.trn with comment := { ctx.trn.comment with
      valueTags := ctx.trn.comment.valueTags.erase key } } }
  | .replaceTransactionDescription replacement, ctx => .ok { ctx with trn := { ctx.trn with raw := { ctx.trn.raw with
      description := replacement ctx.trn.raw.description } } }
/-- The loop of `All` (/repo/src/rules/table/mod.rs:204-208). -/
def Action.applyAll (jump : Str → Ctx → Res) : List Action → Ctx → Res
  | [], ctx => .ok ctx
  | a :: as, ctx =>
    match a.apply jump ctx with
    | .error e => .error e
    | .ok ctx => Action.applyAll jump as ctx
end

/-- `Rule::apply` (/repo/src/rules/table/mod.rs:143-150). -/
def Rule.apply (lower : Str → Str) (jump : Str → Ctx → Res) (r : Rule) (ctx : Ctx) : Except RuleErr (RuleResult × Ctx) :=
  if r.predicate.isMatch lower ctx then
    match r.action.apply jump ctx with
    | .error e => .error e
    | .ok ctx => .ok (r.result, ctx)
  else .ok (.continue_, ctx)

/-- `Chain::apply` (/repo/src/rules/table/mod.rs:117-125). -/
def Chain.apply (lower : Str → Str) (jump : Str → Ctx → Res) : Chain → Ctx → Res
  | [], ctx => .ok ctx
  | r :: rs, ctx =>
    match r.apply lower jump ctx with
    | .error e => .error e
    | .ok (.continue_, ctx) => Chain.apply lower jump rs ctx
    | .ok (.return_, ctx) => .ok ctx

/-- `Table::get_chain` (/repo/src/rules/table/mod.rs:85-89). -/
def Table.getChain (T : Table) (name : Str) : Except RuleErr Chain :=
  match T[name]? with
  | some ch => .ok ch
  | none => .error (.chainNotFound name)

/-- `table.get_chain(name)?.apply(table, ctx)` (/repo/src/rules/table/mod.rs:219). The number bounds how deep jumps are
nested. -/
def Table.jump (lower : Str → Str) (T : Table) : Nat → Str → Ctx → Res
  | 0, _, _ => .error .diverged
  | n + 1, name, ctx =>
    match T.getChain name with
    | .error e => .error e
    | .ok ch => Chain.apply lower (Table.jump lower T n) ch ctx

/-- The loop over the postings (/repo/src/rules/table/mod.rs:75-81). -/
def Table.updatePosts (lower : Str → Str) (T : Table) (fuel : Nat) (start : Chain) :
    TransactionInternal → List PostingInternal → Except RuleErr (TransactionInternal × List PostingInternal)
  | trn, [] => .ok (trn, [])
  | trn, p :: ps =>
    match Chain.apply lower (T.jump lower fuel) start ⟨trn, p⟩ with
    | .error e => .error e
    | .ok ctx =>
      match Table.updatePosts lower T fuel start ctx.trn ps with
      | .error e => .error e
      | .ok (trn, ps) => .ok (trn, ctx.post :: ps)

/-- `Table::update_transaction` (/repo/src/rules/table/mod.rs:73-83). -/
def Table.updateTransaction (lower : Str → Str) (T : Table) (fuel : Nat) (t : TransactionPostings) :
    Except RuleErr TransactionPostings :=
  match T.getChain startChain with
  | .error e => .error e
  | .ok start =>
    match T.updatePosts lower fuel start t.trn t.posts with
    | .error e => .error e
    | .ok (trn, posts) => .ok ⟨trn, posts⟩

/-- `Table::update_transactions` (/repo/src/rules/table/mod.rs:64-71): collecting stops at the first error. -/
def Table.updateTransactions (lower : Str → Str) (T : Table) (fuel : Nat) :
    List TransactionPostings → Except RuleErr (List TransactionPostings)
  | [] => .ok []
  | t :: ts =>
    match T.updateTransaction lower fuel t with
    | .error e => .error e
    | .ok t =>
      match Table.updateTransactions lower T fuel ts with
      | .error e => .error e
      | .ok ts => .ok (t :: ts)

/-- `Action::validate` (/repo/src/rules/table/mod.rs:244-251). -/
def Action.validate (T : Table) : Action → Except RuleErr Unit
  | .jumpChain name => (T.getChain name).map fun _ => ()
  | _ => .ok ()

/-- `Chain::validate` and `Rule::validate` (/repo/src/rules/table/mod.rs:127-132, 152-154). -/
def Chain.validate (T : Table) : Chain → Except RuleErr Unit
  | [] => .ok ()
  | r :: rs =>
    match r.action.validate T with
    | .error e => .error e
    | .ok _ => Chain.validate T rs

/-- The loop over the chains (/repo/src/rules/table/mod.rs:93-95). -/
def Table.validateChains (T : Table) : List Chain → Except RuleErr Unit
  | [] => .ok ()
  | ch :: chs =>
    match ch.validate T with
    | .error e => .error e
    | .ok _ => Table.validateChains T chs

/-- `Table::validate` (/repo/src/rules/table/mod.rs:91-97). `order` is the order in which `values()` yields the chains; see
`HashOrder`. -/
def Table.validate (T : Table) (order : List (Str × Chain) → List (Str × Chain)) : Except RuleErr Unit :=
  match T.getChain startChain with
  | .error e => .error e
  | .ok _ => T.validateChains ((order T.toList).map (·.2))

/-! ### Loading (/repo/src/rules/table/source.rs) -/

/-- `Entry` (/repo/src/rules/table/source.rs:102-106). -/
inductive Entry where
  | include_ (path : Str)
  | chain (name : Str) (rules : List Rule)

/-- The file system as the loader sees it; it does not change meanwhile (/repo/src/rules/table/source.rs:17-26,50-76). -/
structure RuleFs where
  /-- `std::fs::canonicalize` (/repo/src/rules/table/source.rs:52) -/
  canon : Str → Option Str
  /-- opening and parsing the file with this canonical path; a path that can be opened is taken to have a canonical path (/repo/src/rules/table/source.rs:18-21) -/
  file : Str → Option (List Entry)
  /-- `Path::parent` (/repo/src/rules/table/source.rs:65) -/
  parent : Str → Option Str
  /-- `Path::join` (/repo/src/rules/table/source.rs:71) -/
  join : Str → Str → Str

/-- How loading fails. `diverged` is not an error of the code (/repo/src/rules/table/source.rs:18,54,66,85). -/
inductive LoadErr where
  | open_
  | canonicalize
  | noParent
  | duplicateChain (name : Str)
  | diverged
  deriving DecidableEq

/-- `File::from_path` (/repo/src/rules/table/source.rs:17-26). -/
def RuleFs.fromPath (fs : RuleFs) (path : Str) : Except LoadErr (List Entry) :=
  match (fs.canon path).bind fs.file with
  | some es => .ok es
  | none => .error .open_

/-- `chains` and `seen_paths` (/repo/src/rules/table/source.rs:38-39). -/
structure Loaded where
  chains : Table
  seen : TagSet

/-- The loop over the entries (/repo/src/rules/table/source.rs:60-96); `load` loads an included file. -/
def loadEntries (fs : RuleFs) (load : Str → List Entry → Loaded → Except LoadErr Loaded) (self : Str) :
    List Entry → Loaded → Except LoadErr Loaded
  | [], st => .ok st
  | .include_ path :: es, st =>
    match fs.parent self with
    | none => .error .noParent
    | some dir =>
      match fs.fromPath (fs.join dir path) with
      | .error e => .error e
      | .ok entries =>
        match load (fs.join dir path) entries st with
        | .error e => .error e
        | .ok st => loadEntries fs load self es st
  | .chain name rules :: es, st =>
    if name ∈ st.chains then .error (.duplicateChain name)
    else loadEntries fs load self es { st with chains := st.chains.insert name rules }

/-- `File::load_into` (/repo/src/rules/table/source.rs:44-99); the number bounds how deep files are nested. -/
def loadInto (fs : RuleFs) : Nat → Str → List Entry → Loaded → Except LoadErr Loaded
  | 0, _, _, _ => .error .diverged
  | n + 1, source, entries, st =>
    match fs.canon source with
    | none => .error .canonicalize
    | some self =>
      if self ∈ st.seen then .ok st
      else loadEntries fs (loadInto fs n) self entries { st with seen := st.seen.insert self }

/-- `File::from_path` and `File::load` (/repo/src/rules/table/source.rs:37-42, /repo/src/rules/table/mod.rs:22-23). -/
def load (fs : RuleFs) (fuel : Nat) (path : Str) : Except LoadErr Table :=
  match fs.fromPath path with
  | .error e => .error e
  | .ok entries =>
    match loadInto fs fuel path entries ⟨∅, ∅⟩ with
    | .error e => .error e
    | .ok st => .ok st.chains

/-! ### The command (/repo/src/rules/cmd.rs) -/

/-- `load_from_path` (/repo/src/rules/table/mod.rs:21-26). -/
def loadTable (fs : RuleFs) (fuel : Nat) (order : List (Str × Chain) → List (Str × Chain)) (path : Str) : Option Table :=
  match load fs fuel path with
  | .error _ => none
  | .ok T =>
    match T.validate order with
    | .error _ => none
    | .ok _ => some T

/-- `Command::run` of `apply-rules` (/repo/src/rules/cmd.rs:37-47). `table` is what `loadTable` gives. -/
def applyRules (sys : Sys) (h : HashOrder) (lower : Str → Str) (fuel : Nat) (table : Option Table) (input output : FileSpec) :
    Prog Unit := do
  let table ← Prog.ofOption .other table
  let ledger ← Files.readLedgerFile sys input
  let trns ← Prog.ofOption .unhandledItem (TransactionPostings.fromLedger ledger)
  match table.updateTransactions lower fuel trns with
  | .error _ => Prog.fail .other
  | .ok trns => Files.writeLedgerFile sys output (TransactionPostings.intoLedger h trns)

end Rules
end Verif
