# accountmerge: formal model and proofs (Lean 4)

## 1. What is here

* `properties.jsonl` – the semantic properties (C01 …).
* `lean/Verif/Base/*` – strings, Rust whitespace, a regex engine (AST + leftmost-first
  backtracking matcher), decimals, hash iteration order.
* `lean/Verif/Model/*` – the code, function by function; every definition cites `/repo` lines.
* `lean/Verif/Spec/*` – small specifications written without the model's helpers.
* `lean/Verif/Proofs/*` – lemmas.
* `lean/Verif/Props/*` – the property theorems, each with a concrete non-trivial instance.
* `lean/Verif/Tests/*` – the repository's own unit tests / golden files replayed on the model.
  These are *tests of model fidelity*, not proofs, and no claim rests on them.
* `MANIFEST.json` – property → theorem names; `seeded/LOG.jsonl` – mutation-testing log.

## 2. Trusted base

* Lean 4.33.0 kernel. Axioms: every theorem named in MANIFEST.json depends on a subset of `propext`,
  `Classical.choice`, `Quot.sound` (checked with `Lean.collectAxioms` for each of them). Fewer:
  `PaypalCsv.C50_runs` [propext, Quot.sound]; `NationwidePdf.C51_numbers` [propext, Quot.sound];
  `C53_symmetric` []; `C53_empty_box` [propext, Quot.sound]; `C57_replace` [propext, Quot.sound];
  `MatchSet.C61_iteration` [propext, Quot.sound]; `MatchSet.C61_unique` []; `MutCell.C64_value` [propext];
  `MutCell.C64_poisoned` [propext]; `MutCell.C64_cases` [propext]; `MutCell.C64_eq` [propext].
  No added axioms, `sorry`, `native_decide` or `bv_decide`. Concrete instances next to the theorems are checked
  by the kernel (`decide +kernel`, `rfl`); no claim rests on them except the counterexamples.
* The reading of the Rust code: the model is hand written from the text of `/repo`. Every definition cites file
  and lines. `Verif/Tests` replays the repository's own unit tests and golden values on the model.
* Assumed library behaviour (not in `/repo`):
  * `HashMap`/`HashSet` are finite maps/sets whose iteration order is arbitrary. Every iteration in the
    code is routed through an oracle `HashOrder` returning *some* permutation; theorems are for all oracles.
  * `typed_generational_arena`: insert returns a fresh index, get/remove by index. Before `build`
    nothing is removed, so an index is modelled by its insertion number.
  * `rust_decimal` equality is numeric; `neg` flips the sign flag; `serialize` is the documented 16-byte layout.
  * `ledger_parser` 5.1 types with derived equality. Its parser and printer are parameters (`Sys`); theorems that
    need "print then parse gives back the ledger" take it as an explicit hypothesis.
  * `regex` crate: leftmost-first semantics, modelled by `Verif/Base/Rx.lean` on the actual patterns of the
    code. User-supplied regexes (rules) are arbitrary functions; `to_lowercase` is a parameter.
  * SHA-1 is an arbitrary function to 20 bytes; collision freedom is only assumed, where needed, on the finite
    set of messages at hand (`NoCollision`). base64 and hex are modelled concretely.
  * `csv` 1.4: the states of its reader, `Trim::All`, headers and field counts are modelled on characters
    (`Verif/Base/Csv.lean`), with the default settings that the code leaves (quoting on, `\r`/`\n`/`\r\n`, no comments).
    Theorems before C74 start from the records of a file, each of them readable or not (`Option Row`).
  * `encoding_rs_io`: with an explicit encoding the reader decodes Windows-1252 byte by byte and does not look for byte order
    marks (`Verif/Base/Windows1252.lean`); other files are UTF-8 or an error. That PayPal files are checked field by field is simplified
    (comment at `Source.importer`).
  * `glob` yields names in alphabetical order; GraphicsMagick counts pages from 0 in file names (C76). `chrono` date formats are parameters (`ImportLib`) with the conditions
    that theorems need stated (`PlainDates`); the calendar arithmetic is concrete (Spec/Calendar.lean).
  * Files: a map path → contents; `File::create` truncates, then bytes are appended; a crash is any prefix of the
    effect trace. Reads and writes may fail at any call (`Sys` has the faults).
* Modelled, function by function: `comment.rs`, `tags.rs`, `internal.rs`, `ledgerutil.rs`, `filespec.rs`,
  `fingerprint.rs`, `fpgen.rs`, `fmt.rs`, `mutcell.rs`, `tzabbr.rs`, all of `merge/`, all of `rules/`, and of
  `importers/`: `cmd.rs`, `importer.rs`, `util.rs`, `nationwide.rs`, `nationwide_csv.rs`, `nationwide_pdf.rs`
  (running the two programs is a parameter), `tesseract.rs`, `paypal_csv.rs`.
* Not modelled: of `main.rs` clap's command line parsing and log output (the dispatch to the subcommands is `SubCommand.run`,
  Model/Main.lean), RON/JSON syntax,
  what GraphicsMagick and Tesseract do, error message texts
  (errors are modelled by their kind), performance, memory. The commands are modelled as writing standard output at once; the
  buffer of `stdout()` (code of Rust's standard library, from its documentation) is modelled in Model/Stdout, and C95 says when
  it makes no difference. The files change only by what the command does, except in Model/Together, where other runs of the
  program use the same files at the same time; C97 says when that makes no difference. The arenas and the hash containers with indices as keys are
  a list and finite maps; Model/Arena has them with generations, `Eq` and `Hash`, and C111 says that it makes no difference.
  `Debug` and `Display`, `MutCell`'s `Default` and `Hash` (not used), `Document::debug_write_to` (not used), what `serde` needs to call the
  visitors, and `testutil.rs` are not modelled.
* Numbers are unbounded in the model. The functions that compute with `i32` and `i64` (Nationwide importers, Tesseract positions, time
  zone offsets) are modelled once more in Model/Machine with what these types do; C89 says when that makes no difference. Lengths and
  indices (`usize`) and the generation counter of the arena are unbounded without such a theorem.

## 3. Modelling decisions

* Strings are `List Char`; Rust's byte-wise `Ord` on UTF-8 equals code-point lexicographic order (proved, with the other functions of strings: C112).
  `str::len` is the UTF-8 byte length.
* `HashSet<String>` → `Std.ExtTreeSet`, `HashMap` → `Std.ExtTreeMap` (extensional equality).
* `&mut self` functions return the new state; a function that can fail after mutating returns both
  the result and the state at the failure, so "failed calls change nothing" is a real theorem.
* Panics (`expect`, `unwrap`, arena misses, poisoned cells) are explicit error values.
* Recursion that can diverge in the code (rule jumps) is given fuel; running out of fuel = divergence.

## 4. Findings (the code contradicts the natural property)

Negations are proved with concrete witnesses; the theorem names are in brackets.

1. (C16) the candidate tag names whichever fingerprint hash iteration yields first [`C16_counterexample`; exactly
   when it does not matter: `C16_exact`].
2. (C20) a posting added to an existing transaction is indexed under the *source* transaction's date
   [`C20_counterexample`; exactly the histories for which it matters: `C20_exact`].
3. (C27) `format ∘ parse` on comments is not idempotent; `"k:"` oscillates with period two [`C27_counterexample`;
   exactly the stable texts: `C27_fixed`, `C27_exact`; after five times every text has period one or two: `C27_settles`].
4. (C32) `Action::validate` does not look inside `All` [`C32_counterexample`; exactly when a chain is
   missing: `C32_exact`; looking inside would be enough: `C32_deep`].
5. (C33) cyclic chain jumps diverge although the table validates [`C33_counterexample`; exactly when there is no
   result: `C33_exact`, `C33_circles`].
6. (C46) the per-date counter restarts when dates interleave, so equal rows can get equal fingerprints [`C46_false`].
7. (C47) PayPal peer postings have no fingerprint unless legacy fingerprints are included, so merge rejects every
   such import [`C47_paypal_false`; exactly the imports that can be merged: `C47_paypal_merge`].
8. (C49) pence are not required to have two digits: `£1.5` is read as 1.05 [`C49_misread`].
9. (C51) a transaction that goes over a page break, or over lines without a date, loses the rest [`C51_page_break`].
10. (C53) an empty OCR box inside a column counts as overlapping it [`C53_empty_box`].
11. (C56) `account-name` namespaces never work for PDF statements [`C56_account_name_pdf`].
12. (C57) a namespace with slashes changes the directory of the output file [`C57_slashes`].
13. (C60) files are truncated before being rewritten; a crash in between loses the journal [`C60_counterexample`];
    this is so in every successful run of every command that writes a file which is not empty before and after [`C60_*_moment`, `C60_loses`]. Exactly when: `C60_exact`, `C60_exact_command`.
14. (C65) if a download begins within a day, its equal payments of that day are numbered from 1 again and merged
    into the wrong ones; a payment is lost [`C65_false`]. A download that ends within a day is harmless unless the
    rest of the day has a row of the same sum, in or out [`C65_five`, `C65_six`].
15. (C69) a transaction of which only some postings are recognised makes an unbalanced journal
    [`C69_half_recognised_unbalances`; exactly when: `C69_exact`].
16. (C73) a key of nothing but tabs disappears when a comment is written, and a value that looks like tags then becomes
    tags [`C73_tag_from_value`].
17. (C75) quoting is not switched off for the TSV file: a word that begins with a double quote takes in all that follows up
    to the next double quote, or to the end of the file; later pages are then lost without an error [`C75_rest_lost`,
    `C75_page_lost`; exactly when a file is read as written: `C75_exact`].
18. (C77) equal PayPal records that stand apart, with a record of another moment in between, get equal fingerprints even if
    their receipts differ [`C77_needs_order`].
19. (C76) from 101 pages on, pages are recognised in the wrong order, since `page-100.png` sorts before `page-11.png`; a
    conversion that fails half way is not noticed [`C76_wrong_order`, `C76_exit_ignored`].
20. (C78) a Nationwide CSV file that has been saved as UTF-8 is read with every text outside ASCII garbled, and not at all if it
    begins with a byte order mark [`C78_unchanged`, `C78_bom`; pound signs in front of sums are harmless: `C78_pounds`].
21. (C80) the order of two files can decide whether they can be merged: a posting that goes by its fingerprint into one of two alike
    is accepted, while the two alike are refused if they come second [`C80_order_matters`];
    likewise two transactions can be merged into one, but not the one into the two [`C80_split_matters`]. `C80_exact` says exactly when.
22. (C82) which of several errors in a file is reported depends on the order in the file [`C82_error_differs`].
23. (C83) if a posting of unknown account could be the one of two files, the file that comes first gets it, and the accounts in the journal
    depend on the order of the files, without anything being handed back [`C83_first_come`].
24. (C88) the README says to choose a candidate "on one of the unmerged postings" and to remove the other candidate tags. If several postings
    of the transaction had candidates, the transaction is then handed back again, with the same candidates on the others: each of them
    needs a choice of its own, and the choices must be postings of one journal transaction [`C88_every_posting_needs_a_choice`].
25. (C89) a sum of money with 17 digits of pounds overflows: builds that check stop with a panic, others (the default of a release build)
    go on with another sum, without an error [`C89_large`]; likewise for positions near the largest one [`C89_position`].
26. (C90) a run of `merge` into one of its inputs that is stopped after the file was created cannot be repeated: the repeated run succeeds,
    without the journal [`C90_in_place`]. Writing to another file and then moving it would be safe [`C90_session`].
27. (C91) two payments of the same sum on one day, or a payment and its refund, are never merged with their reports in another source, although
    the balances of the account would tell them apart: the posting of the other account has no balance, so it matches both [`C91_payment`].
28. (C94) a transfer that is in the journal from one bank stays in its place when the other bank's statement is merged, so a payment that the
    other bank has before it on the same day comes after it; the balances that `merge` copies from the statement are then wrong
    within that day, and `ledger` rejects the journal, although every day ends with the right balance (`C94_within_a_day`).
29. (C95) a text on standard output whose last line has no end of line and less than 1024 bytes can be lost without an error: nothing flushes
    `stdout()`, and the standard library ignores the error when it does so at the end (`C95_exact`). If standard output is closed, everything is
    lost without an error (`C95_closed`).
30. (C96) two transactions of different statements are merged into one if they have the same date and sum, even if one was paid in and the other was paid
    out, and their numbers on that date, descriptions and balances differ: if a day is split between two statements, a transaction can get lost
    with success and nothing left over (`C96_lost`). The condition under which nothing is lost is exact (`C96_files`).
31. (C97) the program takes no locks. Of two runs at the same time that write the same file, one can be lost although both succeed
    (`C97_lost_update`, `C97_no_bus`). If one of them is `fmt`, the whole journal can be lost (`C97_journal_gone`): it reads the file
    when the other run has just created it. Two runs that write at once leave a mixture: even if each writes its text in one go, the end
    of the longer text can stay behind the shorter one, and the journal then has a transaction twice and lacks another, with success
    (`C97_end_of_the_longer`, `C97_two_buses`). If the operating system takes a text in parts, any mixture is possible (`C97_any_mixture`),
    and there can be zero bytes in the journal (`C97_zeros`).
32. (C98) a `merge` that succeeds can fail when it is repeated with the journal that it wrote (`C98_repeated_run_fails`): a transaction that
    was unclear may have become clear, and then two postings of one file would go into the same posting of the journal.
33. (C98) a `merge` that leaves nothing unmerged does not touch the file of `--unmerged` (last part but one of `C98_commands`): what an
    earlier run has written there stays, and looks like work that is still to be done.
34. (C99) in a pipeline nothing tells the second command that the first has failed: if the first prints nothing, then `apply-rules - out`
    replaces `out` by a journal without transactions and succeeds (`C99_journal_emptied`), and `merge` merges the other files only
    (`C99_nothing_merged`); if the first is stopped while it prints, then transactions can be missing (`C99_cut_short`).
35. (C101) edits of comments and tags do not last: merging the same statement again brings back every tag (but `unknown-account`) and every
    line that was removed from a posting, and puts the statement's value over an edited value of a tag (`C101_comes_back`); edits of headers,
    amounts and accounts last (`C101_kept`), but an account only if the tag `unknown-account` is removed with it. After a posting was moved
    to another transaction, or two were made one, each further merge of the statement is refused (`C101_recognised_iff`).
36. (C103) a transaction that the user deletes from the journal comes back when its statement is merged again. If the statement has another
    transaction like it (two equal payments on one day) it does not come back: the run is refused, because both payments go to the one posting that
    is left, and the statement cannot be merged with that journal any more.
37. (C105) the rules in `/repo/examples/rules.ron` cannot be applied twice, though they begin by taking the mark `unknown-account` away so that it can
    be set anew: the tags by which they find accounts are removed in the first run (chain `clean`), so after the second run *every* posting of every
    transaction is marked, also those whose account had been found. The third run changes nothing more. Accounts then play no role when something is merged into
    that journal (`C105_example_matches`): two payments of one day and sum from two accounts become one, and nothing is handed back
    (`C105_payment_lost`).
38. (C108) leaving the status of PayPal payments out of fingerprints works as intended as long as the balance stays (`C108_paypal`). The balance is
    hashed, however: if the later download has another one for the payment, the own posting is added to the transaction a second time, while the other
    posting is merged by its date and amount. There is no error and nothing is handed back, and the transaction does not balance
    (`C108_balance`).

Smaller observations, visible in the definitions or hypotheses: `strip_sources` also removes `source-file` values that
the user wrote; merging into a transaction drops the source's header; `Posting` equality includes the position of the
commodity; an unmerged transaction with an empty `source-file:` value loses it on re-reading; a newline inside a CSV
field can add or override tags when the journal is read again; the legacy six-column fingerprint does not include the
description; the sign *flag* of zero decides between income and expenses; the PDF importer does not reset the
date after a year line.

## 5. Where each property is proved, and how

| Property | Model | Theorems | Proof |
|---|---|---|---|
| C01, C02 | `Merger.merge` as a state transformer that exposes the state at failure | Props/Safety | invariant over reachable states; the apply phase cannot fail after `check_pending` |
| C03, C04, C18 | same | Props/Convergence, Replay | a merged input stays "absorbed" (each posting's fingerprints on one posting, one destination transaction); replay computes the same actions |
| C05–C07, C63 | same | Props/Safety, Matching (C06) | invariants by induction over histories |
| C08–C12, C19, C21 | same + index-free `Book` specification (Spec/Book) | Props/Matching–Matching4 | refinement: every step of the merger simulates the specification; iff for errors |
| C13, C22 | `posting::merge`, `matches` | Props/Convergence, Safety | direct algebra + induction over histories |
| C14 | `IndexedTransactions::into_iter`, `build` | Props/Safety | equality with a stable sort specification |
| C15, C16 | `HashOrder` oracle | Props/Safety, Matching4, HandedBack | refinement is oracle independent; two concrete orders separate for the converse |
| C17 | `build` then `merge` | Props/Convergence | fixed point from fingerprint uniqueness |
| C20 | matching dates | Props/TwoRuns, TwoRunsExact | bisimulation of a merger that carries on and one that starts from the written journal |
| C23–C25 | sources, merge command | Props/Sources, Commands | list lemmas; effect traces |
| C58–C60, C67 | file effects | Props/Crash, CrashMoment, CrashImport, CrashExact, Rules, ImportCmd, RewriteAgain | traces as plans of whole writes; prefixes |
| C26–C30 | comment parser/formatter on the regex engine | Props/Comments, Reformat, White | characterise both regexes in closed form, then round trip; closed form of reading what was written (Proofs/Reread); white space as a list of the 25 characters of Unicode, `trim` as what is between them |
| C31–C37 | rules tables with fuel, include loader | Props/Rules, RulesTermination, RulesMissing, RuleFiles | big-step semantics; the relation of calls between chains (Spec/RulesCalls); termination measure for includes |
| C38, C39 | fpgen with a supply of random values | Props/FpGen | list induction |
| C40–C43 | `Fingerprintable` byte encodings, tags, base64 | Props/Fingerprint | injectivity by prefix decoding |
| C44–C51, C71, C77 | importers from decoded records on | Props/NationwideCsv, NationwideDistinct, NationwidePdf, PdfDistinct, PaypalCsv, PaypalDistinct, ImportMerge, Money, Calendar | list induction, state machine invariants |
| C52, C53 | tesseract document builder | Props/Tesseract | state machine refinement to a numbered tree |
| C54, C55 | tz parsing with the real regexes | Props/TzAbbr | closed-form characterisation |
| C56, C57 | option parsing, substring replacement | Props/ImportCmd | direct |
| C61, C64 | match set, cell | Props/Containers | list induction |
| C62 | ledger conversion | Props/Convert | list induction on top of C26 |
| C65 | importer + merger | Props/Overlap, Props/OverlapExact, Props/OverlapPaypal | parts of an import are imports of the parts; merging parts commutes exactly if there is no soft match; rows of equal sums match softly; a row that a file begins with has number 0 |
| C66 | merge command | Props/MergeAgain | C18 + print/parse hypothesis + grouping by source |
| C68 | merger | Props/Transfer | refinement, then direct |
| C69 | merger | Props/Balance, BalanceExact | induction over histories; closed form of what a call adds |
| C70 | rules + merger | Props/NewRules | absorbed inputs stay absorbed under changes that keep fingerprints |
| C72 | import, apply-rules and merge commands, one after the other | Props/Pipeline | C57, C31, C25 and C66 composed through the contents of files; invariants of rule runs on comments |
| C73 | comment parser/formatter | Props/KeepTags | induction over lines; tags only grow |
| C74, C75 | reader of CSV and TSV files as a state machine (Base/Csv, Model/ReadText); relation between tables and texts (Spec/Csv) | Props/ReadText, ReadTsv, ReadColumns | induction over the ways to write a table; invariants of the reader within a quoted field |
| C78 | Windows-1252 in front of the CSV reader (Base/Windows1252) | Props/Encoding | what UTF-8 bytes become, through the layouts of a table (Spec/Csv) and the regex for money |
| C79 | `import` with the files that it reads (Model/ImportFiles) | Props/ImportFiles, Props/ImportAll | traces as for C59; the operations before the first write do not change files; then C72, for each kind of statement with what C47 says about it |
| C80 | two merge calls on the model of the merger; two runs of the `merge` command with two files, each of one source (`C80_commands`) | Spec/Order, Proofs/Order, Props/Order, Props/OrderCmd | both books in closed form: the first file with what is taken for it, then what is left of the second; being taken for each other is symmetric and one to one, at postings and at transactions (`either_way`); for the exact condition (`C80_exact`) the second order is shown to have no conflict, no ambiguity, no split and no shared destination from the pairing of the first order; the runs of the command are reduced to the books by the refinement of C25 |
| C81 | `Enc`, `Base64.encode`, tags, the fingerprints of all importers | Spec/Bytes, Props/Bytes | layout with positional bytes, `String.toUTF8`, `BitVec`, base64 by bits; induction on bytes and on groups of three bytes; an example is checked against a value computed outside Lean |
| C82 | histories of merge calls; the `merge` command | Spec/Reorder, Proofs/Reorder, Props/Reorder; Spec/ReorderCmd, Proofs/ReorderCmd, Props/ReorderCmd | bisimulation of two books with the same transactions but for order; the book after a call in closed form (`grp_after`) |
| C83 | histories of merge calls; the `merge` command | Spec/Reorder, Proofs/Apart, Props/Reorder; Spec/ReorderCmd, Proofs/ReorderCmd, Props/ReorderCmd | a posting only gets more specific when others are merged into it (`near_foldl`), so the verdicts on the second file stay the same; then the two calls are one (`after_after`), and C82. For the command, the calls of one file move past those of another one by one (`sameOutcome_swap`) |
| C84 | `main.rs` (dispatch), all commands, sessions of them | Model/Main, Spec/Session, Proofs/Session, Props/Session | every command has a plan of writes to its targets (`step_untouched`); tags: what `merge` decides lands with its tags (`decided_stays`), comments read from a file keep their tags when written and read (`Parsed.keeps`), induction over the session |
| C85 | `main.rs` (dispatch), all commands, sessions of them | Spec/Session, Props/Session, Props/SessionGrows | the journal as first input becomes the first entries of the book, all later calls extend it (`ext_calls`, `Ext.entries`); comments read from a file have the same tags when written and read if no key is blank; `OnlyGrows` is transitive, induction over the session |
| C86 | `main.rs` (dispatch), all commands, sessions of them | Spec/SessionRules, Props/SessionRules | invariants of rule runs (`runs_inv`): a tag that no rule removes stays, comments stay such that their parts can be told apart; then as C84 |
| C87 | `main.rs` (dispatch), all commands, sessions of them | Spec/SessionMoney, Props/SessionMoney | as C85, without comments: C34 for rules, `Grown` for merge, C38 for fingerprints; `KeepsMoney` is transitive, induction over the session |
| C88 | `merge/merger.rs`, README recipe for unmerged postings | Spec/ByHand, Props/ByHand, Props/ByHandCmd | the verdict on a chosen posting in the book after the call is `into` the record that bears the fingerprint (C05, C10); outcome of a call with one transaction from `Bad`; with choices on every posting `journal_map_posts` gives the new journal exactly. With files (Props/ByHandCmd): the second run reads the journal into a new merger (`read_journal`, C17), several transactions of one source may be resolved at once (`picks_call`), and it succeeds exactly if `Resolves` holds |
| C89 | `nationwide_csv.rs`, `nationwide_pdf.rs`, `tesseract.rs`, `tzabbr.rs` with machine integers, for every kind of build (Model/Machine) | Props/Machine | equality with the rest of the model by induction over rows, lines and paragraphs, with a bound on the counters as invariant; captured groups are parts of the text (induction over patterns) |
| C90 | all commands, with operations that fail and runs that are stopped | Spec/Recover, Proofs/Cut, Props/Recover | a relation between programs (`Cut`: the run with failures is the run without, cut short; files that are not read do not matter) that is closed under sequencing and shown for every operation, so for every command; what was touched by an attempt is created anew by the repeated run; false for outputs that are inputs (`C90_in_place`) |
| C91 | merging two sources; Nationwide CSV and PDF imports | Spec/Twice, Props/Twice, Props/TwiceCmd, Props/TwiceImport | the second source is merged transaction by transaction; the book holds exactly the first source, with some absorbed, so that the soft hits of a posting are its rivals on the day (`C91_twice`); for payments of two postings the condition is about sums (`C91_payment`, `C91_statement`); the fingerprints of CSV files have a dot and those of PDF files have none, so they share none (`C91_csv_pdf`); the merge command: `C91_commands` |
| C92 | any number of merge calls and runs, the journal written and read in between | Spec/Days, Proofs/Days, Props/Days | parts of `W` with different dates are `Apart` (no shared fingerprint, soft matches need the same date); days merged before are settled and change nothing; inputs with the same transactions for each date lead to books that cannot be told apart (`Same`), and so does reading the journal that was written; induction over the files and the runs (`C92_days`). With files (Spec/DaysCmd, Proofs/Relabel, Props/DaysCmd): merging does not depend on headers except for dates, so the notes of sources do not matter (`C92_run`); induction over the runs of a session (`C92_commands`). From CSV files of whole days (Props/DaysCsv): the counter starts again with each date (`C92_csv`, `C92_downloads`, `C92_new_journal`). From PayPal files of whole days (Props/DaysPaypal; no record refers to others than those of its moment): `C92_paypal`, `C92_paypal_new` |
| C93 | rule tables and the merger; runs of `apply-rules` and `merge` | Spec/RulesMerge, Props/RulesMerge | files whose postings are `Unlike` never meet in a merge, so the journal is their concatenation sorted by date, if each is in order by itself (`journalOf_unlike`); rules change neither dates nor what makes postings `Unlike`, and sorting by date commutes with a change that keeps dates (`C93_either_way`, `C93_new_file`); `C93_errors`. With files (Spec/RulesMergeCmd, Props/RulesMergeCmd): `C93_commands`. `C93_matters` is a case in which the condition is not met and the two orders give journals of different lengths |
| C94 | merging the statement of a bank into a journal; Nationwide CSV files with balances, PDF statements and PayPal files | Spec/Bank, Props/Bank, Props/BankCsv, Props/BankPdf, Props/BankPaypal | a posting of the statement is either kept as a new one or adds nothing to the one it is taken for, which is of the same amount (`Reconciles`): so the sums of every day agree (`C94_every_day`, by summing over the records of the book, `sum_after`; `C94_downloads` with C92), and a balance that the bank says at the end of a day is that of the journal (`C94_closing_balance`). After each transaction: `C94_in_order`, if the statement goes on where the journal ends; `C94_within_a_day` is a case of a transfer in which it is false within a day. From files: `C94_six`, `C94_csv`; PDF statements, where only some lines have a balance: `C94_pdf`, `C94_statements`; PayPal, where each currency has its own balance: `C94_records`, `C94_paypal` |
| C95 | printing texts on standard output through its line buffer, with a file descriptor that fails in any way; flush at exit | Model/Stdout, Props/Stdout | invariant of the buffer (`writeAll_keeps`: printed and buffered bytes together are the texts so far, and the buffer has no end of line) by cases over the layers; induction over the texts. `C95_refines` by constructing the schedule of failures for the model without buffer |
| C96 | merging several files into one journal; Nationwide CSV files and PDF statements | Spec/Complete, Props/Complete, Props/PdfStatements, Props/BankFiles | induction over the files with a book that lists exactly the postings so far (`ListsAll`); "only if" by counting: a merge adds at most one entry for each transaction (`after_length`), so equal lengths make every transaction new. For the bank, two rows of a date match if and only if they have the same sum (`rows_soft`), and what is hashed tells date and sum (C40), within each of the three kinds of tags, which C41 keeps apart |
| C97 | all commands, step by step (Model/Together: one step opens or creates a file, or reads or writes one byte), any number of processes, any order of steps | Spec/Together, Spec/TwoWriters, Proofs/Together, Proofs/TwoWriters, Proofs/FileKept, Props/Together, Props/TwoWriters | the steps of a command alone are the command of the rest of the model (`task_prog`, `solo_ends`, by induction over what the command does); a step depends on nothing but the files that matter and changes nothing but files that may be written to (`step_within`), so by induction over the order of steps a process that is left alone is where it would be alone (`together_solo`). `C97_any_moment` builds the order of steps. `C97_what_is_kept`: by induction over the order of steps, what is in a file is what was written since it was last created, the last byte at each place (each process has its own place in the file), zeros in gaps. `C97_any_mixture`, `C97_end_of_the_longer`, `C97_zeros` build orders of steps for two runs that write to the same file |
| C98 | `merge/merger.rs`, `merge/cmd.rs`, any number of runs with the journal that the run before wrote and the same other files | Spec/Again, Proofs/Again, Props/Again, Props/AgainCmd | a run is the run of the transactions that it decides (`decided_calls`), these are settled in the journal that it writes (C66), so the next run decides them again (`leftOver_less`) and, if it decides no others, makes the same journal (`second_run`, `merge_again`); the number of transactions handed back is the measure. Runs of the command by induction over the session |
| C99 | `filespec.rs` (`-`), `main.rs`: every command with standard input or output in place of a file, two commands joined by a pipe | Spec/Pipe, Proofs/Pipe, Proofs/PipeIn, Props/Pipe | the end that prints: what comes before the output is the same program (`print_instead`); the end that reads: both programs go in lockstep (`Lockstep`), and the groups that `merge` makes of an input without notes of sources do not depend on its name (`mergeGroups_alike`). In the model standard input is the whole text that was printed: all commands read it to its end before they open their output, so that both programs may also run at the same time. A signal for a closed pipe is not modelled |
| C100 | `rules/table/mod.rs`: tables that differ in how they are written | Spec/Rearrange, Proofs/Rearrange, Props/Rearrange | on the big-step semantics of C31: each way to rewrite a chain does the same in any table that has the same chains to jump to (`rewritten_same`), and chains that do the same in both tables can be exchanged (`C100_exchange`, induction on derivations); then for the code with C31. Other names: equality for every depth of jumps, by induction on it |
| C101 | `merge/merger.rs`, `merge/posting.rs`, `comment.rs::merge_from`: a journal edited by hand, merged again with the files it was made of | Spec/Edits, Proofs/Edits, Proofs/EditsExact, Props/Edits | the book of the edited journal lists its transactions (C96); a file whose fingerprints it keeps is settled in it (`settled_iff`), so C04's lemmas apply; what is brought in is computed from the hits (`Settled.after_entries`); keeping is transitive (`Keeps.trans`), so it is enough that the edits keep what the journal had. Which edits are refused: the three ways to be bad that remain (`matched_of_good`). Files: C98_run |
| C102 | `merge/merger.rs`, `merge/posting.rs`, `merge/transaction.rs`, `comment.rs::merge_from`: everything in the inputs written in another way | Spec/Rename, Proofs/Rename, Proofs/RenameExact, Props/Rename | the renaming commutes with every step of the book (`verdict_book`, `absorb_post`, `putTrn_book`, `after_book`, `bad_book`, `journal_book`), and C98's lemmas bring this to runs. Nothing less will do (`C102_exact`): runs with one or two transactions of one posting tell apart whatever is not kept (`oneRun_single`, `oneRun_pair`, `harmless_two`). The names of the values of tags, reality and status of postings are not renamed |
| C103 | `merge/merger.rs`, `merge/posting.rs` and the `merge` command: a journal edited by hand, from which transactions may be missing, and statements with more than it has | Spec/Return, Proofs/Return, Props/Return | a file is split into the transactions with fingerprints in the journal and the others; the first are matched by fingerprint as in C101, the second open new entries (`Mixed`, `Proofs/Return`), so the entries become `grown js g`; induction over the files (`C103_fits`); `C103_deleted` gets the hypotheses from C101_keeps; `C103_twin`: both postings have the same destination, so the `noSame` condition of a good merge fails |
| C104 | `rules/table/mod.rs`, `rules/table/predicate.rs`, `rules/table/ctx.rs`, `rules/cmd.rs`: what rules read and write | Spec/Looks, Props/Looks | every step, from a context with something written into it, gives an outcome that is the same for all transactions and postings underneath (`Uniform`): induction over actions, chains and the depth of jumps; then over the postings (`C104_depends`); `C104_exact`: for each part a table that tells two transactions apart by it, counting postings by means of the description |
| C105 | `rules/table/mod.rs`, `rules/table/predicate.rs`, `rules/cmd.rs`, `examples/rules.ron`: applying rules again | Spec/RulesAgain, Props/RulesAgain, Props/RulesAgainCmd | for contexts that agree at all places that no action writes, every step makes the same patch, a function for each place; the patches that a table can make are closed under composition and idempotent (`Steady`, `posts_again`); guarded chains: the mark is gone at the end and nothing applies without it; the chains of the example are evaluated symbolically, from the innermost one (`C105_example_once`) |
| C106 | `examples/rules.ron` with `rules/`, `importers/nationwide_csv.rs`, `merge/cmd.rs`: the example and statements | Spec/ExampleRules, Props/ExampleRules | every action of the example is one of five kinds or a list of these (`example_steps`), which gives validation and the hypotheses of C79; values of imported postings are read again without blanks around them (`Says.read_value`, from `readBack`), so what C105_example_once finds is known from the row (C45) |
| C107 | `rules/table/mod.rs`: one header for all postings, the order of postings and of transactions | Spec/Alone, Props/Alone | what the start chain does for a posting is written as replacements of the description, changes of the tags of the header and what the posting becomes, none of which depends on the header except through the description (`Free`, for predicates, actions, chains, jumps); orders are then compared with `List.Perm`; `comm_edit` for the header; counterexamples `C107_seen`, `C107_quarrel` where a hypothesis is missing |
| C108 | `importers/paypal_csv.rs`: the comment "Deliberately not including `v.status`, as this may change on a future import", with `merge/merger.rs` | Props/Status, Props/MoveCmd | the runs of two files whose records agree on all but status and receipt are divided alike, so import gives the same transactions but for these (C108_import), with the statuses of the rows (C108_statuses); a file with the same fingerprints as one that was merged is found in the journal, also after edits by hand, since being found depends on the fingerprints only (C108_again, with C70 and C101). The journal gets the strongest status, C108_paypal and C108_completed. The balance is hashed, so `Alike` asks for the same balance; C108_balance shows what happens otherwise. `C108_command` is the same for runs of `merge` with files. |
| C109 | the option `--include-legacy-fingerprint` of `importers/nationwide_csv.rs` and `importers/paypal_csv.rs`, with `merge/merger.rs` | Props/Migrate, Props/MoveCmd | a file `both` is imported with the option; a journal keeps (in the sense of C101) the transactions of a file `old` whose fingerprints are among those of `both`, and has none of the others. Then `both` is recognised in the journal posting by posting (`recognised_more`), so C101 says what merging gives (C109_first). The result has all fingerprints of `both`, so any file with some of them for each posting keeps being recognised, also after edits by hand (C109_later). That the importers give each posting at most one fingerprint more with the option is `OneMore` (C109_nationwide_import, C109_paypal_import), from C45 and C50 with `pair_tags`; then the hypothesis about the others follows if the journal has none of the new fingerprints (`restNew_of`). C109_without is a case where the option is needed. `C109_command` is the same for runs of `merge` with files. |
| C110 | all commands one after the other: `importers/cmd.rs`, `rules/cmd.rs`, `merge/cmd.rs` with what they call | Props/Month | `Suits` says in terms of dates, sums and fingerprints when a statement goes with a journal. Rules leave these alone (C34, C70), and so does writing and reading (C62, C72), so what is read from the file with the rules applied suits the journal too (`suits_same` with `Prepared.content`), and C103 says what merging gives. C110_month starts from any two runs that were successful; C110_commands shows that all three runs succeed if no operation on files fails and what is printed can be read again, for every kind of statement, with the journal in a file of its own (`PreparedFrom.others`). C110_again: the hypotheses hold again for the result. |
| C111 | `merge/posting.rs:17-32`, `merge/transaction.rs:11-12`, `merge/merger.rs:423-432`: arenas with generations, `Eq` and `Hash` of indices, the hash containers with such keys | Model/Arena, Props/Arena | arenas with generations: free places are free and no entry is of a later generation (`Sound`, for all sequences of steps), so a new entry takes the place of no other one (C111_insert) and an index is never found again after its entry was removed (C111_stale); if only entries are added and changed, as before `build`, the arena is a list (C111_positions), and taking entries is `ConsumePostings.take` (C111_build) and `takeDates` (C111_transactions). Hash tables with any hash function and any way of growing: every entry is where the hash function puts it (`Placed`), so they have the entries of a map from positions (C111_table), for the two containers in `merge` C111_dests and C111_candidates. This is what Model/MergePosting and Model/Merger take for granted. |
| C112 | functions of strings at their call sites: `sort` (`comment.rs`) and `sort_by` (`merge/sources.rs`), `starts_with` (`fingerprint.rs`, `merge/posting.rs`), `contains` (`rules/table/predicate.rs`), `replace` (`importers/cmd.rs`), `split` (`comment.rs`) | Props/Utf8 | the bytes of a character as numbers (`charBytes`): a smaller character has a smaller byte at the first place where the bytes differ (`charBytes_lt`, by cases on the four lengths), and only the first byte of a character is not of the form `10......` (`encode_shape`). From the first: order and `sort` (C112_order, C112_sort), `starts_with`; from the second: where the bytes can be cut (C112_cut), `contains`, `replace` (induction on the length), `split` at ASCII characters. `len` is the number of bytes (C112_len). |
| C113 | all commands, on two file systems | Props/SameLedgers, Spec/SameLedgers | both runs are in the same state at every step (`InStep`), while every file either was created by the run, and then has the same contents in both, or is as it was at the start, and then holds the same ledger if it is read (`Whole`), which is `C113_reads`; for `import`, the bytes that it reads have to be the same (`C113_import`); `C113_after` is the same for what comes next. For `fmt`, induction over the files that it rewrites (`C113_fmt_keeps`, `C113_fmt_first`); that a printed ledger is read as the same ledger is assumed there, since parser and printer are a library |
| C76 | `ocr_document` with the two programs as parameters (Model/Ocr) | Props/Ocr | sorting lemmas |

## 6. Deviations

* Ten properties are false as first written (C16, C20, C27, C32, C33, C46, C47, C60, C65, C75). They stay in
  `properties.jsonl` as they were; each has a proved counterexample and theorems suffixed `_partial` that say what does
  hold, with what is missing in the docstring and in MANIFEST.json. All
  have exact characterisations (for C65: of Nationwide CSV files, and of PayPal files that are cut between moments).
* Properties from C65 on were added after the model was complete; they combine several parts of the program.
* None of the properties turned out not to be expressible.
* Mutation testing (`seeded/LOG.jsonl`) is done with edits of the model in a copy outside `/verif`; surviving edits led to
  the theorems named under "tightened" there.
