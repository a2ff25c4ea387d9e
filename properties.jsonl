{"id": "C01", "title": "Failed merges change nothing", "statement": "After any history of merge calls, a merge call that returns an error leaves the merger exactly as it was: everything later observable (the built journal and the outcome of every later merge) is the same as if the failed call had not been made.", "quantifier": "every history of merge calls (successful or failed) on a fresh merger, every next input, every hash iteration order", "why_tests_cant": "the error can be raised half way through applying a batch; only an argument over every reachable state shows that the apply phase cannot fail", "anchors": ["src/merge/merger.rs::Merger::merge", "src/merge/merger.rs::Merger::apply_pending", "src/merge/posting.rs::IndexedPostings::register_fingerprints"]}
{"id": "C02", "title": "Merging never panics and never reports an internal error", "statement": "For every history and input, merge and build return normally: no expect/unwrap panics (bad posting or transaction index, missing primary fingerprint, poisoned cell) and the 'internal merge error' is never returned.", "quantifier": "every history, input and hash order", "why_tests_cant": "panics hide on unexplored index/tag combinations", "anchors": ["src/merge/posting.rs::BAD_POSTING_INDEX", "src/merge/transaction.rs::BAD_TRANSACTION_INDEX", "src/merge/posting.rs::primary_fingerprint", "src/merge/posting.rs::register_fingerprints"]}
{"id": "C03", "title": "Re-merging the same input immediately is a no-op", "statement": "If a merge call succeeds leaving nothing unmerged, calling merge again with the same transactions succeeds, leaves nothing unmerged and leaves the merger unchanged.", "quantifier": "every reachable merger state, every input", "why_tests_cant": "needs every combination of prior state and input, including postings merged by fingerprint, softly and newly added", "anchors": ["src/merge/merger.rs::Merger::merge", "src/merge/posting.rs::merge", "src/comment.rs::Comment::merge_from"]}
{"id": "C04", "title": "A fully merged input is recognised for ever", "statement": "Once an input has been merged with nothing left unmerged, merging it again at any later point of the history succeeds with nothing unmerged and adds no posting and no transaction.", "quantifier": "every history between the two merges of the input", "why_tests_cant": "the intervening history is unbounded", "anchors": ["src/merge/merger.rs::Merger::merge", "src/merge/posting.rs::IndexedPostings"]}
{"id": "C05", "title": "Fingerprints are unique in the journal", "statement": "In the journal built after any history, no fingerprint tag is carried by two postings, and every posting carries at least one.", "quantifier": "every history", "why_tests_cant": "global invariant over unbounded histories", "anchors": ["src/merge/posting.rs::IndexedPostings::add", "src/merge/posting.rs::IndexedPostings::merge_into"]}
{"id": "C06", "title": "No source posting is lost", "statement": "After a successful merge every input posting's fingerprints are all on one single posting of the built journal, or its whole transaction is in the returned unmerged list; never both and never neither.", "quantifier": "every reachable state and input", "why_tests_cant": "conservation must hold for every mix of outcomes", "anchors": ["src/merge/merger.rs::Merger::apply_pending", "src/merge/merger.rs::MergeActionsAccumulator"]}
{"id": "C07", "title": "Existing postings and transactions are never removed, moved or reordered", "statement": "A merge only appends postings to existing transactions and appends new transactions: existing postings stay in their transaction, in order, and keep every fingerprint they had; existing transactions' headers (date, description, status, comment) never change.", "quantifier": "every reachable state and input", "why_tests_cant": "monotonicity over all inputs", "anchors": ["src/merge/merger.rs::Merger::apply_pending", "src/merge/transaction.rs::IndexedTransactions"]}
{"id": "C08", "title": "Fingerprint match takes precedence", "statement": "If exactly one existing posting shares a fingerprint with an input posting then that posting is the destination, whatever amounts, dates, balances or accounts say; soft matching is only used when no fingerprint matches.", "quantifier": "every state, input posting", "why_tests_cant": "precedence over all soft-match configurations", "anchors": ["src/merge/posting.rs::IndexedPostings::find_matching_postings"]}
{"id": "C09", "title": "Soft match is exactly the documented relation", "statement": "An existing posting is a soft match iff it is filed under the input transaction's date, has an equal amount, has no contradicting balance, and the account is equal unless either side is tagged unknown-account; the relation between two postings is symmetric and reflexive.", "quantifier": "all pairs of postings", "why_tests_cant": "the relation ranges over all field combinations and decimal representations", "anchors": ["src/merge/posting.rs::matches", "src/merge/posting.rs::IndexedPostings::find_matching_postings"]}
{"id": "C10", "title": "Ambiguous transactions are left to the human, intact", "statement": "If any posting of an input transaction has two or more soft matches (and no fingerprint match), the whole transaction is returned unmerged, none of its postings influences the merger, and the returned transaction differs from the input only by candidate tags, one per candidate posting naming a fingerprint of that posting.", "quantifier": "every state and input", "why_tests_cant": "which posting is ambiguous, and when, is unbounded", "anchors": ["src/merge/merger.rs::Merger::determine_posting_action", "src/merge/merger.rs::MergeActionsAccumulator"]}
{"id": "C11", "title": "Merge rejects exactly the documented bad inputs", "statement": "merge fails iff: a posting has a candidate tag; or has no fingerprint; or two postings of the input share a fingerprint; or a posting's fingerprints hit two existing postings; or one transaction's postings match postings of two existing transactions; or two input postings match the same existing posting. It succeeds otherwise.", "quantifier": "every reachable state and input", "why_tests_cant": "an iff over all inputs", "anchors": ["src/merge/merger.rs::Merger::to_transaction_merge_action", "src/merge/merger.rs::Merger::check_pending", "src/merge/merger.rs::Merger::find_existing_dest_trn", "src/merge/posting.rs::Input::from_posting_internal"]}
{"id": "C12", "title": "Postings of one call never match each other", "statement": "Matching is against the journal as it was before the call: adding transactions to an input never changes how the other transactions of that input are matched.", "quantifier": "every state, every input and every way of extending it", "why_tests_cant": "order effects inside a batch are unbounded", "anchors": ["src/merge/merger.rs::Merger::make_pending"]}
{"id": "C13", "title": "Merging a posting never touches money", "statement": "A merge into an existing posting never changes its amount or reality, sets a balance only where there was none, changes status only none->any or pending->cleared, and changes account only when the existing one was tagged unknown-account and the source is not.", "quantifier": "all pairs of postings; every history", "why_tests_cant": "all field combinations over unbounded histories", "anchors": ["src/merge/posting.rs::merge"]}
{"id": "C14", "title": "Built journal is sorted by date, stably", "statement": "build lists transactions in ascending date order, and transactions with equal dates in the order they were first merged; each merged transaction appears exactly once.", "quantifier": "every history and hash order", "why_tests_cant": "sorting/stability over all histories", "anchors": ["src/merge/transaction.rs::IndexedTransactions::into_iter", "src/merge/merger.rs::Merger::build"]}
{"id": "C15", "title": "Result does not depend on hash iteration order", "statement": "The built journal, the success/failure of every call, and the unmerged transactions up to the choice of candidate fingerprint are the same for every hash-map/hash-set iteration order.", "quantifier": "all pairs of iteration orders, all histories", "why_tests_cant": "tests run with one random seed", "anchors": ["src/comment.rs::Comment", "src/merge/posting.rs::primary_fingerprint", "src/merge/transaction.rs::IndexedTransactions::into_iter"]}
{"id": "C16", "title": "Unmerged output itself is deterministic", "statement": "The unmerged transactions are identical on every run with the same input.", "quantifier": "all iteration orders", "why_tests_cant": "tests run with one random seed per process", "anchors": ["src/merge/posting.rs::primary_fingerprint", "src/merge/merger.rs::Merger::determine_posting_action"]}
{"id": "C17", "title": "The built journal is a fixed point of merging", "statement": "Merging a built journal into a fresh merger succeeds with nothing unmerged and builds the same journal.", "quantifier": "every history", "why_tests_cant": "quantifies over every journal the tool can produce", "anchors": ["src/merge/merger.rs::Merger::build", "src/merge/merger.rs::Merger::merge"]}
{"id": "C18", "title": "Re-merging the result with all its inputs gives the same result", "statement": "(run_examples.sh) If inputs B1..Bn merge in order with nothing unmerged, then merging the built journal followed by B1..Bn into a fresh merger builds the same journal.", "quantifier": "every list of inputs", "why_tests_cant": "unbounded input lists", "anchors": ["run_examples.sh", "src/merge/merger.rs::Merger"]}
{"id": "C19", "title": "Resolving a candidate tag by hand works", "statement": "If the user takes an unmerged posting, removes its candidate tags, and adds the plain fingerprint named by one of them, then merging it again merges it into exactly the posting that the tag named.", "quantifier": "every state, every ambiguous posting and every choice of candidate", "why_tests_cant": "README workflow over all states", "anchors": ["README.md", "src/merge/merger.rs::Merger::determine_posting_action"]}
{"id": "C20", "title": "Matching date is the destination transaction's date", "statement": "(README 'Same date on parent transaction') A posting is soft matched by the date of the transaction that holds it, so merging in one run or in two runs through a journal file gives the same result.", "quantifier": "every history", "why_tests_cant": "needs a posting added to a transaction with another date", "anchors": ["src/merge/posting.rs::IndexedPostings::add", "src/merge/merger.rs::Merger::apply_post_actions_to_trn", "README.md"]}
{"id": "C21", "title": "Empty transactions are handed back unchanged", "statement": "An input transaction without postings is always returned unmerged, unchanged, and never affects anything else.", "quantifier": "every state and input", "why_tests_cant": "all states", "anchors": ["src/merge/merger.rs::Merger::to_transaction_merge_action"]}
{"id": "C22", "title": "Merging postings converges", "statement": "Merging the same source posting twice into a posting equals merging it once; fingerprints of the result are the union of both; a posting once free of unknown-account stays free of it whatever is merged later.", "quantifier": "all postings", "why_tests_cant": "all field combinations", "anchors": ["src/merge/posting.rs::merge"]}
{"id": "C23", "title": "Source grouping loses and reorders nothing within a source", "statement": "Reading a journal for merging partitions its transactions by source (own tag or else the file), yields groups in ascending source order, keeps the journal order inside each group, and tags every transaction with its source.", "quantifier": "every journal", "why_tests_cant": "all journals and tag placements", "anchors": ["src/merge/sources.rs::read_ledger_file"]}
{"id": "C24", "title": "Written merge result has no source tags; unmerged keeps them", "statement": "Every transaction of the merged output lacks the source-file tag; every unmerged transaction carries it.", "quantifier": "every command line and journals", "why_tests_cant": "all inputs", "anchors": ["src/merge/sources.rs::strip_sources", "src/merge/cmd.rs::Command::run"]}
{"id": "C25", "title": "merge command writes nothing on failure to merge", "statement": "If any input cannot be read, parsed or merged, or transactions remain unmerged without --unmerged, the command fails without touching any file; the unmerged file is written before the output file.", "quantifier": "every file system state, inputs", "why_tests_cant": "all failure positions", "anchors": ["src/merge/cmd.rs::Command::run"]}
{"id": "C26", "title": "Comment text round-trips", "statement": "Formatting a comment and parsing it back yields the same lines, tags and value tags, for every comment in normal form (trimmed non-empty lines without tag groups, tags without colon/space, non-empty trimmed values).", "quantifier": "all comments", "why_tests_cant": "strings and sets are unbounded", "anchors": ["src/comment.rs::Comment::from_opt_comment", "src/comment.rs::Comment::into_opt_comment"]}
{"id": "C27", "title": "Re-formatting a comment is stable", "statement": "For every comment text, parse-then-format is idempotent: a second parse-then-format gives the same text.", "quantifier": "all comment texts", "why_tests_cant": "all strings", "anchors": ["src/comment.rs::Comment::from_opt_comment", "src/comment.rs::Comment::into_opt_comment"]}
{"id": "C28", "title": "Comment parsing yields well-formed parts", "statement": "For every text: no parsed tag is empty or contains a colon or space, every line is trimmed and non-empty, keys are non-empty without colon or space, no part contains a newline; None parses to the empty comment.", "quantifier": "all strings", "why_tests_cant": "all strings", "anchors": ["src/comment.rs::Comment::from_opt_comment"]}
{"id": "C29", "title": "Comment merging laws", "statement": "Merging comments unions tags, right-biases value tags, keeps all existing lines in place and appends only new ones once; it is idempotent and associative.", "quantifier": "all comments", "why_tests_cant": "algebraic law", "anchors": ["src/comment.rs::Comment::merge_from"]}
{"id": "C30", "title": "Formatting is canonical", "statement": "The formatted comment depends only on lines, tag set and value map; it is absent iff the comment is empty; short tags share the first line in sorted order, long tags follow one per line, value tags come last sorted by key.", "quantifier": "all comments, all iteration orders", "why_tests_cant": "all sets", "anchors": ["src/comment.rs::Comment::into_opt_comment"]}
{"id": "C31", "title": "Rule chains stop at the first matching Return", "statement": "Applying a chain runs rules in order on the updated context, a non-matching rule has no effect, a matching rule applies its action, and rules after a matching Return rule have no effect; a Return inside a jumped-to chain does not stop the calling chain.", "quantifier": "all tables, contexts", "why_tests_cant": "unbounded chains", "anchors": ["src/rules/table/mod.rs::Chain::apply", "src/rules/table/mod.rs::Rule::apply"]}
{"id": "C32", "title": "A validated table never fails with 'chain not found'", "statement": "Once a rules table passes validation, applying it to any transaction never fails because a chain is missing.", "quantifier": "all validated tables and transactions", "why_tests_cant": "all tables", "anchors": ["src/rules/table/mod.rs::Table::validate", "src/rules/table/mod.rs::Action::validate"]}
{"id": "C33", "title": "Applying a validated table terminates", "statement": "Applying a validated rules table to any transaction terminates.", "quantifier": "all tables, transactions", "why_tests_cant": "non-termination cannot be observed by a test", "anchors": ["src/rules/table/mod.rs::Action::apply", "src/rules/table/mod.rs::Chain::apply"]}
{"id": "C34", "title": "Rules cannot change money, dates or structure", "statement": "Whatever the rules, output has the same transactions and postings in the same order with the same dates, amounts, balances, statuses and text lines; only account, tags, value tags and description may change.", "quantifier": "all tables, journals", "why_tests_cant": "all rule programs", "anchors": ["src/rules/table/mod.rs::Action::apply", "src/rules/table/mod.rs::Table::update_transaction"]}
{"id": "C35", "title": "A rule error aborts the whole run", "statement": "If any posting triggers an Error rule then no journal is produced, whatever the other transactions are.", "quantifier": "all tables, journals", "why_tests_cant": "all positions", "anchors": ["src/rules/table/mod.rs::Table::update_transactions", "src/rules/cmd.rs"]}
{"id": "C36", "title": "Predicates obey boolean algebra", "statement": "All/Any/Not/True evaluate as and/or/negation/true (All [] true, Any [] false), and predicates never modify the posting.", "quantifier": "all predicates, contexts", "why_tests_cant": "recursive structure", "anchors": ["src/rules/table/predicate.rs::Predicate::is_match"]}
{"id": "C37", "title": "Rule includes load each file once and terminate", "statement": "Loading rules with any include graph (cycles, diamonds) terminates, loads each file at most once, and defines every chain exactly once or fails with a duplicate-chain error.", "quantifier": "all include graphs", "why_tests_cant": "unbounded graphs", "anchors": ["src/rules/table/source.rs::File::load_into"]}
{"id": "C38", "title": "generate-fingerprints gives every posting a fingerprint and is idempotent", "statement": "After generate-fingerprints every posting has a fingerprint; postings that had one are untouched, others gain exactly one tag; nothing else changes; a second run changes nothing.", "quantifier": "all journals, all random values", "why_tests_cant": "all journals and random values", "anchors": ["src/fpgen.rs::update_transactions"]}
{"id": "C39", "title": "Generated fingerprints make a journal mergeable", "statement": "A journal without candidate tags and without duplicate fingerprints, after generate-fingerprints with distinct fresh random values, merges into a fresh merger without error.", "quantifier": "all journals", "why_tests_cant": "all journals", "anchors": ["src/fpgen.rs::update_transactions", "src/merge/posting.rs::Input::from_posting_internal"]}
{"id": "C40", "title": "Fingerprint input encoding is unambiguous", "statement": "For each importer algorithm, two records are encoded to the same hash input only if all their fingerprinted fields (and counter and self/peer side) are equal.", "quantifier": "all pairs of records", "why_tests_cant": "injectivity over all records", "anchors": ["src/fingerprint.rs::Fingerprintable", "src/importers/nationwide_csv.rs::RecordFive::fingerprint_v1", "src/importers/nationwide_csv.rs::RecordSix::fingerprint_v1", "src/importers/paypal_csv.rs::Record::from_csv_record", "src/importers/nationwide_pdf.rs::TransactionBuilder::build"]}
{"id": "C41", "title": "Fingerprint tags are unambiguous", "statement": "Algorithm, version, namespace and value can be recovered from a fingerprint tag: two tags are equal only if all four parts are.", "quantifier": "all accepted names/namespaces, hash values", "why_tests_cant": "all strings", "anchors": ["src/fingerprint.rs::Fingerprint::tag", "src/fingerprint.rs::FingerprintBuilder::new"]}
{"id": "C42", "title": "Fingerprint tags survive the journal", "statement": "Any tag an importer emits is recognised as a fingerprint, contains no colon or space, and is read back from the written comment.", "quantifier": "all namespaces accepted, all hash values", "why_tests_cant": "all strings", "anchors": ["src/fingerprint.rs::Fingerprint::tag", "src/fingerprint.rs::Fingerprint::legacy_tag", "src/comment.rs::Comment"]}
{"id": "C43", "title": "Bad namespaces are rejected", "statement": "Building a fingerprint fails iff the algorithm name or namespace has a character outside [A-Za-z0-9_+/].", "quantifier": "all strings", "why_tests_cant": "all strings", "anchors": ["src/fingerprint.rs::FingerprintBuilder::new"]}
{"id": "C44", "title": "Imported transactions balance", "statement": "Every pair of postings an importer emits for a record has opposite amounts in the same commodity, so every imported transaction sums to zero; the peer account is expenses for negative and income otherwise.", "quantifier": "all records", "why_tests_cant": "all amounts incl. zero and negative zero", "anchors": ["src/importers/util.rs::self_and_peer_account_amount", "src/importers/nationwide_csv.rs", "src/importers/paypal_csv.rs", "src/importers/nationwide_pdf.rs"]}
{"id": "C45", "title": "Nationwide rows map one-to-one to transactions", "statement": "Each data row yields exactly one transaction with two postings, in file order, with the row's date and description; the sequence number counts rows since the date last changed, starting at 1; any bad row fails the whole import.", "quantifier": "all files", "why_tests_cant": "all files", "anchors": ["src/importers/nationwide_csv.rs::NationwideCsv::process_rows"]}
{"id": "C46", "title": "Imported fingerprints are distinct within a file", "statement": "No two postings of one imported Nationwide CSV file share a fingerprint, provided SHA-1 does not collide on the file.", "quantifier": "all files", "why_tests_cant": "all files", "anchors": ["src/importers/nationwide_csv.rs::NationwideCsv::process_rows", "src/importers/nationwide_csv.rs::RecordSix::fingerprint_v1"]}
{"id": "C47", "title": "Every imported posting carries a fingerprint", "statement": "Every posting produced by every importer has at least one fingerprint tag, so imported journals are accepted by merge.", "quantifier": "all importers, options, records", "why_tests_cant": "option combinations x records", "anchors": ["src/importers/nationwide_csv.rs", "src/importers/nationwide_pdf.rs", "src/importers/paypal_csv.rs::PaypalCsv::form_postings"]}
{"id": "C48", "title": "Paid-in/paid-out are exclusive", "statement": "A Nationwide row is accepted iff exactly one of paid in / paid out is present; the amount is positive for paid in and negated for paid out.", "quantifier": "all rows", "why_tests_cant": "all rows", "anchors": ["src/importers/nationwide_csv.rs::RecordFive::form_postings", "src/importers/nationwide_csv.rs::RecordSix::form_postings"]}
{"id": "C49", "title": "Nationwide money strings are read exactly", "statement": "A '£P.QQ' string is read as the decimal number it denotes (sign included).", "quantifier": "all strings", "why_tests_cant": "all digit strings", "anchors": ["src/importers/nationwide_csv.rs::GbpValueVisitor::visit_str"]}
{"id": "C50", "title": "PayPal records group into transactions by instant", "statement": "Consecutive records with the same instant form one transaction, order is preserved, nothing is dropped or duplicated, each record gives two postings, and the description is the first name present (else the import fails).", "quantifier": "all record lists", "why_tests_cant": "unbounded lists", "anchors": ["src/importers/paypal_csv.rs::PaypalCsv::read_transactions", "src/importers/paypal_csv.rs::PaypalCsv::form_transaction"]}
{"id": "C51", "title": "PDF lines accumulate into transactions", "statement": "Each payment or receipt line starts exactly one transaction; continuation lines extend only the current one; balances attach to the current one; both-columns or undated or negative lines fail; transactions are emitted in order.", "quantifier": "all line sequences", "why_tests_cant": "unbounded sequences", "anchors": ["src/importers/nationwide_pdf.rs::TransactionsAccumulator::feed_line", "src/importers/nationwide_pdf.rs::TransactionBuilder"]}
{"id": "C52", "title": "OCR document tree is numbered and faithful", "statement": "The page/block/paragraph/line/word tree built from TSV records numbers children 1..n in order and contains exactly the fed records; any out-of-sequence number or missing parent fails.", "quantifier": "all record sequences", "why_tests_cant": "unbounded sequences", "anchors": ["src/importers/tesseract.rs::Document::feed_record", "src/importers/tesseract.rs::push_checked"]}
{"id": "C53", "title": "Column overlap is interval intersection", "statement": "A word belongs to a column iff the open horizontal intervals intersect (common integer interior, for non-empty boxes); symmetric.", "quantifier": "all bounds", "why_tests_cant": "all integers", "anchors": ["src/importers/tesseract.rs::Bounds::overlaps", "src/importers/nationwide_pdf.rs::table::ColumnPos"]}
{"id": "C54", "title": "UTC offset strings parse to exactly their meaning", "statement": "An offset string is accepted iff it is UTC±HH or UTC±HH:MM with MM<=59 and under 24 hours; its value is the signed number of seconds; + and - are opposite.", "quantifier": "all strings", "why_tests_cant": "all strings", "anchors": ["src/tzabbr.rs::parse_utc_offset"]}
{"id": "C55", "title": "Timezone table is a function", "statement": "Loading fails iff some row is malformed or an abbreviation is repeated; otherwise lookups return exactly the row's offset and nothing else.", "quantifier": "all files", "why_tests_cant": "all files", "anchors": ["src/tzabbr.rs::TzAbbrDB::from_reader"]}
{"id": "C56", "title": "Fingerprint namespace option is parsed as documented", "statement": "account-name, generated, fixed:X, lookup:path are recognised exactly and anything else fails; the namespace computed is account name / X / 8-character hash / table entry (error when absent).", "quantifier": "all strings", "why_tests_cant": "all strings", "anchors": ["src/importers/nationwide.rs::FpNamespace"]}
{"id": "C57", "title": "Output path substitution", "statement": "With --sub-output-path every %FP_NS% in the path is replaced by the namespace and nothing else changes; stdout is rejected.", "quantifier": "all paths/namespaces", "why_tests_cant": "all strings", "anchors": ["src/importers/cmd.rs::Command::run"]}
{"id": "C58", "title": "fmt/generate-fingerprints process files independently in order", "statement": "Files are rewritten one at a time, in order; on the first failure earlier files are already rewritten, the failing file and later files are untouched (before its own write begins).", "quantifier": "all file lists, failure points", "why_tests_cant": "all failure positions", "anchors": ["src/fmt.rs", "src/fpgen.rs::Cmd::run", "src/filespec.rs"]}
{"id": "C59", "title": "A crash never damages more than the file being written", "statement": "At any crash point at most the file currently being written differs from both its old and new contents; every other file has its old or new contents in full.", "quantifier": "all crash points", "why_tests_cant": "crash points", "anchors": ["src/filespec.rs::write_file", "src/fmt.rs", "src/merge/cmd.rs"]}
{"id": "C60", "title": "A crash never loses a journal", "statement": "At any crash point every journal has either its complete old or complete new contents.", "quantifier": "all crash points", "why_tests_cant": "crash points", "anchors": ["src/filespec.rs::write_file"]}
{"id": "C61", "title": "Small match set behaves as an ordered set", "statement": "Collecting any sequence into the match set and iterating gives the distinct elements in first-occurrence order; Zero/One/Many reflect 0/1/>=2 distinct elements; size hints are exact.", "quantifier": "all sequences", "why_tests_cant": "all sequences", "anchors": ["src/merge/matchset.rs::MatchSet"]}
{"id": "C62", "title": "Ledger conversion round-trips", "statement": "Converting transactions to a ledger and back yields the same transactions (comments re-parsed), blank lines are dropped, and any other ledger item is an error.", "quantifier": "all ledgers", "why_tests_cant": "all ledgers", "anchors": ["src/internal.rs::TransactionPostings::from_ledger", "src/internal.rs::TransactionPostings::into_ledger", "src/ledgerutil.rs::ledger_from_transactions"]}
{"id": "C63", "title": "Stored postings never carry candidate tags", "statement": "No posting of a built journal has a candidate tag.", "quantifier": "every history", "why_tests_cant": "global invariant", "anchors": ["src/merge/posting.rs::Input::from_posting_internal", "src/merge/merger.rs::Merger::build"]}
{"id": "C64", "title": "Value cells are never poisoned", "statement": "A mutable value cell whose update functions return normally always holds the composition of the updates; after a panicking update every access panics.", "quantifier": "all update sequences", "why_tests_cant": "all sequences", "anchors": ["src/mutcell.rs::MutCell"]}
{"id": "C65", "title": "Overlapping downloads merge like one download", "statement": "Two downloads of the same account that overlap, imported and merged one after the other, succeed and give the journal that one download of the whole time gives. (True for downloads of whole days; two equal payments on a day that a download begins within are lost: counterexample. For rows that differ, exactly: true if and only if the second download does not begin within a day of the first, and no row that only the second one has shares date and sum, in or out, with a row of the first. PayPal files that are cut between moments: true if and only if no record that only the second one has shares day, currency and sum with a record of the first.)", "quantifier": "all journals so far, all splits of the rows of a statement, all hash iteration orders", "why_tests_cant": "needs all journals, all statements and all places where the downloads overlap", "anchors": ["src/importers/nationwide_csv.rs::process_rows", "src/merge/merger.rs::Merger::merge", "README.md"]}
{"id": "C66", "title": "Running merge again changes nothing", "statement": "When no comment line looks like a tag or value (so comments are read back as written) and the printed journal is parsed as printed: after a merge that wrote its journal with no unmerged transactions, merging that journal again with the imports succeeds and writes the same bytes: no file changes.", "quantifier": "all file systems, all earlier inputs and imports, all hash iteration orders", "why_tests_cant": "the example script checks one journal; the claim is about every journal and every set of imports", "anchors": ["run_examples.sh", "src/merge/cmd.rs::Command::run", "src/merge/sources.rs::read_ledger_file", "src/merge/merger.rs::Merger::merge", "src/comment.rs"]}
{"id": "C67", "title": "Running fmt or generate-fingerprints again changes nothing", "statement": "When the parser reads printed journals back as printed: after a successful fmt (or generate-fingerprints) a second successful run on the same files leaves the content of every file as it is, also when the random values, the standard input and the I/O faults differ.", "quantifier": "all file systems, file lists, random values and faults", "why_tests_cant": "needs all files, also the same file named twice", "anchors": ["src/fmt.rs::Command::run", "src/fpgen.rs::update_transactions", "src/filespec.rs::write_ledger_file"]}
{"id": "C68", "title": "A transfer seen from both accounts becomes one transaction", "statement": "A journal has one side of a transfer (known account and unknown account), an import has the other side on the same day, and nothing else of that day matches it. A successful merge makes one transaction of the two: the header of the first, both accounts known, both sets of fingerprints; nothing of it is handed back or kept a second time.", "quantifier": "all journals, all imports with other transactions, all hash iteration orders", "why_tests_cant": "needs all journals and all other imported transactions around the transfer", "anchors": ["README.md", "src/merge/merger.rs::Merger::merge", "src/merge/posting.rs::Holder::matches", "src/internal.rs::PostingInternal"]}
{"id": "C69", "title": "When merging keeps transactions balanced", "statement": "If whenever an input is merged all or none of the postings of each of its transactions are recognised in the journal, then every transaction of the journal has exactly the amounts of an input transaction; so balanced inputs make a balanced journal. (Without the condition they need not: counterexample.) Exactly: a merge call adds to each transaction the postings that are not recognised, of the input transactions of which some posting is recognised in it, and a balanced journal stays balanced by balanced input if, and only if, what is added to each transaction balances.", "quantifier": "all histories of merge calls, successful or not, all hash iteration orders", "why_tests_cant": "needs all histories", "anchors": ["README.md", "src/merge/merger.rs::Merger::merge", "src/merge/posting.rs"]}
{"id": "C70", "title": "Importing again with other rules adds nothing", "statement": "A statement was merged after applying rules. Merging it again later, after applying other rules, succeeds, leaves nothing over, and adds no transaction and no posting; only unknown accounts, tags, comments, status and balances are filled in. Neither rule table may add or remove fingerprint or candidate tags.", "quantifier": "all rule tables that leave fingerprints alone, all statements, all histories before and in between, all hash iteration orders", "why_tests_cant": "needs all rule tables and all histories", "anchors": ["src/rules/table/mod.rs::Action::apply", "src/rules/table/mod.rs::Table::update_transactions", "src/merge/merger.rs::Merger::merge", "README.md"]}
{"id": "C71", "title": "Which postings of a PDF statement share fingerprints", "statement": "If the hash function has no collision for the document, two different postings imported from a PDF statement share a fingerprint exactly if they are for two transactions that agree on date, number on that date, description and amount. None share one if the transactions of each date are next to each other and no transaction goes over to lines without its date, as at the end of a page.", "quantifier": "all documents that are imported, all hash functions without a collision for the document", "why_tests_cant": "needs all documents, and an argument that the hashed text determines the transaction", "anchors": ["src/importers/nationwide_pdf.rs::TransactionBuilder::build", "src/importers/nationwide_pdf.rs::TransactionsAccumulator::feed_line", "src/fingerprint.rs::FingerprintBuilder"]}
{"id": "C72", "title": "From a statement to the journal through files", "statement": "A statement is imported to a file, rules are applied to that file with the result in a second file, and the second file is merged with any other files to a third, all successfully. Then every imported transaction is in the third file: one transaction there has all its postings, recognised by all their fingerprints, and no fingerprint is there on two postings. With no other files, the third file has exactly the imported transactions, sorted by date and within a date in the order of import, with the same amounts, balances, status and fingerprints; and unless an operation on files fails the merge is successful exactly if the imported transactions all have postings, all postings have fingerprints and no candidate tags, and no fingerprint occurs twice. For a Nationwide CSV file with plain fields the last condition alone decides. The rules may not add or remove fingerprint or candidate tags, what they add must be words on one line, and (with no other files) they may not note a source file; printed ledgers are read as they were printed.", "quantifier": "all statements of all importers, all rule tables that meet the conditions, all other files, all states of the file system, all hash iteration orders", "why_tests_cant": "needs all statements, rule tables and other files, across three commands that communicate through text", "anchors": ["src/importers/cmd.rs::Command::run", "src/rules/cmd.rs", "src/merge/cmd.rs::Command::run", "src/merge/merger.rs::Merger::merge", "src/comment.rs", "src/internal.rs"]}
{"id": "C73", "title": "Writing and reading a comment loses no tags", "statement": "Whatever the text of a comment, every flag tag that is read from it is read again after the comment was written. No tag is new unless a key consists of nothing but white space, in which case part of a value can become a tag. If keys have no white space at their ends, every value with something other than white space in it is kept, without the white space around it.", "quantifier": "all comment texts, including untidy ones that C26 does not cover, all hash iteration orders", "why_tests_cant": "needs all texts; the exceptions are rare", "anchors": ["src/comment.rs::Comment::from_opt_comment", "src/comment.rs::Comment::into_opt_comment"]}
{"id": "C74", "title": "How a CSV file is laid out does not matter", "statement": "A text is the text of at most one table, and however a table is written (fields quoted or not where possible, any line ends, empty lines, a byte order mark), exactly its rows are read. So two Nationwide or PayPal files that are the same table up to white space around fields are imported alike, and so are two time zone tables with the same rows. Every table can be written, whatever characters are in its fields. The columns of the time zone table are found by their names, and its fields keep their white space.", "quantifier": "all tables, all ways of writing them, all library functions", "why_tests_cant": "unboundedly many tables and layouts, with quotes, delimiters and line ends inside fields", "anchors": ["src/importers/nationwide_csv.rs::get_transactions", "src/importers/paypal_csv.rs::get_transactions", "src/tzabbr.rs::TzAbbrDB::from_reader"]}
{"id": "C75", "title": "What Tesseract writes is read as it was written", "statement": "A TSV file with any records, whose numbers are of 32 bits and whose texts are words without tabs and line ends, is read as exactly these records. Whatever the file, a row is read as a record if, and only if, every field of the record is in the one column with its name, in any order and among other columns, and is a number of 32 bits where it must be one.", "quantifier": "all lists of records", "why_tests_cant": "needs all texts; it fails for texts that begin with a double quote, after which the rest of the file can be lost without an error", "anchors": ["src/importers/tesseract.rs::Document::from_tsv_reader"]}
{"id": "C76", "title": "Which order the pages of a statement are recognised in", "statement": "Every page is given to Tesseract once. The pages are in the order of the statement if, and only if, there are at most a hundred; in a longer statement page 101 comes before page 12. The exit status of neither program matters for the result.", "quantifier": "all numbers of pages, all behaviours of the two programs", "why_tests_cant": "a statement with more than a hundred pages is unlikely in a test, and the programs are not there in unit tests", "anchors": ["src/importers/nationwide_pdf.rs::ocr_document"]}
{"id": "C77", "title": "Which postings of a PayPal file share fingerprints", "statement": "If the hash function has no collision for the file, two different postings imported from a PayPal file share a fingerprint exactly if they are for two records with the same number in two different groups (the longest runs of records of the same moment) that agree on date, time, time zone, name, type, currency, amount and balance; status and receipt make no difference. None share one if the records of each moment are next to each other.", "quantifier": "all files that are imported, with and without legacy fingerprints, all hash functions without a collision for the file", "why_tests_cant": "needs all files, and an argument that the hashed text determines the record", "anchors": ["src/importers/paypal_csv.rs::PaypalCsv::read_transactions", "src/importers/paypal_csv.rs::PaypalCsv::form_postings", "src/importers/paypal_csv.rs::Record::from_csv_record"]}
{"id": "C78", "title": "Which encodings Nationwide CSV files can be in", "statement": "Every file is decoded, as Windows-1252: one character for each byte, no two files to the same text, ASCII to itself and nothing else to ASCII. A file that is UTF-8 in fact is read with the same rows and columns and every text outside ASCII changed; it is imported with the same result as the same text in Windows-1252 if its only character outside ASCII is the pound sign in front of sums. A UTF-8 file that begins with a byte order mark is never imported.", "quantifier": "all files, all texts of tables in any layout", "why_tests_cant": "the test files are in one encoding and have a pound sign as their only character outside ASCII", "anchors": ["src/importers/nationwide_csv.rs::NationwideCsv::get_transactions", "src/importers/nationwide_csv.rs::de"]}
{"id": "C79", "title": "What the command import does to the files it reads and writes", "statement": "A successful run has written to the one output file exactly what is imported from the contents that the files had before the run, also if the output is one of the files that are read, and no other file has changed. It succeeds, if no operation on files fails, exactly if the files are there and can be imported and the options fit together. From the bytes of a statement to the journal that import, apply-rules and merge make of it, no transaction is lost, added or put out of the order of dates. The last command succeeds exactly if no two postings of the statement share a fingerprint; for a file of PayPal that has records it succeeds only if the file was also imported with the old fingerprints.", "quantifier": "all file systems with any files that are the same, all importers, all faults, all rules that leave fingerprints alone", "why_tests_cant": "needs all failures of all operations and all ways in which arguments can name the same file", "anchors": ["src/importers/cmd.rs::Command::run", "src/filespec.rs::FileSpec::reader", "src/importers/nationwide_csv.rs::NationwideCsv::get_transactions", "src/importers/paypal_csv.rs::PaypalCsv::get_transactions"]}
{"id": "C80", "title": "Two files merged in either order give the same journal but for order", "statement": "If two files can be merged in either order and nothing is handed back, then the two journals have the same transactions but for their order: transactions that were not merged are the same in both, and a transaction that was merged has the same postings but for their order and for which of two postings was merged into the other; its header is that of the file that was first. The two ways of merging two postings give the same tags, status, comment lines and value tag names, and the same account unless it is unknown in both. If one order succeeds with nothing handed back, then the other does so too exactly if no posting of the file that was first, without a fingerprint in common with the other file, matches by date and what it says a posting that goes by its fingerprint, and no transaction of it is met by two transactions of the other; both conditions are needed. The same holds for two runs of the merge command with two files in either order, where the second run otherwise fails and writes nothing.", "quantifier": "all pairs of files, all hash orders", "why_tests_cant": "needs all pairs of files and the matching of all their postings at once", "anchors": ["src/merge/merger.rs::Merger::merge", "src/merge/merger.rs::Merger::build", "src/merge/posting.rs::IndexedPostings::find_matching_postings"]}
{"id": "C81", "title": "The exact text of fingerprints", "statement": "The fingerprint tags of imported postings are, byte for byte, what a fixed layout says: the prefix, the name and version of the algorithm (none of both in the old format), the namespace, and in base64 the SHA-1 of the values of the record in a fixed order, each in a fixed format (texts with their length in eight bytes, dates and times with their length, decimal numbers in sixteen bytes, optional values with a leading 0 or 1), so that a journal written by one version is recognised by another version that keeps the layout. The generated namespace is the first eight characters of such a hash of bank and account.", "quantifier": "all records of all three importers, all namespaces, all hash functions", "why_tests_cant": "golden values cover a few records; a changed layout for other values (negative years, long names, missing values, other positions of the commodity) goes unnoticed", "anchors": ["src/fingerprint.rs::Fingerprintable", "src/fingerprint.rs::Fingerprint::tag", "src/fingerprint.rs::Fingerprint::legacy_tag", "src/fingerprint.rs::Accumulator::into_base64", "src/importers/nationwide_csv.rs::RecordFive::fingerprint_v1", "src/importers/nationwide_csv.rs::RecordSix::fingerprint_v1", "src/importers/nationwide_csv.rs::RecordSix::fingerprint_legacy", "src/importers/nationwide_pdf.rs::TransactionBuilder::build", "src/importers/paypal_csv.rs::Record::from_csv_record", "src/importers/nationwide.rs::FpNamespace::make_namespace"]}
{"id": "C82", "title": "The order within the files decides nothing but the order of the journal", "statement": "Reordering the transactions of the files that are merged, and the postings within the transactions, makes no difference but for order: the same files are refused, the same transactions are handed back for the human with the same candidates, and the journal has the same transactions with the same postings (same tags, accounts, comments), but for the order of transactions and of postings in a transaction; and so for everything that is merged later. Only which of several errors is reported may differ. The same holds for runs of the merge command whose input files have the same transactions but for order: both fail without touching any file, or both succeed and write the same unmerged transactions (with the same candidates) and the same journal, but for order.", "quantifier": "all histories of merge calls, all reorderings of each file, all hash orders, all later calls", "why_tests_cant": "the number of orders is factorial, and the claim is about all histories and all later merges", "anchors": ["src/merge/merger.rs::Merger::merge", "src/merge/merger.rs::Merger::build", "src/merge/merger.rs::PendingMerges", "src/merge/posting.rs::IndexedPostings::find_matching_postings", "src/merge/cmd.rs::Command::run"]}
{"id": "C83", "title": "Files that have nothing to do with each other can be merged in any order or as one", "statement": "If of several files no two have postings that could be taken for each other (by a fingerprint, or by date and soft match), and no posting of the journal so far could be taken for postings of two of them, then the files can be merged in any order, on top of any journal, with the same result but for order, also for everything merged later; each file is refused or merged, and handed back, as if it were the only one; and two files merged one after the other give exactly the journal of the two merged as one file. The same holds for the order of such input files on the command line of merge, after whatever other files.", "quantifier": "all histories of merge calls, any number of files, all permutations, all hash orders", "why_tests_cant": "the number of orders of files is factorial, and the interplay of all postings of all files matters", "anchors": ["src/merge/merger.rs::Merger::merge", "src/merge/merger.rs::Merger::build", "src/merge/posting.rs::IndexedPostings::find_matching_postings", "src/merge/posting.rs::merge", "src/merge/cmd.rs::Command::run"]}
{"id": "C84", "title": "Whole sessions: files that are not written to stay, and tags in the journal are never lost", "statement": "Run the program any number of times with any subcommands over the same files. A file that none of the runs is told to write to is what it was, even if runs fail, writing fails or the machine stops at any moment. And if the journal is only written to by fmt, generate-fingerprints and merge, with merge reading the journal and writing it back (with no file for what is unmerged, or with the journal first and noting no sources), no write to it breaks off, and printed comments are parsed as printed, then all postings that stood together in a transaction at the beginning stand together in a transaction at the end, each with all tags it had, fingerprints included; only the mark for unknown accounts may be gone.", "quantifier": "all sessions of any length, all subcommands and arguments, all file contents, all faults and moments of a crash (first part)", "why_tests_cant": "the sequences of commands and contents of files are unbounded", "anchors": ["src/main.rs::main", "src/merge/cmd.rs::Command::run", "src/fpgen.rs::Cmd::run", "src/fmt.rs::Cmd::run", "src/rules/cmd.rs::Command::run", "src/importers/cmd.rs::Command::run"]}
{"id": "C85", "title": "Through any session a journal only grows", "statement": "If in every run of a session that writes to the journal the command is fmt, generate-fingerprints, or merge with the journal as its first input and its output, the journal notes no sources, ledgers are parsed as they were printed, no write to it breaks off and no comment key is blank, then every transaction with postings of the journal at the beginning is still there at the end, each as one of its own: same date, effective date, status, code and description, its postings in order, further postings only behind them, and every posting with the same amount, reality, balance if it had one, status but for clearing, account unless it was marked as unknown, and all tags but that mark.", "quantifier": "all sessions of any length, all arguments, all file contents and all other input files", "why_tests_cant": "the sequences of commands and contents of files are unbounded", "anchors": ["src/main.rs::main", "src/merge/cmd.rs::Command::run", "src/merge/merger.rs::Merger::merge", "src/fpgen.rs::Cmd::run", "src/fmt.rs::Cmd::run", "src/internal.rs::TransactionPostings"]}
{"id": "C86", "title": "Sessions with rules: tags that no rule removes are never lost from the journal", "statement": "Take tags of any kind, the mark for unknown accounts excepted. Run the program any number of times over the same files, as in C84, and also with apply-rules reading the journal and writing it back, with rules that remove no tag of that kind from a posting (at any depth of All) and that add only tags and values that can be told apart in a comment; the rules may change anything else they can change, and may differ from run to run and depend on the files. No write to the journal breaks off, and printed comments are parsed as printed. Then all postings that stood together in a transaction at the beginning stand together in a transaction at the end, with all their tags of that kind. In particular no fingerprint is lost if no rule removes fingerprints.", "quantifier": "all kinds of tags, all sessions of any length, all rule tables, arguments and file contents", "why_tests_cant": "the sequences of commands, the rule tables and the contents of files are unbounded", "anchors": ["src/main.rs::main", "src/rules/cmd.rs::Command::run", "src/rules/processor.rs::update_transactions", "src/merge/cmd.rs::Command::run", "src/fpgen.rs::Cmd::run", "src/fmt.rs::Cmd::run"]}
{"id": "C87", "title": "No session changes what the journal says about money", "statement": "Run the program any number of times over the same files. If every run that writes to the journal is fmt, generate-fingerprints, apply-rules (any rules at all) reading the journal and writing it back, or merge with the journal as its first input and its output and the journal noting no sources, no write to it breaks off, and ledgers are parsed with the dates, statuses, codes, amounts, balances and realities that were printed (comments, accounts and descriptions may be mangled), then every transaction with postings of the journal at the beginning is still there at the end, each as one of its own: same date, effective date, status and code, its postings in order and further postings only behind them, and every posting with the same amount and reality, the same balance if it had one, and the same status but for clearing or for adding one.", "quantifier": "all sessions of any length, all rule tables, arguments, file contents and all other input files", "why_tests_cant": "the sequences of commands, the rule tables and the contents of files are unbounded", "anchors": ["src/main.rs::main", "src/rules/cmd.rs::Command::run", "src/merge/cmd.rs::Command::run", "src/merge/posting.rs::merge", "src/fpgen.rs::Cmd::run", "src/fmt.rs::Cmd::run"]}
{"id": "C88", "title": "Resolving a whole unmerged transaction by hand", "statement": "A transaction that was handed back is edited as the README says and merged: the candidate tags of each posting are removed, after choosing one (removing its prefix) on some of the postings. A posting for which a fingerprint was chosen goes into the one journal posting that bears it, whatever the date and whatever else was edited. If a choice was made for every posting, the transaction is never handed back again: it is merged exactly if the chosen fingerprints are on different postings of one transaction of the journal, and then the journal is the same but for the chosen postings, each of which has taken in its own; otherwise it is refused. In general it is handed back exactly if some posting is still unclear, and merged exactly if none is and the destinations are different postings of one transaction; then the postings that were not unclear join the same transaction. If the call had merged nothing, choosing on one posting only, as the README literally says, is not enough: every posting that had candidates needs a choice of its own. With files: if the user puts unmerged transactions of one source into a file, with a choice for every posting, then merging the written journal with this file succeeds exactly if the choices can be carried out, leaves nothing unmerged and writes the same journal but for the chosen postings; otherwise nothing is written.", "quantifier": "all histories of calls, inputs, transactions handed back, ways of choosing and editing, hash orders", "why_tests_cant": "histories, transactions and choices are unbounded; a test resolves one posting of one transaction", "anchors": ["README.md (Matching algorithm, 2)", "src/merge/merger.rs::Merger::merge", "src/merge/merger.rs::Merger::check_pending", "src/merge/merger.rs::Merger::determine_posting_action", "src/merge/posting.rs::IndexedPostings::find_matching_postings"]}
{"id": "C89", "title": "Numbers do not get too large", "statement": "The importers compute with integers of 32 and 64 bits: the number of a row within its date, the sequence number in the tag, pence from pounds, positions of words and lines, seconds of an offset. For Nationwide CSV files with fewer than 2^31 records and no 17 digits in a row in a field, for documents with fewer than 2^31 - 1 lines and positions of at most 2^29, and for all time zone offsets, no result is too large for its type: the program does the same as with unbounded integers, whether it is built to check for overflow or to wrap around.", "quantifier": "all files, documents, offsets within the stated sizes, and all behaviours of arithmetic on overflow", "why_tests_cant": "the sizes at which numbers get too large are beyond any test file, and a test runs one kind of build", "anchors": ["src/importers/nationwide_csv.rs::NationwideCsv::process_rows", "src/importers/nationwide_csv.rs::GbpValueVisitor::visit_str", "src/importers/nationwide_pdf.rs::NationwidePdf::lines_to_transactions", "src/importers/nationwide_pdf.rs::TransactionsAccumulator::feed_line", "src/importers/tesseract.rs::Word::horiz_bounds", "src/tzabbr.rs::parse_utc_offset"]}
{"id": "C90", "title": "A command that failed or was stopped can be repeated if it writes elsewhere", "statement": "If operations on files fail during a run of any command, the run does a first part of what it would have done without the failure, and if it succeeds it does all of it. What a run does depends on no file but those it reads. So if no file that a command may write to is one of those it reads (nor matters for its rules), then after any number of attempts that failed at any operation or were stopped at any moment, with any orders of hash sets, the command run without trouble ends as it would have ended without the attempts and leaves all files as if there had been none. For an output that is also an input this is false: the repeated run succeeds and the journal is gone.", "quantifier": "all commands, files, faults, moments of stopping, hash orders, numbers of attempts", "why_tests_cant": "needs every operation to fail and every moment to be a crash, for all files", "anchors": ["src/filespec.rs::write_file", "src/merge/cmd.rs::Command::run", "src/importers/cmd.rs::Command::run", "src/rules/cmd.rs::Command::run"]}
{"id": "C91", "title": "The same payments from two sources", "statement": "Two sources (for example a CSV file and a PDF file of one statement) report payments and share no fingerprint. Merged one after the other, a payment that both report becomes one transaction, with the fingerprints of both, exactly if on its day no posting of the second report may be a posting of another payment of the first source; otherwise the second report is handed back with a candidate tag for each posting it may be, and the first stays as it is. Payments that only one source reports are kept as they are. For payments with two postings, as the importers make them, the condition says: the sum is not zero and no other payment of the first source on that day is of the same sum, paid or received. For a Nationwide CSV file without legacy fingerprints and a PDF file with the same entries this holds in either order.", "quantifier": "all pairs of sources, CSV files, documents, numbers of payments, hash orders", "why_tests_cant": "whether a match is unique depends on all other payments of the same day in the other source", "anchors": ["src/merge/merger.rs::Merger::merge", "src/merge/posting.rs::IndexedPostings::find_matching_postings", "src/merge/posting.rs::matches", "src/importers/nationwide_csv.rs::NationwideCsv::process_rows", "src/importers/nationwide_pdf.rs::NationwidePdf::lines_to_transactions"]}
{"id": "C92", "title": "However the days of an account are downloaded, the journal is the same", "statement": "Let W be all transactions of an account that can be downloaded, such that merging them into the journal at once would succeed with nothing left over, and what the journal already knows of them it has under their dates. Download any days (whole days, the transactions of each in the same order), in any order, with any gaps, overlaps and repetitions, into any number of files, and merge these in any number of runs with the journal written and read in between. No run fails, nothing is left over, and the journal at the end is exactly (order included) that of merging at once the transactions of all days that were downloaded; so if all days were, that of merging W.", "quantifier": "all journals, transactions, sets of days, files, runs, hash orders", "why_tests_cant": "the orders and overlaps of any number of downloads and runs cannot be enumerated", "anchors": ["src/merge/merger.rs::Merger::merge", "src/merge/merger.rs::Merger::build", "src/merge/posting.rs::IndexedPostings::find_matching_postings", "src/merge/cmd.rs::Command::run"]}
{"id": "C93", "title": "Rules can be applied before or after merging", "statement": "Let the rules leave fingerprints and candidate tags alone, and let no posting of one file have a fingerprint of a posting of another file, or its date, amount and balance (whatever the accounts are). Then applying the rules to each file and merging the results gives a journal if and only if merging the files and applying the rules to the merged journal does, and both give the same journal, order included. The rules fail for the merged journal exactly if they fail for one of the files. For the commands: if the rules find nothing to do in the journal, apply-rules to a new file followed by merge, and merge followed by apply-rules to the journal in place, leave the same bytes in the journal file. Without the condition on the postings this is false: two postings that merge would take for each other can be told apart after the rules gave them different accounts.", "quantifier": "all rule tables, files, hash orders, runs", "why_tests_cant": "a comparison of two orders of two programs over all rule tables and all inputs", "anchors": ["src/rules/table/mod.rs::Table::update_transactions", "src/merge/merger.rs::Merger::merge", "src/rules/cmd.rs::Command::run", "src/merge/cmd.rs::Command::run"]}
{"id": "C94", "title": "The journal says what the bank says", "statement": "Merge the statement of a bank into a journal. Let every posting that the journal has of the account be one that the bank knows (a posting of the statement is taken for it), and let postings of the statement only be taken for postings of the same amount. Then for every day and commodity the sum of the postings of the account until this day is the same in the new journal as in the statement; it does not matter in which files of whole days the statement is downloaded. So if the balances on the statement are right, the journal has, at the end of every day, what the bank says. If no posting of the journal can be taken for one of the statement and the statement goes on where the journal ends, the balances hold after every posting of the new journal. For Nationwide CSV files with a column of balances: if the column adds up and the rows are in order, the balances in a journal made from any downloads of the days hold after every posting. The same holds for the PDF statements of an account, one after the other, in which only some lines have a balance, and for PayPal files, in which each currency has a balance of its own. Within a day this is false for postings that are merged with those of another bank.", "quantifier": "all journals, statements, accounts, commodities, days, ways to download, files", "why_tests_cant": "an equality of sums for all journals, statements and ways to merge them, and the correctness of all balance assertions", "anchors": ["src/merge/merger.rs::Merger::merge", "src/merge/merger.rs::Merger::build", "src/merge/posting.rs::IndexedPostings::find_matching_postings", "src/importers/nationwide_csv.rs::NationwideCsv::get_transactions", "src/importers/nationwide_pdf.rs::NationwidePdf::get_transactions", "src/importers/paypal_csv.rs::PaypalCsv::get_transactions"]}
{"id": "C95", "title": "Success means that everything was printed", "statement": "The program prints texts on standard output, which is a line buffer in front of a file descriptor whose calls can fail in any way and at any time. If no call fails, everything is printed. Whatever fails, what is printed in the end is the beginning of the texts, one after the other. If the program reports success, what is missing is at most 1024 bytes after the last end of line; so if the texts end with an end of line and the program reports success, everything was printed. One text can be lost in part without an error if and only if it has an unfinished last line of less than 1024 bytes. If every text ends with an end of line, the program with the buffer behaves like the model in which standard output is written at once, for some schedule of failures. If standard output is closed, the program reports success and prints nothing.", "quantifier": "all lists of texts, all behaviours of the file descriptor", "why_tests_cant": "every call to the operating system can fail after any number of bytes; the error of the last flush is invisible to a test of the result", "anchors": ["src/filespec.rs::FileSpec::writer", "src/filespec.rs::write_file", "src/main.rs::main"]}
{"id": "C96", "title": "When every transaction of every file becomes one of the journal", "statement": "Files are merged into one journal. Everything is merged and every transaction of every file becomes a transaction of the journal of its own, if and only if each file could be merged alone and no posting of a file can be taken for one of another: they share no fingerprint, and those of the same date do not match by what they say. The journal then has all transactions, unchanged and sorted by date. For files of Nationwide (CSV files of five or six columns and PDF statements, of one or several accounts, in any mixture but that of PDF statements and legacy fingerprints) and a hash function without collisions for them, the condition is that no two rows of different files have the same date and sum, be it paid in or paid out; for PDF statements, a statement can be merged alone if and only if no two of its transactions agree on date, number on that date, description and amount. Without the condition a transaction gets lost with success: a rent on the first line of a statement is taken for the salary on the last line of the one before, of the same date and amount.", "quantifier": "all lists of files, orders of hash maps, transactions, files of the bank, hash functions without collisions for them", "why_tests_cant": "an equivalence for all lists of files: tests show it for some files, and neither that nothing else is lost nor that everything excluded is", "anchors": ["src/merge/merger.rs::Merger::merge", "src/merge/merger.rs::Merger::build", "src/merge/posting.rs::IndexedPostings::find_matching_postings", "src/importers/nationwide_csv.rs::NationwideCsv::get_transactions", "src/importers/nationwide_pdf.rs::NationwidePdf::get_transactions"]}
{"id": "C97", "title": "Runs at the same time", "statement": "Several runs of the program, of any commands, share the files, and their steps (opening or creating a file, reading or writing one byte) come in any order. A run that reads and writes only files to which no other run may write does at any moment part of what it does alone, comes to an end after some number of its own steps, and has then done all of it with the same result, whatever the others do to each other. If this holds for all runs, the files are at any moment what they are after the commands run one after the other, in any order, each as far as it has come. Otherwise it is false: a command that reads before it writes can see the files at any moment of another run and overwrite what that run wrote, and both report success; of two merges into one journal one can be lost, and with fmt the whole journal. What is in a file is at any moment the bytes that any of the runs wrote since it was last created, at each place the last one, with zeros in gaps; two runs that write to the same file at once can leave any mixture of their texts, and even if each writes its text in one go the end of the longer one can stay behind the shorter one.", "quantifier": "all numbers of processes, commands, contents of files, orders of steps, operations that fail", "why_tests_cant": "the number of orders of steps is exponential, and which one happens is up to the operating system", "anchors": ["src/filespec.rs::FileSpec::reader", "src/filespec.rs::FileSpec::writer", "src/filespec.rs::write_file", "src/merge/cmd.rs::Command::run", "src/fmt.rs::Cmd::run"]}
{"id": "C98", "title": "Running merge again and again settles", "statement": "merge is run again and again with the journal that it wrote before and the same other files, of N transactions. A run hands back only transactions that the run before it has handed back too, and nothing of the journal; if it does not hand back fewer, the journal stays the same. A run that is refused is refused for ever. After N + 1 runs the journal is what it is after any larger number of runs, and the file is the same byte for byte. The second run can merge what was unclear in the first, and it can fail although the first succeeded.", "quantifier": "all journals, files, numbers of runs, orders of hash maps", "why_tests_cant": "any number of runs, each on the output of the one before, for all journals and files", "anchors": ["src/merge/merger.rs::Merger::merge", "src/merge/merger.rs::Merger::build", "src/merge/cmd.rs::Command::run"]}
{"id": "C99", "title": "A pipe does what a file between two commands does", "statement": "A command that prints instead of writing to a file succeeds in the same cases, prints what would be in the file and does the same to other files. A command that reads standard input instead of a file succeeds in the same cases and does the same, whatever the file contains; with merge, if the text has no notes of sources, only the notes of sources in what is unmerged differ. fmt - and generate-fingerprints - print what would be in the file and touch none. So two commands joined by a pipe leave the same files as with a file between them. If the first one fails or is stopped, then it has printed a first part of its output; a command behind it that gets nothing succeeds: apply-rules leaves a journal without transactions, and merge does what it does without that input.", "quantifier": "all commands with such arguments, all files and texts, all faults and points where a run is stopped, all orders of hash maps", "why_tests_cant": "all commands and contents, and all faults at all operations of both runs", "anchors": ["src/filespec.rs::FileSpec::reader", "src/filespec.rs::FileSpec::writer", "src/filespec.rs::read_ledger_file", "src/filespec.rs::write_ledger_file", "src/merge/cmd.rs::Command::run", "src/rules/cmd.rs::Command::run", "src/main.rs::main"]}
{"id": "C100", "title": "The same rules can be written in other ways", "statement": "A table of rules does the same to every transaction, with the same error or the same changes, or goes on for ever in the same cases, if: rules that apply to nothing or do nothing are left out; rules behind one that applies to everything and returns are left out; two rules that return and never both apply change places; two rules with the same action that return become one; a predicate is written in another way; two rules that apply to everything become one; nested lists of actions become one; a chain is written in place of a jump to it if none of its rules returns or nothing comes behind it; a chain is added that nothing jumps to; or any number of such steps, in either direction. So rules that do not return, or the last rules of a chain, can be moved into a chain of their own. Chains can get other names. Rules that return cannot be moved out of the middle of a chain.", "quantifier": "all tables, transactions, numbers of steps, regexes", "why_tests_cant": "all tables of rules, with jumps of any depth, and all transactions", "anchors": ["src/rules/table/mod.rs::Chain::apply", "src/rules/table/mod.rs::Rule::apply", "src/rules/table/mod.rs::Action::apply", "src/rules/table/mod.rs::Table::update_transaction"]}
{"id": "C101", "title": "A journal that was edited by hand", "statement": "Files were merged into a journal with nothing left over, and then the journal was edited by hand: dates, descriptions, accounts, amounts, comments, tags, other transactions and postings, in any way that leaves the fingerprints of each posting on one posting, those of one transaction in one transaction and those of two postings on two. Then a run with the edited journal and any of the same files succeeds, hands back nothing and adds no transaction and no posting. Headers, amounts, given balances and added lines and tags stay as they were edited, and so does the account of a posting without the tag unknown-account. Lines, tags and values of tags that the file has come back. The journal stays exactly as it is if the postings of the file have nothing to tell that it does not have. If all postings of a file have fingerprints in the journal but they are not so distributed, the run is refused.", "quantifier": "all journals, edits, files, hash orders, numbers of merges", "why_tests_cant": "all ways to edit a journal, whatever was merged into it", "anchors": ["src/merge/merger.rs::Merger::merge", "src/merge/posting.rs::merge", "src/comment.rs::Comment::merge_from", "src/merge/posting.rs::IndexedPostings"]}
{"id": "C102", "title": "What merging looks at", "statement": "Write all inputs of a run in another way: accounts, commodities, numbers, dates, tags and comment lines of postings each by a map, values of tags and headers, apart from the date, by any map. If the maps keep different accounts, commodities, fingerprints and lines different, keep numbers equal that are equal and no others, keep the order of dates, and keep which tags are fingerprints, candidate tags and unknown-account, then the run is refused if it was refused before, and otherwise makes the same journal and hands back the same transactions, written in the other way. And only then: if the maps do not keep one of these, there is a run that comes to something else. So merging looks at nothing but these.", "quantifier": "all renamings, numbers of inputs, inputs, hash orders", "why_tests_cant": "it is about all inputs and all maps, and says that nothing else has an influence", "anchors": ["src/merge/posting.rs::IndexedPostings", "src/merge/posting.rs::merge", "src/merge/merger.rs::Merger::merge", "src/comment.rs::Comment::merge_from", "src/merge/transaction.rs"]}
{"id": "C103", "title": "Deleted transactions and statements with more", "statement": "A journal was edited by hand, with transactions deleted, and a statement is merged into it, of which some transactions have fingerprints in the journal, all of whose postings are recognised in one transaction, and the others have none and are like nothing in it. The run succeeds and hands back nothing; the journal keeps its transactions, with the known postings of the statement brought into them, and gets exactly the other transactions, as they are in the statement. So a deleted transaction comes back when its statement is merged again. It does not if the statement has a like payment on the same day that is still in the journal: then the run is refused.", "quantifier": "all journals, numbers of statements, statements, hash orders", "why_tests_cant": "it is about every edit of a journal and every overlap of statements", "anchors": ["src/merge/merger.rs::Merger::merge", "src/merge/posting.rs::IndexedPostings", "src/merge/posting.rs::merge", "src/merge/transaction.rs", "src/merge/cmd.rs"]}
{"id": "C104", "title": "What rules look at", "statement": "What rules write into a transaction, or the error that they report, is determined by the description, if the transaction has postings, and the accounts and tags of its postings, in their order. Dates, amounts, comment lines, the tags of the header and everything else have no influence and stay as they are. And each of these parts has an influence: two transactions agree in all of them if and only if there is no table of rules that fails for one and not for the other.", "quantifier": "all tables of rules, transactions, numbers of postings", "why_tests_cant": "it is about all rules, and says that something has no influence", "anchors": ["src/rules/table/mod.rs::Table::update_transaction", "src/rules/table/mod.rs::Action::apply", "src/rules/table/predicate.rs::Predicate::is_match", "src/rules/table/ctx.rs", "src/rules/cmd.rs"]}
{"id": "C105", "title": "Applying rules again", "statement": "If no predicate of a table of rules reads a place (account, description, a tag of the posting) that an action of it writes, and no replacement of descriptions changes what such a replacement gives, then applying the rules to their own result changes nothing. The same holds for any rules if the chain start is for postings with a mark only and takes the mark away at its end. So a second run of apply-rules on the written file succeeds and leaves it as it is. The rules in examples/rules.ron are of neither kind: applied twice they mark every posting as one whose account is not known, whatever they had found, and the third time they change nothing. After that, accounts play no role when something is merged into that journal, and two payments of one day and sum from two accounts can become one.", "quantifier": "all tables of rules, depths of jumps, transactions; for the example all journals", "why_tests_cant": "all tables and all journals; that a second run changes nothing depends on what every rule reads and writes", "anchors": ["src/rules/table/mod.rs::Table::update_transactions", "src/rules/table/mod.rs::Action::apply", "src/rules/table/predicate.rs::Predicate::is_match", "src/rules/cmd.rs::Command::run", "examples/rules.ron"]}
{"id": "C106", "title": "The example rules and Nationwide statements", "statement": "The rules in examples/rules.ron pass validation in every order of the chains, never touch fingerprints or candidate tags, and never fail on any journal. For every Nationwide CSV statement whose fields have no newline they give one transaction for each row, in the order of the rows: the own posting gets assets:nationwide:current or assets:nationwide:savings if the account is named Current or Savings, the other one expenses:petty for money that went out as ATM Withdrawal, income:salary for Payroll and income:interest for rows of type Interest (six columns only) that came in; a posting is marked unknown-account exactly if none of these applies. With them, and without faults, such a statement gets into the journal exactly if no two of its postings share a fingerprint.", "quantifier": "all statements, libraries for dates and numbers, namespaces, hash orders; all systems of files without faults", "why_tests_cant": "all statements; the example is not run by any test of the project", "anchors": ["examples/rules.ron", "src/rules/table/mod.rs::Table::validate", "src/rules/table/mod.rs::Table::update_transactions", "src/importers/nationwide_csv.rs::get_transactions", "src/importers/nationwide.rs", "src/merge/cmd.rs::Command::run"]}
{"id": "C107", "title": "The order of postings and of transactions under rules", "statement": "Rules are applied to the postings of a transaction one after the other, with one header for all of them. If no rule looks at descriptions, or no rule replaces them, each posting becomes what it becomes if it is the only posting of the transaction, and the rules fail for the transaction exactly if they fail for one of its postings alone; so with the postings in another order each becomes the same, in its new place. If besides no tag of headers is added by one rule and removed by another, no key of headers is given two values or set and removed, and replacements of descriptions can be exchanged, the header becomes the same too. Both conditions are needed: without the first one a posting depends on those before it, without the second one the header depends on the order. With all rules whatever, transactions in another order become the same ones, in their new places; two runs of apply-rules on journals with the same transactions in different orders both fail and write nothing, or both write the same transactions. The rules in examples/rules.ron meet both conditions.", "quantifier": "all tables of rules, transactions, numbers and orders of postings and transactions, files", "why_tests_cant": "all tables of rules with all permutations of postings", "anchors": ["src/rules/table/mod.rs::Table::update_transaction", "src/rules/table/mod.rs::Table::update_transactions", "src/rules/table/mod.rs::Chain::apply", "src/rules/table/mod.rs::Action::apply", "src/rules/cmd.rs"]}
{"id": "C108", "title": "Payments downloaded again with another status", "statement": "The status of a PayPal payment is not part of its fingerprint, since it may change on a future import. A PayPal file is imported and merged, perhaps among other files, with nothing left over, and the journal may have been edited by hand since, in any way that keeps fingerprints together and apart. Later the same payments are downloaded again, of which some have other statuses or receipts. Then the later file is imported too, with the same transactions, accounts, amounts, balances and tags; merging it into the journal succeeds and hands back nothing, and no payment is in the journal twice. Each posting for one of the payments gets the strongest of the status it has and the one in the file, so that pending ones become cleared and cleared ones stay cleared; its account, amount and reality stay, and a balance is added only where there is none. All other postings stay as they are. More generally the same holds for merging any file that has the same fingerprints as one that was merged before.", "quantifier": "all PayPal files, statuses, receipts, histories of merge calls, edits of the journal, orders of iteration", "why_tests_cant": "all pairs of downloads, with all histories and edits between them", "anchors": ["src/importers/paypal_csv.rs::Record::from_csv_record", "src/importers/paypal_csv.rs::form_postings", "src/importers/paypal_csv.rs::form_transaction", "src/merge/posting.rs", "src/merge/merger.rs::Merger::merge"]}
{"id": "C109", "title": "A journal with fingerprints of an older version", "statement": "The option to include legacy fingerprints moves a journal over from an older version. A journal has the transactions of a statement with the fingerprints an older version made, perhaps edited by hand in any way that keeps fingerprints together and apart, and none of those that are made now. The statement is imported with the option, and no two of its postings share a fingerprint. Then merging it succeeds and hands back nothing, no transaction is added, and every posting gets the new fingerprints. From then on, also after further edits by hand, the statement of a Nationwide account can be imported without the option, and merging it succeeds and hands back nothing. For PayPal the option must stay, since without it merging never succeeds. Import with the option gives, posting for posting, the fingerprints of import without it and at most one more. Without the option a statement with two payments of the same amount on one day is handed back.", "quantifier": "all statements, journals, edits of the journal before and after, orders of iteration, library functions", "why_tests_cant": "all statements and all journals made of them by another version, with all edits in between", "anchors": ["src/importers/nationwide_csv.rs::NationwideCsv::get_transactions", "src/importers/nationwide_csv.rs::RecordSix", "src/importers/paypal_csv.rs::form_postings", "src/fingerprint.rs::Fingerprint::legacy_tag", "src/merge/merger.rs::Merger::merge"]}
{"id": "C110", "title": "From a statement into a journal that is there already", "statement": "What is done each month: a statement is imported, rules are applied to the result, and that is merged into the journal, with files between the commands. The journal was edited by hand and may have some of the transactions already, and no rule touches fingerprints. Those of its transactions that have fingerprints in the journal can be found there, and no posting of the others has date, amount and balance of a posting in the journal, whatever the accounts. Then all three commands succeed (if no operation on files fails and what is printed can be read again), nothing is unmerged, and the journal that is written has each transaction that was there, with what the statement tells brought in, and each of the others exactly once, with the date, money and fingerprints of the import. It has the fingerprints of the journal before and of the whole statement, and it can be merged again: the statement then is known completely, also after further edits by hand.", "quantifier": "all statements of any kind, tables of rules, journals, files, orders of iteration", "why_tests_cant": "all combinations of statement, rules and journal through three commands", "anchors": ["src/importers/cmd.rs::Command::run", "src/rules/cmd.rs::Command::run", "src/merge/cmd.rs::Command::run", "src/merge/merger.rs::Merger::merge"]}
{"id": "C111", "title": "Arena indices are positions, also as keys of hash tables", "statement": "In an arena, a new entry never takes the place of one that is there, what was found before is found as before, and after an entry was removed its index is never found again, whatever is added later in its place. As long as nothing is removed, entries have the positions in which they were added and are found as in a list; taking postings out in `build` gives the same postings and the same panics as taking them from a list of which each entry can be taken once. The keys made of indices hash only the position and compare position and generation: for any hash function and any way in which the tables grow, the map of destinations in `check_pending` and the set of transactions in `find_existing_dest_trn` have exactly the entries of a map from positions, each once, and yield them in one of the orders that the rest of the model allows.", "quantifier": "all sequences of additions, changes and removals, all hash functions, ways of growing, pending actions", "why_tests_cant": "hash functions differ from run to run; collisions and growth at every moment cannot be tried out", "anchors": ["src/merge/posting.rs::IndexHashable", "src/merge/merger.rs::HashableTransactionIndex", "src/merge/posting.rs::ConsumePostings::take", "src/merge/merger.rs::Merger::check_pending", "src/merge/merger.rs::Merger::find_existing_dest_trn"]}
{"id": "C112", "title": "Functions of strings may be thought of as working on characters", "statement": "Rust's strings are bytes in UTF-8, and its functions work on the bytes. For all texts, including those with characters of several bytes: bytes compare as characters do, so that `sort` gives the order of character numbers; one text starts with another, or contains it, exactly when the bytes of the one start with or contain those of the other, since the bytes of a text are never found inside of or across characters; `replace` and `split` (at an ASCII character) applied to the bytes give the bytes of what they give for the characters, hence always valid text; `len` counts bytes.", "quantifier": "all texts, patterns, separators in ASCII", "why_tests_cant": "all texts with characters of one to four bytes; the tests of the project use ASCII only", "anchors": ["src/comment.rs::Comment", "src/merge/sources.rs", "src/rules/table/predicate.rs::StringMatch::matches_string", "src/importers/cmd.rs", "src/fingerprint.rs::is_fingerprint", "src/merge/posting.rs"]}
{"id": "C113", "title": "Of a file, only the ledger in it matters", "statement": "fmt, generate-fingerprints, apply-rules and merge take from a file only the ledger that is written in it (rules files aside). If every file holds the same ledger before and after somebody edits spacing or anything else that the parser does not see, then each of these commands writes the same bytes to the same files in the same order, draws the same random identifiers and succeeds or fails alike, also when it fails half-way; afterwards the files hold the same ledgers again, so this goes on for the commands that follow. What is in files that a command does not read does not matter at all; that is so for import as well. In particular running `fmt` before another command changes nothing about what that command does, provided that a printed ledger is read as the same ledger.", "quantifier": "all file systems that hold the same ledgers, all commands but import, their arguments, faults, hash orders, parsers and printers", "why_tests_cant": "ranges over all ways to write the same ledgers, all commands on them and all failures half-way", "anchors": ["src/filespec.rs::read_ledger_file", "src/fmt.rs::Cmd::run", "src/fpgen.rs::Cmd::run", "src/rules/cmd.rs", "src/merge/cmd.rs::Command::run", "src/merge/sources.rs::read_ledger_file"]}
