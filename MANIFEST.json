{
 "claims": [
  {
   "property": "C01",
   "status": "proved",
   "theorems": [
    "Verif.C01_failed_merge_changes_nothing",
    "Verif.C01_failed_merge_is_unobservable"
   ],
   "note": "Holds for every history, every hash iteration order and every way the call fails; also stated by observation (later results and builds)."
  },
  {
   "property": "C02",
   "status": "proved",
   "theorems": [
    "Verif.C02_merge_never_panics",
    "Verif.C02_build_never_fails"
   ],
   "note": "All expect/unwrap/panic sites of merger.rs, transaction.rs and mutcell.rs are explicit errors in the model; the theorem says none of them is ever the result."
  },
  {
   "property": "C03",
   "status": "proved",
   "theorems": [
    "Verif.C03_remerge_is_noop"
   ],
   "note": ""
  },
  {
   "property": "C04",
   "status": "proved",
   "theorems": [
    "Verif.C04_recognised_for_ever"
   ],
   "note": ""
  },
  {
   "property": "C05",
   "status": "proved",
   "theorems": [
    "Verif.C05_fingerprints_are_unique"
   ],
   "note": ""
  },
  {
   "property": "C06",
   "status": "proved",
   "theorems": [
    "Verif.C06_nothing_is_lost"
   ],
   "note": ""
  },
  {
   "property": "C07",
   "status": "proved",
   "theorems": [
    "Verif.C07_journal_only_grows"
   ],
   "note": ""
  },
  {
   "property": "C08",
   "status": "proved",
   "theorems": [
    "Verif.C08_fingerprints_first"
   ],
   "note": ""
  },
  {
   "property": "C09",
   "status": "proved",
   "theorems": [
    "Verif.C09_soft_match",
    "Verif.C09_symmetric",
    "Verif.C09_reflexive",
    "Verif.C09_soft_match_decides"
   ],
   "note": "Stated by the README relation (Spec/Book.lean, SoftMatch); the date is the one the posting is filed under, see C20."
  },
  {
   "property": "C10",
   "status": "proved",
   "theorems": [
    "Verif.C10_handed_back",
    "Verif.C10_no_influence"
   ],
   "note": ""
  },
  {
   "property": "C11",
   "status": "proved",
   "theorems": [
    "Verif.C11_bad_inputs",
    "Verif.C11_which_error"
   ],
   "note": "Both the set of bad inputs and which error is reported for them."
  },
  {
   "property": "C12",
   "status": "proved",
   "theorems": [
    "Verif.C12_parts_are_accepted",
    "Verif.C12_others_do_not_matter"
   ],
   "note": ""
  },
  {
   "property": "C13",
   "status": "proved",
   "theorems": [
    "Verif.C13_merging_never_touches_money",
    "Verif.C13_money_never_changes"
   ],
   "note": ""
  },
  {
   "property": "C14",
   "status": "proved",
   "theorems": [
    "Verif.C14_sorted",
    "Verif.C14_stable",
    "Verif.C14_start"
   ],
   "note": ""
  },
  {
   "property": "C15",
   "status": "proved",
   "theorems": [
    "Verif.C15_journal_is_deterministic",
    "Verif.C15_errors_are_deterministic",
    "Verif.C15_unmerged_is_deterministic"
   ],
   "note": "Journal and errors are the same for all orders; the transactions handed back agree up to the choice of the fingerprint named (see C16)."
  },
  {
   "property": "C16",
   "status": "partial",
   "theorems": [
    "Verif.C16_exact",
    "Verif.C16_counterexample",
    "Verif.C16_partial"
   ],
   "note": "As stated the property is false (C16_counterexample: two runs hand back different candidate tags). C16_exact says exactly when it holds: every candidate for an unclear posting has one fingerprint. C16_partial is the direction that also covers two different histories of orders. Missing: nothing but the false part."
  },
  {
   "property": "C17",
   "status": "proved",
   "theorems": [
    "Verif.C17_journal_is_fixed_point"
   ],
   "note": ""
  },
  {
   "property": "C18",
   "status": "proved",
   "theorems": [
    "Verif.C18_merging_with_all_inputs"
   ],
   "note": ""
  },
  {
   "property": "C19",
   "status": "proved",
   "theorems": [
    "Verif.C19_resolve_by_hand"
   ],
   "note": ""
  },
  {
   "property": "C20",
   "status": "partial",
   "theorems": [
    "Verif.C20_partial",
    "Verif.C20_counterexample",
    "Verif.C20_exact"
   ],
   "note": "As stated false (C20_counterexample: a posting merged into a transaction of another date stays filed under its own old date until the journal is written and read again). C20_partial: one run and two runs agree if no posting was added to a transaction of another date. C20_exact: conversely, whenever they agree on everything that can be merged afterwards, no posting was. What is missing is only what is false."
  },
  {
   "property": "C21",
   "status": "proved",
   "theorems": [
    "Verif.C21_empty_transactions"
   ],
   "note": ""
  },
  {
   "property": "C22",
   "status": "proved",
   "theorems": [
    "Verif.C22_idempotent",
    "Verif.C22_self",
    "Verif.C22_replay",
    "Verif.C22_fingerprints_union",
    "Verif.C22_stays_known"
   ],
   "note": ""
  },
  {
   "property": "C23",
   "status": "proved",
   "theorems": [
    "Verif.C23_groups",
    "Verif.C23_nothing_lost",
    "Verif.C23_deterministic"
   ],
   "note": ""
  },
  {
   "property": "C24",
   "status": "proved",
   "theorems": [
    "Verif.C24_sources_in_outputs"
   ],
   "note": ""
  },
  {
   "property": "C25",
   "status": "proved",
   "theorems": [
    "Verif.C25_source_names",
    "Verif.C25_fails_before_writing",
    "Verif.C25_unmerged_before_output",
    "Verif.C25_succeeds_otherwise"
   ],
   "note": ""
  },
  {
   "property": "C26",
   "status": "proved",
   "theorems": [
    "Verif.C26_round_trip"
   ],
   "note": ""
  },
  {
   "property": "C27",
   "status": "partial",
   "theorems": [
    "Verif.C27_counterexample",
    "Verif.C27_partial",
    "Verif.C27_plain_partial",
    "Verif.C27_fixed",
    "Verif.C27_exact",
    "Verif.C27_settles",
    "Verif.C27_white",
    "Verif.C27_trim"
   ],
   "note": "As stated false (C27_counterexample: 'k:' oscillates; text that looks like a value moves). C27_partial gives a sufficient condition on the parsed comment, C27_plain_partial one on the text. C27_exact and C27_fixed: the texts that do not change any more are exactly those of stable comments; C27_settles: every text, written five times, alternates between at most two texts. C27_white and C27_trim say what counts as white space and what trim leaves. What is missing is only what is false."
  },
  {
   "property": "C28",
   "status": "proved",
   "theorems": [
    "Verif.C28_parts",
    "Verif.C28_none"
   ],
   "note": ""
  },
  {
   "property": "C29",
   "status": "proved",
   "theorems": [
    "Verif.C29_tags",
    "Verif.C29_values",
    "Verif.C29_lines",
    "Verif.C29_idempotent",
    "Verif.C29_associative"
   ],
   "note": ""
  },
  {
   "property": "C30",
   "status": "proved",
   "theorems": [
    "Verif.C30_layout",
    "Verif.C30_absent_iff_empty",
    "Verif.C30_sorted"
   ],
   "note": ""
  },
  {
   "property": "C31",
   "status": "proved",
   "theorems": [
    "Verif.C31_semantics",
    "Verif.C31_not_matching",
    "Verif.C31_after_return",
    "Verif.C31_return_from_jump"
   ],
   "note": ""
  },
  {
   "property": "C32",
   "status": "partial",
   "theorems": [
    "Verif.C32_counterexample",
    "Verif.C32_partial",
    "Verif.C32_exact",
    "Verif.C32_deep"
   ],
   "note": "As stated false (C32_counterexample: validation does not look inside All). C32_partial: a missing chain can only be one that a rule jumps to from inside an All. C32_exact: a run fails for want of a chain exactly if the calls between chains lead from the start to a missing one; C32_deep: a validation that looks inside All is enough. What is missing is only what is false."
  },
  {
   "property": "C33",
   "status": "partial",
   "theorems": [
    "Verif.C33_counterexample",
    "Verif.C33_partial",
    "Verif.C33_exact",
    "Verif.C33_exact_code",
    "Verif.C33_circles"
   ],
   "note": "As stated false (C33_counterexample: chains that jump to each other pass validation and have no result). C33_partial: terminates if no reachable chain can jump back to itself, with a bound on the nesting. C33_exact: there is no result exactly if the calls between chains go on for ever from a context in which the start chain is run; C33_circles: if the rules can write finitely many descriptions, exactly if a chain is run again in the same context. What is missing is only what is false."
  },
  {
   "property": "C34",
   "status": "proved",
   "theorems": [
    "Verif.C34_unchanged"
   ],
   "note": ""
  },
  {
   "property": "C35",
   "status": "proved",
   "theorems": [
    "Verif.C35_no_journal",
    "Verif.C35_posting",
    "Verif.C35_writes_nothing"
   ],
   "note": ""
  },
  {
   "property": "C36",
   "status": "proved",
   "theorems": [
    "Verif.C36_meaning",
    "Verif.C36_laws"
   ],
   "note": ""
  },
  {
   "property": "C37",
   "status": "proved",
   "theorems": [
    "Verif.C37_each_file_once",
    "Verif.C37_errors",
    "Verif.C37_terminates",
    "Verif.C37_succeeds_iff"
   ],
   "note": ""
  },
  {
   "property": "C38",
   "status": "proved",
   "theorems": [
    "Verif.C38_one_fingerprint_each",
    "Verif.C38_idempotent",
    "Verif.C38_second_run_writes_the_same"
   ],
   "note": ""
  },
  {
   "property": "C39",
   "status": "proved",
   "theorems": [
    "Verif.C39_mergeable"
   ],
   "note": ""
  },
  {
   "property": "C40",
   "status": "proved",
   "theorems": [
    "Verif.NationwideCsv.C40_nationwide_five",
    "Verif.NationwideCsv.C40_nationwide_six",
    "Verif.NationwideCsv.C40_nationwide_six_legacy",
    "Verif.PaypalCsv.C40_paypal",
    "Verif.NationwidePdf.C40_nationwide_pdf"
   ],
   "note": "One theorem per algorithm; conditions are the integer and length ranges of the Rust types."
  },
  {
   "property": "C41",
   "status": "proved",
   "theorems": [
    "Verif.C41_text",
    "Verif.C41_tag",
    "Verif.C41_legacy_tag",
    "Verif.C41_tag_ne_legacy"
   ],
   "note": ""
  },
  {
   "property": "C42",
   "status": "proved",
   "theorems": [
    "Verif.C42_tag",
    "Verif.C42_legacy_tag",
    "Verif.C42_read_back"
   ],
   "note": ""
  },
  {
   "property": "C43",
   "status": "proved",
   "theorems": [
    "Verif.C43_accepted_iff",
    "Verif.C43_error"
   ],
   "note": ""
  },
  {
   "property": "C44",
   "status": "proved",
   "theorems": [
    "Verif.NationwideCsv.C44_nationwide_csv",
    "Verif.NationwidePdf.C44_nationwide_pdf",
    "Verif.PaypalCsv.C44_paypal"
   ],
   "note": ""
  },
  {
   "property": "C45",
   "status": "proved",
   "theorems": [
    "Verif.NationwideCsv.C45_accepted",
    "Verif.NationwideCsv.C45_five",
    "Verif.NationwideCsv.C45_six"
   ],
   "note": ""
  },
  {
   "property": "C46",
   "status": "partial",
   "theorems": [
    "Verif.NationwideCsv.C46_five",
    "Verif.NationwideCsv.C46_six",
    "Verif.NationwideCsv.C46_six_legacy",
    "Verif.NationwideCsv.C46_five_partial",
    "Verif.NationwideCsv.C46_six_partial",
    "Verif.NationwideCsv.C46_false",
    "Verif.NationwideCsv.C46_legacy_differs"
   ],
   "note": "As stated false (C46_false: equal rows of a date with another date in between). C46_five, C46_six and C46_six_legacy say exactly when fingerprints are distinct, for plain fields and no SHA-1 collision on the file; the _partial theorems are the case that rows of a date are next to each other. Missing: only the false part."
  },
  {
   "property": "C47",
   "status": "partial",
   "theorems": [
    "Verif.NationwideCsv.C47_nationwide_csv_merge",
    "Verif.PaypalCsv.C47_paypal_false",
    "Verif.NationwideCsv.C47_nationwide_csv",
    "Verif.NationwidePdf.C47_nationwide_pdf",
    "Verif.NationwidePdf.C47_nationwide_pdf_merge",
    "Verif.PaypalCsv.C47_paypal_partial",
    "Verif.PaypalCsv.C47_paypal_merge"
   ],
   "note": "True for Nationwide CSV and PDF. False for PayPal without legacy fingerprints (C47_paypal_false: merge rejects every such file that has rows); C47_paypal_partial: with the legacy option all postings have one, without it the own postings; C47_paypal_merge: exactly the imports that can be merged."
  },
  {
   "property": "C48",
   "status": "proved",
   "theorems": [
    "Verif.NationwideCsv.C48_five",
    "Verif.NationwideCsv.C48_six",
    "Verif.NationwideCsv.C48_error"
   ],
   "note": ""
  },
  {
   "property": "C49",
   "status": "proved",
   "theorems": [
    "Verif.C49_exact",
    "Verif.C49_too_big",
    "Verif.C49_accepted",
    "Verif.C49_digits",
    "Verif.C49_misread"
   ],
   "note": "C49_exact, C49_accepted and C49_too_big are the claim for '\u00a3P.QQ'; C49_misread shows strings of other forms that are accepted and misread (\u00a31.5 is read as 1.05)."
  },
  {
   "property": "C50",
   "status": "proved",
   "theorems": [
    "Verif.PaypalCsv.C50_days",
    "Verif.PaypalCsv.C50_instant",
    "Verif.PaypalCsv.C50_groups",
    "Verif.PaypalCsv.C50_accepted",
    "Verif.PaypalCsv.C50_runs"
   ],
   "note": "C50_days and C50_instant tie the day count used for the instant to the Gregorian calendar (Spec/Calendar.lean)."
  },
  {
   "property": "C51",
   "status": "proved",
   "theorems": [
    "Verif.NationwidePdf.C51_groups",
    "Verif.NationwidePdf.C51_accepted",
    "Verif.NationwidePdf.C51_transactions",
    "Verif.NationwidePdf.C51_numbers",
    "Verif.NationwidePdf.C51_page_break"
   ],
   "note": "Includes C51_page_break: a transaction that goes over a page break is split (finding)."
  },
  {
   "property": "C52",
   "status": "proved",
   "theorems": [
    "Verif.C52_accepted_iff",
    "Verif.C52_numbered",
    "Verif.C52_contents",
    "Verif.C52_once"
   ],
   "note": ""
  },
  {
   "property": "C53",
   "status": "proved",
   "theorems": [
    "Verif.C53_overlaps_iff",
    "Verif.C53_words",
    "Verif.C53_symmetric",
    "Verif.C53_empty_box"
   ],
   "note": "C53_empty_box: a box of width zero inside a column counts as overlapping it (finding)."
  },
  {
   "property": "C54",
   "status": "proved",
   "theorems": [
    "Verif.TzAbbr.C54_accepted_iff",
    "Verif.TzAbbr.C54_errors",
    "Verif.TzAbbr.C54_opposite"
   ],
   "note": ""
  },
  {
   "property": "C55",
   "status": "proved",
   "theorems": [
    "Verif.TzAbbr.C55_accepted_iff",
    "Verif.TzAbbr.C55_lookup"
   ],
   "note": ""
  },
  {
   "property": "C56",
   "status": "proved",
   "theorems": [
    "Verif.C56_option",
    "Verif.C56_generated",
    "Verif.C56_generated_distinct",
    "Verif.NationwidePdf.C56_account_name_pdf"
   ],
   "note": "Includes the finding that account-name never works for PDF statements (the account name has characters that namespaces may not have)."
  },
  {
   "property": "C57",
   "status": "proved",
   "theorems": [
    "Verif.C57_replace",
    "Verif.C57_output",
    "Verif.C57_run",
    "Verif.C57_succeeds_iff",
    "Verif.C57_slashes"
   ],
   "note": "Includes C57_slashes: namespaces with '/' change the directory of the output (finding)."
  },
  {
   "property": "C58",
   "status": "proved",
   "theorems": [
    "Verif.C58_fmt",
    "Verif.C58_generate_fingerprints",
    "Verif.C58_contents"
   ],
   "note": ""
  },
  {
   "property": "C59",
   "status": "proved",
   "theorems": [
    "Verif.C59_fmt",
    "Verif.C59_generate_fingerprints",
    "Verif.C59_merge",
    "Verif.C59_import",
    "Verif.C59_apply_rules"
   ],
   "note": ""
  },
  {
   "property": "C60",
   "status": "partial",
   "theorems": [
    "Verif.C60_counterexample",
    "Verif.C60_fmt_partial",
    "Verif.C60_generate_fingerprints_partial",
    "Verif.C60_merge_partial",
    "Verif.C60_moments",
    "Verif.C60_exact",
    "Verif.C60_exact_command",
    "Verif.C60_import_files_moment",
    "Verif.C60_loses",
    "Verif.C60_fmt_moment",
    "Verif.C60_generate_fingerprints_moment",
    "Verif.C60_merge_moment",
    "Verif.C60_apply_rules_moment",
    "Verif.C60_import_moment",
    "Verif.C60_import_partial",
    "Verif.C60_apply_rules_partial"
   ],
   "note": "As stated false (C60_counterexample: files are truncated before they are written). The _partial theorems, one per command: at the moments between the writes of two files every file has its complete old or new contents, and only the outputs are touched. Missing: moments inside a write, where it is false. C60_moments says exactly what can be in a file at some moment; C60_import_files_moment and the like: in every successful run the output is empty at some moment; C60_exact exactly when the claim holds; C60_exact_command that for a successful run that writes each file once it holds only if all texts are empty or are one byte for an empty file."
  },
  {
   "property": "C61",
   "status": "proved",
   "theorems": [
    "Verif.MatchSet.C61_iteration",
    "Verif.MatchSet.C61_unique",
    "Verif.MatchSet.C61_cases"
   ],
   "note": ""
  },
  {
   "property": "C62",
   "status": "proved",
   "theorems": [
    "Verif.C62_read",
    "Verif.C62_write",
    "Verif.C62_reread",
    "Verif.C62_round_trip",
    "Verif.C62_rewrite"
   ],
   "note": ""
  },
  {
   "property": "C63",
   "status": "proved",
   "theorems": [
    "Verif.C63_no_candidate_tags"
   ],
   "note": ""
  },
  {
   "property": "C64",
   "status": "proved",
   "theorems": [
    "Verif.MutCell.C64_value",
    "Verif.MutCell.C64_poisoned",
    "Verif.MutCell.C64_cases",
    "Verif.MutCell.C64_eq"
   ],
   "note": ""
  },
  {
   "property": "C65",
   "status": "partial",
   "theorems": [
    "Verif.C65_overlap",
    "Verif.NationwideCsv.C65_parts",
    "Verif.NationwideCsv.C65_downloads_partial",
    "Verif.NationwideCsv.C65_false",
    "Verif.C65_exact",
    "Verif.NationwideCsv.C65_five",
    "Verif.NationwideCsv.C65_six",
    "Verif.PaypalCsv.C65_paypal_parts",
    "Verif.PaypalCsv.C65_paypal"
   ],
   "note": "C65_overlap is the merger's part, for all transactions; C65_parts that imports of whole days are parts of the import of the whole; C65_downloads_partial the claim for downloads of whole days. C65_false: for downloads that begin within a day it is false. C65_exact says exactly when it holds for any transactions, C65_five and C65_six exactly for which downloads of different rows; C65_paypal_parts and C65_paypal the same for PayPal files that are cut between moments. Missing: only the false part."
  },
  {
   "property": "C66",
   "status": "proved",
   "theorems": [
    "Verif.C66_merge_again"
   ],
   "note": "Hypotheses: comment lines that do not look like tags or values, and a printer/parser pair that reads back what was printed."
  },
  {
   "property": "C67",
   "status": "proved",
   "theorems": [
    "Verif.C67_fmt_again",
    "Verif.C67_generate_fingerprints_again"
   ],
   "note": "Hypothesis: a printer/parser pair that reads back what was printed."
  },
  {
   "property": "C68",
   "status": "proved",
   "theorems": [
    "Verif.C68_transfer"
   ],
   "note": ""
  },
  {
   "property": "C69",
   "status": "proved",
   "theorems": [
    "Verif.C69_amounts_of_an_input",
    "Verif.C69_balanced",
    "Verif.C69_half_recognised_unbalances",
    "Verif.C69_added",
    "Verif.C69_exact"
   ],
   "note": "C69_half_recognised_unbalances shows that the condition is needed."
  },
  {
   "property": "C70",
   "status": "proved",
   "theorems": [
    "Verif.C70_other_rules"
   ],
   "note": "Neither rule table may add or remove fingerprint or candidate tags (decidable condition on the tables)."
  },
  {
   "property": "C71",
   "status": "proved",
   "theorems": [
    "Verif.NationwidePdf.C71_shared",
    "Verif.NationwidePdf.C71_days"
   ],
   "note": "Exact condition (C71_shared) and a sufficient one in terms of the statement (C71_days)."
  },
  {
   "property": "C72",
   "status": "proved",
   "theorems": [
    "Verif.C72_nothing_lost",
    "Verif.C72_fresh",
    "Verif.C72_succeeds",
    "Verif.NationwideCsv.C72_nationwide_csv"
   ],
   "note": "Hypothesis: a printer/parser pair that reads back what was printed. C72_nothing_lost is for any other files, C72_fresh, C72_succeeds and C72_nationwide_csv for none."
  },
  {
   "property": "C73",
   "status": "proved",
   "theorems": [
    "Verif.C73_no_tag_lost",
    "Verif.C73_same_tags",
    "Verif.C73_tag_from_value",
    "Verif.C73_values_kept"
   ],
   "note": "C73_tag_from_value shows that the condition on blank keys is needed."
  },
  {
   "property": "C74",
   "status": "proved",
   "theorems": [
    "Verif.TzAbbr.C74_timezones",
    "Verif.C74_paypal",
    "Verif.Csv.C74_table",
    "Verif.Csv.C74_unique",
    "Verif.Csv.C74_exists",
    "Verif.C74_nationwide",
    "Verif.C74_layout"
   ],
   "note": "The reader of the crate csv is modelled, see Verif/Base/Csv.lean."
  },
  {
   "property": "C75",
   "status": "partial",
   "theorems": [
    "Verif.Csv.C75_numbers",
    "Verif.Tesseract.C75_columns",
    "Verif.Tesseract.C75_table",
    "Verif.Tesseract.C75_read_partial",
    "Verif.Tesseract.C75_rest_lost",
    "Verif.Tesseract.C75_exact",
    "Verif.Tesseract.C75_page_lost"
   ],
   "note": "False for texts that begin with a double quote: C75_rest_lost, C75_page_lost. C75_exact says exactly when a file is read as written. Missing in C75_read_partial: such texts."
  },
  {
   "property": "C76",
   "status": "proved",
   "theorems": [
    "Verif.Ocr.C76_names",
    "Verif.Ocr.C76_once",
    "Verif.Ocr.C76_exact",
    "Verif.Ocr.C76_wrong_order",
    "Verif.Ocr.C76_result",
    "Verif.Ocr.C76_exit_ignored"
   ],
   "note": "That glob sorts names and that pages are counted from 0 is taken from the documentation of the programs."
  },
  {
   "property": "C77",
   "status": "proved",
   "theorems": [
    "Verif.PaypalCsv.C77_shared",
    "Verif.PaypalCsv.C77_ordered",
    "Verif.PaypalCsv.C77_needs_order"
   ],
   "note": "Exact condition (C77_shared), a sufficient one (C77_ordered) and a file that shows that it is needed (C77_needs_order)."
  },
  {
   "property": "C78",
   "status": "proved",
   "theorems": [
    "Verif.Windows1252.C78_decode",
    "Verif.Windows1252.C78_unchanged",
    "Verif.Windows1252.C78_utf8_table",
    "Verif.Windows1252.C78_pounds",
    "Verif.Windows1252.C78_bom"
   ],
   "note": "The decoder of the crate encoding_rs is modelled from the WHATWG table; that no byte order mark is looked for is taken from its documentation."
  },
  {
   "property": "C79",
   "status": "proved",
   "theorems": [
    "Verif.C79_journal",
    "Verif.C79_pdf_journal",
    "Verif.C79_paypal_journal",
    "Verif.C79_argument",
    "Verif.C79_run",
    "Verif.C79_succeeds_iff",
    "Verif.C79_contents",
    "Verif.C79_crash",
    "Verif.C79_nationwide_csv",
    "Verif.C79_nothing_lost",
    "Verif.C79_nationwide_journal"
   ],
   "note": "The way from a statement to the journal: C79_journal for every kind of statement, with C79_nationwide_journal, C79_pdf_journal and C79_paypal_journal saying exactly when the merge succeeds."
  },
  {
   "property": "C80",
   "status": "proved",
   "theorems": [
    "Verif.C80_either_order",
    "Verif.C80_exact",
    "Verif.C80_postings",
    "Verif.C80_soft",
    "Verif.C80_order_matters",
    "Verif.C80_split_matters",
    "Verif.C80_commands"
   ],
   "note": ""
  },
  {
   "property": "C81",
   "status": "proved",
   "theorems": [
    "Verif.C81_base64",
    "Verif.C81_values",
    "Verif.NationwideCsv.C81_five",
    "Verif.NationwideCsv.C81_six",
    "Verif.NationwideCsv.C81_six_legacy",
    "Verif.PaypalCsv.C81_paypal",
    "Verif.NationwidePdf.C81_pdf",
    "Verif.C81_namespace"
   ],
   "note": ""
  },
  {
   "property": "C82",
   "status": "proved",
   "theorems": [
    "Verif.C82_order_within_files",
    "Verif.C82_error_differs",
    "Verif.C82_merge_command"
   ],
   "note": ""
  },
  {
   "property": "C83",
   "status": "proved",
   "theorems": [
    "Verif.C83_any_order",
    "Verif.C83_on_its_own",
    "Verif.C83_one_file",
    "Verif.C83_first_come",
    "Verif.C83_merge_command"
   ],
   "note": ""
  },
  {
   "property": "C84",
   "status": "proved",
   "theorems": [
    "Verif.C84_untouched",
    "Verif.C84_tags",
    "Verif.C84_simple"
   ],
   "note": "C84_untouched is the first part; C84_tags the second, C84_simple its case with conditions on the commands alone."
  },
  {
   "property": "C85",
   "status": "proved",
   "theorems": [
    "Verif.C85_only_grows"
   ],
   "note": ""
  },
  {
   "property": "C86",
   "status": "proved",
   "theorems": [
    "Verif.C86_marks",
    "Verif.C86_fingerprints",
    "Verif.C86_simple"
   ],
   "note": "C86_marks is the claim, C86_fingerprints its case for fingerprints, C86_simple its case with conditions on the commands and rules alone."
  },
  {
   "property": "C87",
   "status": "proved",
   "theorems": [
    "Verif.C87_money"
   ],
   "note": ""
  },
  {
   "property": "C88",
   "status": "proved",
   "theorems": [
    "Verif.C88_outcome",
    "Verif.C88_chosen",
    "Verif.C88_every_posting_needs_a_choice",
    "Verif.C88_all_chosen",
    "Verif.C88_merged",
    "Verif.C88_commands"
   ],
   "note": "C88_all_chosen is the claim for a choice on every posting, C88_outcome and C88_merged for a choice on some, C88_every_posting_needs_a_choice the finding about the README; C88_commands the claim for two runs of the command with files, with several transactions resolved at once."
  },
  {
   "property": "C89",
   "status": "proved",
   "theorems": [
    "Verif.NationwideCsv.C89_csv",
    "Verif.NationwidePdf.C89_pdf",
    "Verif.TzAbbr.C89_offset",
    "Verif.C89_position",
    "Verif.C89_large"
   ],
   "note": "C89_csv, C89_pdf and C89_offset together; C89_large and C89_position show that the conditions matter."
  },
  {
   "property": "C90",
   "status": "proved",
   "theorems": [
    "Verif.C90_cut",
    "Verif.C90_only_reads",
    "Verif.C90_run_again",
    "Verif.C90_session",
    "Verif.C90_in_place"
   ],
   "note": "C90_session is the claim; C90_cut and C90_only_reads are the first two sentences; C90_in_place shows that the condition is needed."
  },
  {
   "property": "C91",
   "status": "proved",
   "theorems": [
    "Verif.C91_twice",
    "Verif.C91_payment",
    "Verif.C91_statement",
    "Verif.C91_commands",
    "Verif.C91_csv_pdf"
   ],
   "note": "C91_twice is the first claim, C91_payment and C91_statement the condition on sums, C91_csv_pdf the statement in both formats, C91_commands the merge command."
  },
  {
   "property": "C92",
   "status": "proved",
   "theorems": [
    "Verif.C92_days",
    "Verif.C92_run",
    "Verif.C92_commands",
    "Verif.NationwideCsv.C92_csv",
    "Verif.NationwideCsv.C92_downloads",
    "Verif.NationwideCsv.C92_new_journal",
    "Verif.PaypalCsv.C92_paypal",
    "Verif.PaypalCsv.C92_paypal_new"
   ],
   "note": "C92_days is the claim; C92_commands is the claim for runs of the merge command on files, C92_downloads and C92_new_journal from Nationwide CSV files of whole days, and C92_paypal and C92_paypal_new from PayPal files of whole days."
  },
  {
   "property": "C93",
   "status": "proved",
   "theorems": [
    "Verif.C93_either_way",
    "Verif.C93_errors",
    "Verif.C93_new_file",
    "Verif.C93_matters",
    "Verif.C93_commands"
   ],
   "note": "C93_either_way and C93_errors are the claim; C93_new_file is the case of one new file, and C93_commands is the claim for runs of the commands on files. C93_matters shows that the condition on the postings is needed."
  },
  {
   "property": "C94",
   "status": "proved",
   "theorems": [
    "Verif.C94_every_day",
    "Verif.C94_downloads",
    "Verif.C94_closing_balance",
    "Verif.C94_in_order",
    "Verif.C94_within_a_day",
    "Verif.NationwideCsv.C94_six",
    "Verif.NationwideCsv.C94_csv",
    "Verif.PaypalCsv.C94_records",
    "Verif.PaypalCsv.C94_paypal",
    "Verif.NationwidePdf.C94_pdf",
    "Verif.NationwidePdf.C94_statements"
   ],
   "note": "C94_every_day, C94_downloads and C94_closing_balance are the claim for sums and balances at the end of a day; C94_in_order that for balances after every posting; C94_six and C94_csv that for CSV files, C94_pdf and C94_statements that for PDF statements, C94_records and C94_paypal that for PayPal files. C94_within_a_day shows that within a day the balances need not hold."
  },
  {
   "property": "C95",
   "status": "proved",
   "theorems": [
    "Verif.Stdout.C95_in_order",
    "Verif.Stdout.C95_missing",
    "Verif.Stdout.C95_success",
    "Verif.Stdout.C95_no_failure",
    "Verif.Stdout.C95_closed",
    "Verif.Stdout.C95_exact",
    "Verif.Stdout.C95_refines"
   ],
   "note": "C95_no_failure, C95_in_order, C95_missing, C95_success, C95_exact, C95_refines and C95_closed are the sentences of the claim."
  },
  {
   "property": "C96",
   "status": "proved",
   "theorems": [
    "Verif.NationwideCsv.C96_files",
    "Verif.C96_complete",
    "Verif.NationwidePdf.C96_statements",
    "Verif.NationwidePdf.C96_lost"
   ],
   "note": "C96_complete is the first part, for any files; C96_files and C96_statements are the second part, for those of the bank; C96_lost is the example in the last sentence."
  },
  {
   "property": "C97",
   "status": "proved",
   "theorems": [
    "Verif.C97_left_alone",
    "Verif.C97_ends",
    "Verif.C97_one_after_the_other",
    "Verif.C97_any_moment",
    "Verif.C97_lost_update",
    "Verif.C97_journal_gone",
    "Verif.C97_no_bus",
    "Verif.C97_what_is_kept",
    "Verif.C97_any_mixture",
    "Verif.C97_end_of_the_longer",
    "Verif.C97_zeros",
    "Verif.C97_two_buses"
   ],
   "note": "C97_left_alone, C97_ends and C97_one_after_the_other are the claim; C97_any_moment, C97_lost_update, C97_journal_gone and C97_no_bus are what can happen otherwise. C97_what_is_kept says what is in a file that several runs write to; C97_any_mixture, C97_end_of_the_longer, C97_zeros and C97_two_buses what two writers of one file can leave."
  },
  {
   "property": "C98",
   "status": "proved",
   "theorems": [
    "Verif.C98_less_and_less",
    "Verif.C98_refused_for_good",
    "Verif.C98_settles",
    "Verif.C98_repeated_run_fails",
    "Verif.C98_run",
    "Verif.C98_commands"
   ],
   "note": "C98_less_and_less, C98_refused_for_good and C98_settles are the claim for the calls, C98_commands for the files; C98_repeated_run_fails is a finding."
  },
  {
   "property": "C99",
   "status": "proved",
   "theorems": [
    "Verif.C99_print",
    "Verif.C99_feed",
    "Verif.C99_feed_merge",
    "Verif.C99_filter",
    "Verif.C99_pipe",
    "Verif.C99_pipe_merge",
    "Verif.C99_first_part",
    "Verif.C99_journal_emptied",
    "Verif.C99_nothing_merged",
    "Verif.C99_nothing_printed",
    "Verif.C99_cut_short"
   ],
   "note": "C99_print, C99_feed, C99_feed_merge and C99_filter are the claim for one command, C99_pipe and C99_pipe_merge for two; the other theorems are about a first command that fails or is stopped (C99_cut_short is a case)."
  },
  {
   "property": "C100",
   "status": "proved",
   "theorems": [
    "Verif.Rules.C100_exchange",
    "Verif.Rules.C100_rearranged",
    "Verif.Rules.C100_code",
    "Verif.Rules.C100_command",
    "Verif.Rules.C100_renamed",
    "Verif.Rules.C100_moved_out",
    "Verif.Rules.C100_end_moved_out",
    "Verif.Rules.C100_return_matters"
   ],
   "note": "C100_rearranged, C100_code and C100_command are the claim; C100_moved_out, C100_end_moved_out and C100_renamed are the cases named in it, C100_return_matters the last sentence."
  },
  {
   "property": "C101",
   "status": "proved",
   "theorems": [
    "Verif.C101_found",
    "Verif.C101_keeps",
    "Verif.C101_edited",
    "Verif.C101_kept",
    "Verif.C101_unchanged_iff",
    "Verif.C101_comes_back",
    "Verif.C101_recognised_iff",
    "Verif.C101_command"
   ],
   "note": "C101_edited (with C101_kept) and C101_command are the claim; C101_unchanged_iff, C101_comes_back and C101_recognised_iff are its last three sentences."
  },
  {
   "property": "C102",
   "status": "proved",
   "theorems": [
    "Verif.C102_harmless",
    "Verif.C102_exact",
    "Verif.C102_command"
   ],
   "note": "C102_exact is the claim (both directions); C102_command is C102_harmless for the command and its files."
  },
  {
   "property": "C103",
   "status": "proved",
   "theorems": [
    "Verif.C103_fits",
    "Verif.C103_deleted",
    "Verif.C103_twin",
    "Verif.C103_command"
   ],
   "note": "C103_fits is the first part of the claim (any number of files), C103_deleted and C103_twin are its last two sentences, C103_command is the same with files."
  },
  {
   "property": "C104",
   "status": "proved",
   "theorems": [
    "Verif.C104_depends",
    "Verif.C104_same",
    "Verif.C104_exact",
    "Verif.C104_command"
   ],
   "note": "C104_depends and C104_exact are the claim; C104_same is the first for lists of transactions, C104_command with files."
  },
  {
   "property": "C105",
   "status": "proved",
   "theorems": [
    "Verif.C105_again",
    "Verif.C105_guarded",
    "Verif.C105_example_once",
    "Verif.C105_example",
    "Verif.C105_command",
    "Verif.C105_example_command",
    "Verif.C105_example_matches",
    "Verif.C105_payment_lost"
   ],
   "note": "C105_again and C105_guarded are the first two claims, C105_command both with files, C105_example_once says exactly what the rules of the example do, C105_example, C105_example_command, C105_example_matches and C105_payment_lost are the finding about them."
  },
  {
   "property": "C106",
   "status": "proved",
   "theorems": [
    "Verif.C106_table",
    "Verif.NationwideCsv.C106_six",
    "Verif.NationwideCsv.C106_five",
    "Verif.C106_journal"
   ],
   "note": "C106_table is about validation and fingerprints, C105_example_once (repeated runs: C105) that the rules never fail, C106_six and C106_five say what is found for each row, C106_journal is the way into the journal. Fuel 4 is enough for the jumps of the example."
  },
  {
   "property": "C107",
   "status": "proved",
   "theorems": [
    "Verif.C107_alone",
    "Verif.C107_order",
    "Verif.C107_transactions",
    "Verif.C107_command",
    "Verif.C107_example",
    "Verif.C107_quarrel",
    "Verif.C107_seen"
   ],
   "note": "C107_alone: each posting as if alone; C107_order: postings in another order, header too with OneWay; C107_transactions and C107_command: transactions in another order; C107_example: the example rules meet the hypotheses; C107_seen and C107_quarrel: why they are needed."
  },
  {
   "property": "C108",
   "status": "proved",
   "theorems": [
    "Verif.C108_command",
    "Verif.C108_again",
    "Verif.PaypalCsv.C108_import",
    "Verif.PaypalCsv.C108_statuses",
    "Verif.PaypalCsv.C108_paypal",
    "Verif.PaypalCsv.C108_completed",
    "Verif.PaypalCsv.C108_example",
    "Verif.PaypalCsv.C108_balance"
   ],
   "note": "C108_again: any file with the fingerprints of one that was merged; C108_import and C108_statuses: what is imported from the later file; C108_paypal: what merging it does; C108_completed: completed payments become cleared; C108_command: the same for a run of merge with files; C108_example: the hypotheses are met; C108_balance: a case where balances differ, and the transaction does not balance any more."
  },
  {
   "property": "C109",
   "status": "proved",
   "theorems": [
    "Verif.C109_first",
    "Verif.C109_later",
    "Verif.NationwideCsv.C109_nationwide_import",
    "Verif.NationwideCsv.C109_nationwide",
    "Verif.NationwideCsv.C109_without",
    "Verif.PaypalCsv.C109_paypal_import",
    "Verif.PaypalCsv.C109_paypal",
    "Verif.C109_command"
   ],
   "note": "C109_first and C109_later are the claim for any files; C109_nationwide and C109_paypal for those of the importers, with C109_nationwide_import and C109_paypal_import; C109_command: the same for runs of merge with files; C109_without is the last sentence. For PayPal without the option see C47_paypal_false."
  },
  {
   "property": "C110",
   "status": "proved",
   "theorems": [
    "Verif.C110_again",
    "Verif.C110_month",
    "Verif.C110_commands"
   ],
   "note": "C110_month is the claim for any two runs of import and apply-rules that were successful; C110_commands with all three commands; C110_again is the last sentence."
  },
  {
   "property": "C111",
   "status": "proved",
   "theorems": [
    "Verif.GenArena.C111_insert",
    "Verif.GenArena.C111_stale",
    "Verif.GenArena.C111_positions",
    "Verif.C111_build",
    "Verif.C111_transactions",
    "Verif.C111_table",
    "Verif.C111_dests",
    "Verif.C111_candidates"
   ],
   "note": "C111_insert and C111_stale: the first sentence; C111_positions, C111_build and C111_transactions: the second; C111_table for any table, C111_dests and C111_candidates for those of merge: the third."
  },
  {
   "property": "C112",
   "status": "proved",
   "theorems": [
    "Verif.C112_order",
    "Verif.C112_len",
    "Verif.C112_sort",
    "Verif.C112_cut",
    "Verif.C112_startsWith",
    "Verif.C112_contains",
    "Verif.C112_replace",
    "Verif.C112_split"
   ],
   "note": "C112_order and C112_sort, C112_startsWith, C112_contains, C112_replace and C112_split are the claims one by one; C112_len is for `len`; C112_cut says where bytes of a text can be cut."
  },
  {
   "property": "C113",
   "status": "proved",
   "theorems": [
    "Verif.C113_reads",
    "Verif.C113_run",
    "Verif.C113_after",
    "Verif.C113_fmt_keeps",
    "Verif.C113_fmt_first",
    "Verif.C113_import"
   ],
   "note": "C113_reads is the claim for one run, also for runs that fail, with nothing assumed about files that the command does not read, and C113_run the same if all files hold the same ledgers; C113_import is what import depends on; C113_after says that the ledgers are the same again afterwards; C113_fmt_keeps and C113_fmt_first are the claim for fmt before another command, for a printer whose output is read as what was printed."
  }
 ]
}