{
 "claims": [
  {
   "property": "C01",
   "status": "proved",
   "theorems": [
    "Gledger.C01_delivered_balance"
   ],
   "note": "For every file system, handler, file and open-file limit; calls made before a failure included."
  },
  {
   "property": "C02",
   "status": "proved",
   "theorems": [
    "Gledger.C02_elided_inferred"
   ],
   "note": "Stated on the postings added in order with the builder's AddPosting, followed by Close."
  },
  {
   "property": "C03",
   "status": "proved",
   "theorems": [
    "Gledger.C03_unbalanced_rejected",
    "Gledger.C03_first_entry",
    "Gledger.C03_directly"
   ],
   "note": "Entry anywhere after a part that parses and a blank line; ended by end of file, blank line or header; arbitrary handlers and arbitrary following bytes."
  },
  {
   "property": "C04",
   "status": "partial",
   "theorems": [
    "Gledger.C04_exactly_partial",
    "Gledger.C04_all_amounts_false",
    "Gledger.C04_all_amounts_partial"
   ],
   "note": "The claim as stated is false of the code (C04_all_amounts_false gives the input). Proved: at most one posting lacks an amount, and only if the others already sum to zero (C04_all_amounts_partial); exactly which delivered postings lack one (C04_exactly_partial)."
  },
  {
   "property": "C05",
   "status": "partial",
   "theorems": [
    "Gledger.C05_elided_rejected_false",
    "Gledger.C05_last_elided_partial",
    "Gledger.C05_surplus_dropped_partial",
    "Gledger.C05_directly_partial"
   ],
   "note": "False of the code (C05_elided_rejected_false). Proved exactly: rejected if the last posting is one of the elided ones; otherwise accepted with all elided postings but the first dropped (C05_surplus_dropped_partial)."
  },
  {
   "property": "C06",
   "status": "partial",
   "theorems": [
    "Gledger.C06_accepted_texts_partial",
    "Gledger.C06_decimal_value_partial",
    "Gledger.C06_decimal_value_false",
    "Gledger.C06_rejected_false"
   ],
   "note": "False of the code (C06_decimal_value_false: 1.5; C06_rejected_false: --5). Proved: exact for numbers without a point or with two places, and an exact description of all accepted texts with the value each gets."
  },
  {
   "property": "C07",
   "status": "proved",
   "theorems": [
    "Gledger.C07_display_exact",
    "Gledger.C07_display_beyond_false"
   ],
   "note": "For all quantities of magnitude below 100*2^46, through the float64 division and the rounding of %.2f; C07_display_beyond_false shows that the bound matters."
  },
  {
   "property": "C08",
   "status": "proved",
   "theorems": [
    "Gledger.C08_display_parses_back"
   ],
   "note": "For all quantities of magnitude below 100*2^46."
  },
  {
   "property": "C09",
   "status": "partial",
   "theorems": [
    "Gledger.C09_too_large_false",
    "Gledger.C09_whole_too_large_partial"
   ],
   "note": "False of the code (C09_too_large_false). Proved: rejected iff the whole part does not fit in int64; otherwise stored modulo 2^64."
  },
  {
   "property": "C10",
   "status": "proved",
   "theorems": [
    "Gledger.C10_dates_accepted"
   ],
   "note": "Acceptance iff, error for other texts of five or more characters, crash for shorter ones."
  },
  {
   "property": "C11",
   "status": "proved",
   "theorems": [
    "Gledger.C11_format_parses_back",
    "Gledger.C11_comparison_is_calendar_order",
    "Gledger.C11_layout"
   ],
   "note": "Round trip for years 0 to 9999; instants compare as (year, month, day); consecutive days have consecutive numbers."
  },
  {
   "property": "C12",
   "status": "proved",
   "theorems": [
    "Gledger.C12_comment_lines"
   ],
   "note": "For every file system, handler, prefix and suffix; failures compared up to line numbers."
  },
  {
   "property": "C13",
   "status": "proved",
   "theorems": [
    "Gledger.C13_repeated_blank",
    "Gledger.C13_blank_before_header",
    "Gledger.C13_blank_at_end"
   ],
   "note": "Repeated blank line, blank before a header, blank at end of file; failures compared up to line numbers."
  },
  {
   "property": "C14",
   "status": "proved",
   "theorems": [
    "Gledger.C14_line_endings"
   ],
   "note": "Exact equality of the parse for LF, CRLF and missing final newline, for lines that fit the buffer."
  },
  {
   "property": "C15",
   "status": "proved",
   "theorems": [
    "Gledger.C15_files_compose",
    "Gledger.C15_first_part_fails"
   ],
   "note": "Both the case where the first part parses and the case where it fails."
  },
  {
   "property": "C16",
   "status": "proved",
   "theorems": [
    "Gledger.C16_tree_inlining",
    "Gledger.C16_include_is_inlining"
   ],
   "note": "C16_tree_inlining: any tree of files in which none is missing (C16_include_is_inlining is the one-level form, stated on bytes). Calls compared up to the file path, failures up to position."
  },
  {
   "property": "C17",
   "status": "proved",
   "theorems": [
    "Gledger.C17_cyclic_include_fails",
    "Gledger.C17_self_include_fails"
   ],
   "note": "For every limit on open files: direct self-inclusion and any set of files each of which includes one of the set."
  },
  {
   "property": "C18",
   "status": "partial",
   "theorems": [
    "Gledger.C18_labels_partial",
    "Gledger.C18_attribution_false",
    "Gledger.C18_single_file_partial",
    "Gledger.C18_include_partial"
   ],
   "note": "False of the code (C18_attribution_false). Proved: correct for a file without includes and for one level of includes met between transactions; C18_labels_partial gives the file name of every call for every tree of files (own file until the first include directive in it, the root file from then on)."
  },
  {
   "property": "C19",
   "status": "proved",
   "theorems": [
    "Gledger.C19_errors_name_line",
    "Gledger.C19_line_number_or_end"
   ],
   "note": "Root file without includes; the failing line is named and everything before it was processed; only the end of file failure has no number."
  },
  {
   "property": "C20",
   "status": "partial",
   "theorems": [
    "Gledger.C20_lines_partial",
    "Gledger.C20_exactly_partial",
    "Gledger.C20_otherwise_partial",
    "Gledger.C20_never_crashes_false",
    "Gledger.C20_safe_text_partial",
    "Gledger.C20_unsafe_fails_partial"
   ],
   "note": "False of the code (C20_never_crashes_false). Proved: no crash for every file accepted by the SafeText automaton, whatever other errors it has; a file not accepted by it never parses (C20_unsafe_fails_partial); exactly which lines crash the parser at which points (C20_lines_partial) and exactly which journals do (C20_exactly_partial, C20_otherwise_partial)."
  },
  {
   "property": "C21",
   "status": "proved",
   "theorems": [
    "Gledger.C21_long_line_is_fatal",
    "Gledger.C21_fitting_line_is_whole",
    "Gledger.C21_no_byte_lost"
   ],
   "note": "Fatal at the over-long line; fitting lines are whole; no byte lost in files without CR."
  },
  {
   "property": "C22",
   "status": "proved",
   "theorems": [
    "Gledger.C22_valid_text",
    "Gledger.C22_only_characters_matter",
    "Gledger.C22_every_byte_once"
   ],
   "note": "Valid text is decoded to its characters; the cursor-based lexer depends only on the decoded characters; bytes are divided into characters without gap or overlap."
  },
  {
   "property": "C23",
   "status": "partial",
   "theorems": [
    "Gledger.C23_header_line_partial",
    "Gledger.C23_date_partial",
    "Gledger.C23_header_note_false",
    "Gledger.C23_lost_character_partial",
    "Gledger.C23_blanks_after_lost_partial",
    "Gledger.C23_blanks_only_partial",
    "Gledger.C23_nothing_lost_partial"
   ],
   "note": "False of the code for header notes written after fewer than two blanks (C23_header_note_false). Proved: as written for every well-formed header line; otherwise the first character after the end of the payee is lost and the rest is the note (C23_lost_character_partial, C23_nothing_lost_partial; notes of blanks only: C23_blanks_after_lost_partial, C23_blanks_only_partial)."
  },
  {
   "property": "C24",
   "status": "proved",
   "theorems": [
    "Gledger.C24_posting_line",
    "Gledger.C24_amount_value"
   ],
   "note": "Every written posting is delivered with the account, commodity and quantity it was written with, for whole journals."
  },
  {
   "property": "C25",
   "status": "proved",
   "theorems": [
    "Gledger.C25_notes_attach"
   ],
   "note": "Notes under the header go to the transaction and those under a posting to that posting, in order, for whole journals."
  },
  {
   "property": "C26",
   "status": "partial",
   "theorems": [
    "Gledger.C26_no_line_ignored_false",
    "Gledger.C26_letter_line_partial",
    "Gledger.C26_ignored_partial"
   ],
   "note": "False of the code (C26_no_line_ignored_false). Proved: an indented line beginning with a letter is never ignored; every other indented line that is not a comment is ignored, wherever it stands (C26_ignored_partial)."
  },
  {
   "property": "C27",
   "status": "proved",
   "theorems": [
    "Gledger.C27_balance_is_sum",
    "Gledger.C27_no_amount_crashes"
   ],
   "note": "By induction over the list of postings; the postings must carry amounts, otherwise the program crashes (C27_no_amount_crashes)."
  },
  {
   "property": "C28",
   "status": "proved",
   "theorems": [
    "Gledger.C28_total_zero"
   ],
   "note": "Holds whenever the command prints a report, for all date flags and report forms. A transaction whose elided posting got no amount crashes the command before it prints anything; C61_runs says when it gets through."
  },
  {
   "property": "C29",
   "status": "proved",
   "theorems": [
    "Gledger.C29_parent_is_own_plus_children"
   ],
   "note": ""
  },
  {
   "property": "C30",
   "status": "proved",
   "theorems": [
    "Gledger.C30_find_or_create",
    "Gledger.C30_different"
   ],
   "note": ""
  },
  {
   "property": "C31",
   "status": "proved",
   "theorems": [
    "Gledger.C31_spelled",
    "Gledger.C31_path",
    "Gledger.C31_split",
    "Gledger.C31_reserved_names_cut",
    "Gledger.C31_head"
   ],
   "note": "A reserved name among the ancestors cuts the path (C31_reserved_names_cut); C31_path therefore excludes it, as the statement does; C31_spelled gives the path of every account without exception."
  },
  {
   "property": "C32",
   "status": "partial",
   "theorems": [
    "Gledger.C32_components_own_false",
    "Gledger.C32_three_levels_partial",
    "Gledger.C32_narrow_partial",
    "Gledger.C32_components_exact_partial",
    "Gledger.C32_shared_exactly_partial"
   ],
   "note": "False of the code (C32_components_own_false). Proved: exactly which names the components hold in every tree without reserved names, and which accounts share an array (C32_components_exact_partial, C32_shared_exactly_partial); they are the account's own down to three levels, and at all levels while no account from the third level on has two children."
  },
  {
   "property": "C33",
   "status": "proved",
   "theorems": [
    "Gledger.C33_order_irrelevant"
   ],
   "note": ""
  },
  {
   "property": "C34",
   "status": "proved",
   "theorems": [
    "Gledger.C34_shown",
    "Gledger.C34_unchanged",
    "Gledger.C34_no_zero",
    "Gledger.C34_nonzero_shown_false",
    "Gledger.C34_words"
   ],
   "note": "The user's expectation that no non-zero account is hidden is refuted (C34_nonzero_shown_false). Accounts named _root_ are never removed."
  },
  {
   "property": "C35",
   "status": "proved",
   "theorems": [
    "Gledger.C35_prune",
    "Gledger.C35_negative"
   ],
   "note": ""
  },
  {
   "property": "C36",
   "status": "proved",
   "theorems": [
    "Gledger.C36_remove"
   ],
   "note": ""
  },
  {
   "property": "C37",
   "status": "proved",
   "theorems": [
    "Gledger.C37_find_accounts",
    "Gledger.C37_leaves"
   ],
   "note": ""
  },
  {
   "property": "C38",
   "status": "proved",
   "theorems": [
    "Gledger.C38_flat_report"
   ],
   "note": "All trees, all prefixes that are never empty (the code tests the text so far for emptiness). A childless root is printed as a line of its own."
  },
  {
   "property": "C39",
   "status": "proved",
   "theorems": [
    "Gledger.C39_tree_report"
   ],
   "note": "All trees."
  },
  {
   "property": "C40",
   "status": "proved",
   "theorems": [
    "Gledger.C40_collapsed_report",
    "Gledger.C40_each_once"
   ],
   "note": "All trees; levels and chains are defined from the tree alone, and every account is shown on exactly one line."
  },
  {
   "property": "C41",
   "status": "proved",
   "theorems": [
    "Gledger.C41_order_irrelevant",
    "Gledger.C41_balance"
   ],
   "note": "All trees and all permutations of all child maps, for prefixes that do not themselves depend on the order; the balance prefix does not."
  },
  {
   "property": "C42",
   "status": "partial",
   "theorems": [
    "Gledger.C42_lines_and_own_postings",
    "Gledger.C42_lines_sum_partial",
    "Gledger.C42_lines_sum_false"
   ],
   "note": "False of the code (C42_lines_sum_false); the exact relation for all journals is C42_lines_and_own_postings, and the claim holds if nothing is posted to a parent."
  },
  {
   "property": "C43",
   "status": "proved",
   "theorems": [
    "Gledger.C43_evaluators_agree"
   ],
   "note": ""
  },
  {
   "property": "C44",
   "status": "proved",
   "theorems": [
    "Gledger.C44_whole",
    "Gledger.C44_any_of",
    "Gledger.C44_out_of_range",
    "Gledger.C44_order",
    "Gledger.C44_more_filters"
   ],
   "note": ""
  },
  {
   "property": "C45",
   "status": "proved",
   "theorems": [
    "Gledger.C45_filter_argument",
    "Gledger.C45_empty_argument_crashes"
   ],
   "note": "The empty argument crashes (C45_empty_argument_crashes)."
  },
  {
   "property": "C46",
   "status": "partial",
   "theorems": [
    "Gledger.C46_date_range_false",
    "Gledger.C46_days_partial",
    "Gledger.C46_date_range_partial",
    "Gledger.C46_west_partial"
   ],
   "note": "False of the code west of UTC (C46_date_range_false). Proved for zones from UTC to UTC+24h, transactions of year 1 on, either flag absent or present; C46_west_partial gives the exact range west of UTC (begin excluded, end included)."
  },
  {
   "property": "C47",
   "status": "partial",
   "theorems": [
    "Gledger.C47_current_false",
    "Gledger.C47_current_partial",
    "Gledger.C47_today_partial"
   ],
   "note": "False of the code (C47_current_false). Proved: the exact set included, one day too many."
  },
  {
   "property": "C48",
   "status": "partial",
   "theorems": [
    "Gledger.C48_smart_dates_false",
    "Gledger.C48_accepted",
    "Gledger.C48_smart_dates_partial"
   ],
   "note": "False of the code for signed years (C48_smart_dates_false). Proved: every smart date is read as the day it names, and texts not beginning with a sign are accepted only if they are one. What is accepted exactly (smart dates, and years of three digits with a sign) is C48_accepted."
  },
  {
   "property": "C49",
   "status": "proved",
   "theorems": [
    "Gledger.C49_print",
    "Gledger.C49_runs",
    "Gledger.C49_layout"
   ],
   "note": "Every sort by date (stable or not), every filter list and date range; the output is the concatenation of the formatted transactions, so with C24/C25 it is readable."
  },
  {
   "property": "C50",
   "status": "proved",
   "theorems": [
    "Gledger.C50_print_parses_back"
   ],
   "note": "For tidy transactions (clean texts, an amount in every posting, quantities below 100*2^46, lines within the read buffer). The record of which amount was missing in the source is not printed and not compared."
  },
  {
   "property": "C51",
   "status": "proved",
   "theorems": [
    "Gledger.C51_accounts"
   ],
   "note": "Every map iteration order. The filters are matched against the account path whatever their kind, as the code does."
  },
  {
   "property": "C52",
   "status": "proved",
   "theorems": [
    "Gledger.C52_payees",
    "Gledger.C52_bad_argument"
   ],
   "note": "Every map iteration order and regular expression engine; a bad argument gives its compile error."
  },
  {
   "property": "C53",
   "status": "proved",
   "theorems": [
    "Gledger.C53_statistics",
    "Gledger.C53_first_date_false"
   ],
   "note": "Also the income and expense buckets. Dates of 1 January of year 1 excluded for the first and last date: C53_first_date_false shows that such a transaction is forgotten."
  },
  {
   "property": "C54",
   "status": "proved",
   "theorems": [
    "Gledger.C54_words",
    "Gledger.C54_first_in_first_out",
    "Gledger.C54_nothing_lost",
    "Gledger.C54_zero_expense_false",
    "Gledger.C54_of_journal"
   ],
   "note": "Also which expense is matched with which income. For the matching, days with expenses summing to zero are excluded: C54_zero_expense_false."
  },
  {
   "property": "C55",
   "status": "proved",
   "theorems": [
    "Gledger.C55_same_paths",
    "Gledger.C55_report_complete"
   ],
   "note": "Same paths in both trees for every sequence of filed postings; hence every line of the report is found."
  },
  {
   "property": "C56",
   "status": "proved",
   "theorems": [
    "Gledger.C56_month_sums",
    "Gledger.C56_other_months",
    "Gledger.C56_crashes",
    "Gledger.C56_command",
    "Gledger.C56_words"
   ],
   "note": "Month sums for every sequence, independence of other months, and end to end for the budget command up to the order in which maps hand over postings. Also shown: which postings make the code crash (no amount; an account that is just the root)."
  },
  {
   "property": "C57",
   "status": "proved",
   "theorems": [
    "Gledger.C57_pool",
    "Gledger.C57_command",
    "Gledger.C57_words"
   ],
   "note": "For every sequence of filed postings whose allocations sum to zero, and for every run of the budget command, where they do because each transaction balances."
  },
  {
   "property": "C58",
   "status": "partial",
   "theorems": [
    "Gledger.C58_columns_false",
    "Gledger.C58_columns_partial"
   ],
   "note": "False of the code (C58_columns_false: Budgeted and Activity are swapped); the partial theorem states what each column shows."
  },
  {
   "property": "C59",
   "status": "proved",
   "theorems": [
    "Gledger.C59_month_keys"
   ],
   "note": "For all days of the calendar."
  },
  {
   "property": "C60",
   "status": "partial",
   "theorems": [
    "Gledger.C60_period_rejected_false",
    "Gledger.C60_period_read_partial"
   ],
   "note": "False of the code (C60_period_rejected_false). Proved: what each text is read as."
  },
  {
   "property": "C61",
   "status": "proved",
   "theorems": [
    "Gledger.C61_runs_iff",
    "Gledger.C61_filtered_balance",
    "Gledger.C61_runs"
   ],
   "note": "Quantities and set of accounts; the text of the report is the subject of C38-C40."
  },
  {
   "property": "C62",
   "status": "partial",
   "theorems": [
    "Gledger.C62_per_commodity_false",
    "Gledger.C62_per_commodity_partial"
   ],
   "note": "False of the code (C62_per_commodity_false). Proved for delivered transactions written in a single commodity."
  },
  {
   "property": "C63",
   "status": "proved",
   "theorems": [
    "Gledger.C63_flat",
    "Gledger.C63_tree",
    "Gledger.C63_collapsed"
   ],
   "note": "End to end from bytes to text. In the flat form the paths begin after the last reserved name, if there is one (C31_spelled). Printing goes through the modelled number formatting."
  },
  {
   "property": "C64",
   "status": "partial",
   "theorems": [
    "Gledger.C64_overflow_false",
    "Gledger.C64_age_average_exact",
    "Gledger.C64_age_average_partial",
    "Gledger.C64_age_average_false"
   ],
   "note": "The claim is false of the code (C64_age_average_false); proved for at most ten matches, and C64_age_average_exact says what is computed for any number."
  },
  {
   "property": "C65",
   "status": "proved",
   "theorems": [
    "Gledger.C65_commodities",
    "Gledger.C65_delivered_sound",
    "Gledger.C65_delivered_period",
    "Gledger.C65_one_line",
    "Gledger.C65_delivered_one_line"
   ],
   "note": "Invariant over lexer items, parser and builder."
  },
  {
   "property": "C66",
   "status": "proved",
   "theorems": [
    "Gledger.C66_printed_is_journal",
    "Gledger.C66_print_idempotent",
    "Gledger.C66_print_again"
   ],
   "note": "The sort used by print must leave a list in date order unchanged (a hypothesis for idempotence; sort.Slice is not modelled)."
  },
  {
   "property": "C67",
   "status": "proved",
   "theorems": [
    "Gledger.C67_budget_report",
    "Gledger.C67_words"
   ],
   "note": "The text is given in terms of the filed postings up to map order; the placeholder lines of the header are as printed by the code."
  },
  {
   "property": "C68",
   "status": "partial",
   "theorems": [
    "Gledger.C68_commodity_false",
    "Gledger.C68_commodity_partial"
   ],
   "note": "False of the code (C68_commodity_false); the partial theorem says which commodity is shown."
  },
  {
   "property": "C69",
   "status": "partial",
   "theorems": [
    "Gledger.C69_period_days_partial",
    "Gledger.C69_period_shown_partial",
    "Gledger.C69_period_days_false"
   ],
   "note": "False of the code (C69_period_days_false). Proved exactly for all journals without zero dates: the smaller of the number of days and 106752."
  },
  {
   "property": "C70",
   "status": "partial",
   "theorems": [
    "Gledger.C70_per_day_partial",
    "Gledger.C70_per_day_false"
   ],
   "note": "False of the code for a single day (C70_per_day_false); proved for at least one day between first and last; for a single day the text is +Inf (FiguresOf.rateZero in C72)."
  },
  {
   "property": "C71",
   "status": "proved",
   "theorems": [
    "Gledger.C71_age_days"
   ],
   "note": "Float64 arithmetic is modelled exactly (round to nearest even)."
  },
  {
   "property": "C72",
   "status": "proved",
   "theorems": [
    "Gledger.C72_statistics_report"
   ],
   "note": "humanize.Time is a parameter. Figures carry the conditions of C53, C54, C64, C69 and C70; the average is the one the code computes (C64)."
  },
  {
   "property": "C73",
   "status": "proved",
   "theorems": [
    "Gledger.C73_warnings",
    "Gledger.C73_balance_output",
    "Gledger.C73_one_commodity"
   ],
   "note": "The warnings are stated over the delivered transactions (one list of postings per transaction: in written order if the whole transaction is selected, otherwise a permutation of the selected ones because of the map order); the report after them is that of the same postings in the same order."
  },
  {
   "property": "C74",
   "status": "partial",
   "theorems": [
    "Gledger.C74_mixes_reported_false",
    "Gledger.C74_mixes_reported_partial"
   ],
   "note": "False of the code (C74_mixes_reported_false). Proved: two different written commodities are always pointed out, and silence holds exactly if blank ones come first and one commodity follows."
  },
  {
   "property": "C75",
   "status": "proved",
   "theorems": [
    "Gledger.C75_warnings",
    "Gledger.C75_budget_output"
   ],
   "note": "Stated over the postings filed per transaction; order as written for budget transactions and whole transactions, a permutation of the selected ones otherwise; the report after the warnings is that of the same postings in the same order."
  },
  {
   "property": "C76",
   "status": "partial",
   "theorems": [
    "Gledger.C76_one_commodity_false",
    "Gledger.C76_one_commodity_partial",
    "Gledger.C76_flat_categories_partial"
   ],
   "note": "False of the code (C76_one_commodity_false). Proved: exact condition for silence (parents budgeted before children in the month, pool not empty), and silence for flat categories."
  },
  {
   "property": "C77",
   "status": "proved",
   "theorems": [
    "Gledger.C77_file_flag",
    "Gledger.C77_environment",
    "Gledger.C77_no_journal",
    "Gledger.C77_missing_journal"
   ],
   "note": "The text of the opening error is a parameter (standard library)."
  },
  {
   "property": "C78",
   "status": "partial",
   "theorems": [
    "Gledger.C78_exit_status_false",
    "Gledger.C78_exit_status_partial"
   ],
   "note": "False of the code (C78_exit_status_false). Proved: exact characterisation of the runs with a status other than 0."
  },
  {
   "property": "C79",
   "status": "proved",
   "theorems": [
    "Gledger.C79_message"
   ],
   "note": "Provided the command's own handling has not stopped before (date flags, panic). Messages of the standard library are a parameter."
  },
  {
   "property": "C80",
   "status": "partial",
   "theorems": [
    "Gledger.C80_reported_partial",
    "Gledger.C80_unnoticed",
    "Gledger.C80_dates_false",
    "Gledger.C80_dates_partial"
   ],
   "note": "False of the code (C80_dates_false). Proved: with at least one delivered transaction every command but budget prints one error ending with the reason and nothing else; budget does so or panics; without transactions the flags go unnoticed."
  },
  {
   "property": "C81",
   "status": "partial",
   "theorems": [
    "Gledger.C81_table",
    "Gledger.C81_words_false",
    "Gledger.C81_words_partial",
    "Gledger.C81_only_words"
   ],
   "note": "False of the code (C81_words_false). Proved: all words but p. C81_table compares every word with a table written out in the statement."
  },
  {
   "property": "C82",
   "status": "proved",
   "theorems": [
    "Gledger.C82_no_partial_report"
   ],
   "note": "Standard error and what a panicking report has already printed are not modelled; reports do not panic in the model."
  },
  {
   "property": "C83",
   "status": "proved",
   "theorems": [
    "Gledger.C83_split",
    "Gledger.C83_split_statistics"
   ],
   "note": "Runs are compared as output and exit status; for rejected journals the message may name another file and line. File names in the statistics' list differ (shown)."
  },
  {
   "property": "C84",
   "status": "proved",
   "theorems": [
    "Gledger.C84_layout"
   ],
   "note": "Layout changes are those of Spec/Layout: comment lines below the read buffer's size, blank lines where another blank line, a header or the end follows, line ends."
  },
  {
   "property": "C85",
   "status": "proved",
   "theorems": [
    "Gledger.C85_parts_add",
    "Gledger.C85_parts_swap"
   ],
   "note": "Quantities and accounts; the commodity shown depends on which posting comes first."
  },
  {
   "property": "C86",
   "status": "proved",
   "theorems": [
    "Gledger.C86_transactions",
    "Gledger.C86_periods_add"
   ],
   "note": "For readable dates, without --current, and a dividing date other than the zero instant, which the program takes as no date."
  },
  {
   "property": "C87",
   "status": "proved",
   "theorems": [
    "Gledger.C87_counts"
   ],
   "note": "Without filters and arguments; all four commands must get through."
  },
  {
   "property": "C88",
   "status": "proved",
   "theorems": [
    "Gledger.C88_budget_balance"
   ],
   "note": "Both commands must get through; the budget stops where C57 says. Sums are in 64-bit arithmetic."
  },
  {
   "property": "C89",
   "status": "proved",
   "theorems": [
    "Gledger.C89_printed_balance"
   ],
   "note": "For transactions that print can write (C50, C66)."
  },
  {
   "property": "C90",
   "status": "proved",
   "theorems": [
    "Gledger.C90_accounts_tree"
   ],
   "note": "Without filters; before accounts with zero amount are removed from the tree."
  },
  {
   "property": "C91",
   "status": "proved",
   "theorems": [
    "Gledger.C91_same_transactions"
   ],
   "note": "Runs are compared up to the line and file named in an error."
  },
  {
   "property": "C92",
   "status": "proved",
   "theorems": [
    "Gledger.C92_spelling",
    "Gledger.C92_current"
   ],
   "note": "For present years 1000 to 9999."
  },
  {
   "property": "C93",
   "status": "partial",
   "theorems": [
    "Gledger.C93_balance_partial",
    "Gledger.C93_budget_partial",
    "Gledger.C93_lists_partial",
    "Gledger.C93_unfiltered_partial",
    "Gledger.C93_statistics_partial",
    "Gledger.C93_one_commodity_partial",
    "Gledger.C93_orders_false"
   ],
   "note": "False of the code (C93_orders_false). Proved: accounts, payees, print and version; balance and budget without filters; stats up to the order of the listed files; balance with filters in one commodity; with filters and any commodities, balance and budget fail alike or print the same lines and quantities, and only mixed commodities can differ (C93_balance_partial, C93_budget_partial)."
  },
  {
   "property": "C94",
   "status": "proved",
   "theorems": [
    "Gledger.C94_unknown_line",
    "Gledger.C94_never_accepted",
    "Gledger.C94_run",
    "Gledger.C94_no_report"
   ],
   "note": "For lines of the file itself that fit the read buffer. The exact message is for lines of no known kind at which reading has arrived; standard library texts are parameters."
  },
  {
   "property": "C95",
   "status": "proved",
   "theorems": [
    "Gledger.C95_filters",
    "Gledger.C95_invalid",
    "Gledger.C95_complete"
   ],
   "note": "Filters are those of the arguments, in order; the first invalid argument decides; every list of arguments is of one of the two kinds (C95_complete)."
  },
  {
   "property": "C96",
   "status": "proved",
   "theorems": [
    "Gledger.C96_words",
    "Gledger.C96_stopped",
    "Gledger.C96_crash"
   ],
   "note": "exact: a command on an accepted journal panics iff an amount it needs is missing (the outcome of Close for a zero sum), otherwise exits 0"
  },
  {
   "property": "C97",
   "status": "proved",
   "theorems": [
    "Gledger.C97_crash",
    "Gledger.C97_accounts",
    "Gledger.C97_payees",
    "Gledger.C97_print",
    "Gledger.C97_balance",
    "Gledger.C97_budget",
    "Gledger.C97_statistics"
   ],
   "note": "The journal is made of entries and budget entries, in one file or in files that include each other (Reads), up to layout (SameLayouts: comment lines, blank lines, line ends); amounts without a fraction or with two places. Transactions after an include directive are attributed to the root, as the code does (seen in statistics only). Days are the ones the code selects (C46, C47: off by a day west of Greenwich and with --current). For payees the arguments are assumed to compile as they stand."
  },
  {
   "property": "C98",
   "status": "proved",
   "theorems": [
    "Gledger.C98_reported"
   ],
   "note": "for the kinds of mistakes listed in Spec/Mistakes.lean, after complete paragraphs (each followed by a blank line), in the journal or in included files; the reason given for dates and amounts is known up to what time.Parse and strconv.ParseInt say; an error at the end of a file carries no line number of that file"
  },
  {
   "property": "C99",
   "status": "proved",
   "theorems": [
    "Gledger.C99_lines",
    "Gledger.C99_one_reading",
    "Gledger.C99_parsed",
    "Gledger.C99_answers",
    "Gledger.C99_well_formed"
   ],
   "note": "Kinds of lines and readings are defined without the model's functions (Spec/Lines, Spec/Journals). The commands' answers are those of C97 and C98, for settings in which the root file exists, the filters compile and the date flags can be read."
  },
  {
   "property": "C100",
   "status": "proved",
   "theorems": [
    "Gledger.C100_addEach",
    "Gledger.C100_balance"
   ],
   "note": "C100_addEach is about Journal.AddPosting for any sequence of postings, C100_balance about the journal that the balance command builds. The commands do not read this record again; it is a claim about the data structure."
  },
  {
   "property": "C101",
   "status": "proved",
   "theorems": [
    "Gledger.C101_crash",
    "Gledger.C101_unused",
    "Gledger.C101_flag",
    "Gledger.C101_every_run",
    "Gledger.C101_ending"
   ],
   "note": "C101_every_run (the description Does holds of every run, Spec/Runs.lean); C101_ending (it determines how a run ends); C101_crash, C101_flag and C101_unused are its parts. Which texts the standard library gives for errors, and what cobra does before the command runs, is not modelled."
  },
  {
   "property": "C102",
   "status": "proved",
   "theorems": [
    "Gledger.C102_flags",
    "Gledger.C102_rejects",
    "Gledger.C102_same",
    "Gledger.C102_spellings",
    "Gledger.C102_names",
    "Gledger.C102_own_names",
    "Gledger.C102_order"
   ],
   "note": "C102_flags: arguments written as in Typed (Spec/CommandLine) run the command with the last value of each flag and the words; C102_rejects: all others give status 1 and no output; C102_same, C102_order, C102_spellings: spelling and order do not matter. cobra and pflag are modelled as known; their code is not in /repo."
  },
  {
   "property": "C103",
   "status": "partial",
   "theorems": [
    "Gledger.C103_flags_first_false",
    "Gledger.C103_before_partial",
    "Gledger.C103_flags_first_partial"
   ],
   "note": "False (C103_flags_first_false): the first argument equal to the command's name is removed even if it is the value of a flag before it; one-letter flags written together with their value in the next argument make that value the command. Proved: C103_before_partial for whatever is passed over in the search, C103_flags_first_partial for flags written one at a time, if the name of the command is not among them."
  },
  {
   "property": "C104",
   "status": "proved",
   "theorems": [
    "Gledger.C104_every_line",
    "Gledger.C104_main",
    "Gledger.C104_one"
   ],
   "note": "C104_main: Handles (Spec/CommandLine) relates a command line to exactly what the program does; C104_every_line, C104_one: total and functional. Together with C101 this describes the output for every command line. Texts of help and the completion command are parameters."
  },
  {
   "property": "C105",
   "status": "proved",
   "theorems": [
    "Gledger.C105_names"
   ],
   "note": "C105_names: the four generated tables against the declared constants, for all integers; slices never out of range."
  },
  {
   "property": "C106",
   "status": "proved",
   "theorems": [
    "Gledger.C106_text",
    "Gledger.C106_accounts_from_text"
   ],
   "note": "C106_text: lines, indentation, one line per account, reading back; C106_accounts_from_text: equal texts of legible trees have the same accounts (an example shows two trees with the same text when a name begins with spaces)."
  },
  {
   "property": "C107",
   "status": "partial",
   "theorems": [
    "Gledger.C107_bounds_partial",
    "Gledger.C107_bounds_false",
    "Gledger.C107_run"
   ],
   "note": "False (C107_bounds_false): without an interval (the only kind the parser produces) bounds are ignored. C107_bounds_partial: with an interval or without bounds; C107_run: the exact result and message for all bounds. The program calls it with zero bounds only."
  },
  {
   "property": "C108",
   "status": "proved",
   "theorems": [
    "Gledger.C108_paragraphs",
    "Gledger.C108_ending",
    "Gledger.C108_lists",
    "Gledger.C108_print",
    "Gledger.C108_balance",
    "Gledger.C108_one_commodity",
    "Gledger.C108_budget",
    "Gledger.C108_statistics"
   ],
   "note": "Paragraphs in any order deliver the same transactions; per command what the reports then have in common, and examples of what can differ."
  },
  {
   "property": "C109",
   "status": "proved",
   "theorems": [
    "Gledger.C109_heeded",
    "Gledger.C109_passage"
   ],
   "note": "For any two accepted journals with the same relevant entries in the same order, and for removing a paragraph that holds none."
  },
  {
   "property": "C110",
   "status": "proved",
   "theorems": [
    "Gledger.C110_directory",
    "Gledger.C110_moved",
    "Gledger.C110_statistics",
    "Gledger.C110_include",
    "Gledger.C110_missing"
   ],
   "note": "Every command before and after a move (MovedRun: the same run, or the same error with the files at their new places); statistics with the list of files mapped; which file an include directive names."
  },
  {
   "property": "C111",
   "status": "proved",
   "theorems": [
    "Gledger.C111_lex",
    "Gledger.C111_items",
    "Gledger.C111_parse",
    "Gledger.C111_run",
    "Gledger.C111_same"
   ],
   "note": "bufio is modelled (fill, ReadSlice, ReadLine); readers that return data together with an error, which files of the operating system never do, are excluded"
  },
  {
   "property": "C112",
   "status": "proved",
   "theorems": [
    "Gledger.C112_success",
    "Gledger.C112_report",
    "Gledger.C112_failing",
    "Gledger.C112_include",
    "Gledger.C112_no_report",
    "Gledger.C112_directory",
    "Gledger.C112_stuck"
   ],
   "note": "errors whose text is EOF but are not the end of the file are excluded: the lexer compares texts"
  },
  {
   "property": "C113",
   "status": "partial",
   "theorems": [
    "Gledger.C113_balanced_iff",
    "Gledger.C113_balance_exactly_false",
    "Gledger.C113_balance_exactly_partial",
    "Gledger.C113_two_partial",
    "Gledger.C113_accepts",
    "Gledger.C113_inferred"
   ],
   "note": "false of the code by overflow; proved: exact sum is a multiple of 2^64 (iff accepted), zero below the bound, always for two postings that are not both the least int64, converse"
  },
  {
   "property": "C114",
   "status": "partial",
   "theorems": [
    "Gledger.C114_exact_iff_partial",
    "Gledger.C114_balances_exact_false",
    "Gledger.C114_moderate_partial"
   ],
   "note": "false of the code by overflow; proved: exact if and only if the sum fits in int64, and shown exactly for moderate journals"
  },
  {
   "property": "C115",
   "status": "partial",
   "theorems": [
    "Gledger.C115_exact_iff_partial",
    "Gledger.C115_budget_exact_false"
   ],
   "note": "false of the code by overflow; proved: exact if and only if the sum fits in int64"
  },
  {
   "property": "C116",
   "status": "proved",
   "theorems": [
    "Gledger.C116_parse",
    "Gledger.C116_files"
   ],
   "note": "compares all runs of a command on two disks; the files of a journal are given by Spec/Surroundings.lean PartOf through the include lines of C97"
  },
  {
   "property": "C117",
   "status": "proved",
   "theorems": [
    "Gledger.C117_no_dates",
    "Gledger.C117_current",
    "Gledger.C117_dates",
    "Gledger.C117_words"
   ],
   "note": "now, year and zone are inputs of the model (Machine.now, nowYear, offset); humanize is a parameter"
  },
  {
   "property": "C118",
   "status": "partial",
   "theorems": [
    "Gledger.C118_current_partial",
    "Gledger.C118_dates_partial",
    "Gledger.C118_same_days_false",
    "Gledger.C118_own_time_partial",
    "Gledger.C118_balance_partial",
    "Gledger.C118_budget_partial",
    "Gledger.C118_statistics_partial"
   ],
   "note": "False of the code when a run passes midnight (C118_same_days_false). Proved: with --current if tomorrow stays between the same two UTC midnights, otherwise if the year does not change or the flags are written with a year; with maps ordered anew for every transaction: equal for accounts, payees, print, statistics and without filters, equal up to mixed commodities for balance and budget (their warnings are not compared). For all clocks, what a run gives instead: what the program gives without date flags of just the transactions in range when they were judged (C118_own_time_partial)."
  },
  {
   "property": "C119",
   "status": "proved",
   "theorems": [
    "Gledger.C119_lists",
    "Gledger.C119_print",
    "Gledger.C119_balance",
    "Gledger.C119_one_commodity",
    "Gledger.C119_budget",
    "Gledger.C119_statistics"
   ],
   "note": "Text with what the print command can write (Printable, lines that fit the read buffer; C66). Nothing heeded may be missing from the print (Command.Kept); monthly budgets are never printed. Commodities of accounts that mix them may differ; statistics if no transaction is dated 0001-01-01; equal text of print if no two transactions are of one day."
  },
  {
   "property": "C120",
   "status": "proved",
   "theorems": [
    "Gledger.C120_reports",
    "Gledger.C120_runs",
    "Gledger.C120_paragraph"
   ],
   "note": ""
  },
  {
   "property": "C121",
   "status": "proved",
   "theorems": [
    "Gledger.C121_reports",
    "Gledger.C121_runs",
    "Gledger.C121_paragraph"
   ],
   "note": ""
  },
  {
   "property": "C122",
   "status": "proved",
   "theorems": [
    "Gledger.C122_more_filters",
    "Gledger.C122_no_filters",
    "Gledger.C122_more_arguments",
    "Gledger.C122_longer_period",
    "Gledger.C122_more_paragraphs",
    "Gledger.C122_accounts",
    "Gledger.C122_payees",
    "Gledger.C122_print",
    "Gledger.C122_balance",
    "Gledger.C122_budget",
    "Gledger.C122_statistics"
   ],
   "note": ""
  },
  {
   "property": "C123",
   "status": "proved",
   "theorems": [
    "Gledger.C123_journal_parts",
    "Gledger.C123_period_parts",
    "Gledger.C123_accounts",
    "Gledger.C123_payees",
    "Gledger.C123_print",
    "Gledger.C123_statistics"
   ],
   "note": ""
  },
  {
   "property": "C124",
   "status": "proved",
   "theorems": [
    "Gledger.C124_accounts",
    "Gledger.C124_payees",
    "Gledger.C124_balance",
    "Gledger.C124_budget",
    "Gledger.C124_statistics"
   ],
   "note": ""
  },
  {
   "property": "C125",
   "status": "proved",
   "theorems": [
    "Gledger.C125_balance",
    "Gledger.C125_budget"
   ],
   "note": "Balance: the lines of a top-level account; budget: the lines of a category, month by month. Filters that pick single postings need one commodity, as the order of Go's maps is arbitrary."
  },
  {
   "property": "C126",
   "status": "partial",
   "theorems": [
    "Gledger.C126_words_partial",
    "Gledger.C126_days",
    "Gledger.C126_two_years_false",
    "Gledger.C126_east_false",
    "Gledger.C126_report_partial"
   ],
   "note": "exact where the words are right; what they are instead is proved too (C126_words_partial); missing: 18 to 24 months and 37 years or more, and zones east of Greenwich, where the claim is false (C126_two_years_false, C126_east_false)"
  },
  {
   "property": "C127",
   "status": "partial",
   "theorems": [
    "Gledger.C127_print",
    "Gledger.C127_balance",
    "Gledger.C127_accounts_partial",
    "Gledger.C127_payees_partial",
    "Gledger.C127_fields_false"
   ],
   "note": "False of the code for accounts and payees (C127_fields_false). Proved: print and balance as stated; accounts and payees with what they do instead. The engine is a parameter that is only required to find plain words where they stand."
  },
  {
   "property": "C128",
   "status": "partial",
   "theorems": [
    "Gledger.C128_reports_partial",
    "Gledger.C128_runs_partial",
    "Gledger.C128_sums_partial",
    "Gledger.C128_flat_false",
    "Gledger.C128_large_false"
   ],
   "note": "Proved for the tree and the collapsed tree, and for the list if no account has a reserved name above it and no transaction is without postings; sums below 2^46. C128_flat_false and C128_large_false show the exceptions."
  },
  {
   "property": "C129",
   "status": "partial",
   "theorems": [
    "Gledger.C129_budget_partial",
    "Gledger.C129_accounts",
    "Gledger.C129_payees",
    "Gledger.C129_statistics",
    "Gledger.C129_print_partial",
    "Gledger.C129_budget_false",
    "Gledger.C129_print_false"
   ],
   "note": "accounts and payees in full. statistics in full up to its stated conditions. budget: proved if no top category ends in a blank, and shown false otherwise (the padding hides it). print: proved for transactions that print can write exactly, and shown false for large amounts."
  },
  {
   "property": "C130",
   "status": "partial",
   "theorems": [
    "Gledger.C130_reports_partial",
    "Gledger.C130_runs_partial",
    "Gledger.C130_taken_back_partial",
    "Gledger.C130_show_zero_false",
    "Gledger.C130_root_false"
   ],
   "note": "proved without --show-zero for accounts not called _root_ (with --flat, if anything is asked for in one it must be in the other); shown false for the two exceptions named in the statement."
  },
  {
   "property": "C131",
   "status": "proved",
   "theorems": [
    "Gledger.C131_texts",
    "Gledger.C131_reports",
    "Gledger.C131_runs",
    "Gledger.C131_accounts"
   ],
   "note": "runs as bytes in one commodity; reports of postings in any commodities."
  },
  {
   "property": "C132",
   "status": "proved",
   "theorems": [
    "Gledger.C132_sign",
    "Gledger.C132_reports",
    "Gledger.C132_runs"
   ],
   "note": "runs as bytes in one commodity; reports of postings in any commodities; the sign of each number separately."
  },
  {
   "property": "C133",
   "status": "proved",
   "theorems": [
    "Gledger.C133_reports",
    "Gledger.C133_runs"
   ],
   "note": "C133_reports for what is filed; C133_runs for two runs."
  },
  {
   "property": "C134",
   "status": "proved",
   "theorems": [
    "Gledger.C134_cut",
    "Gledger.C134_lines",
    "Gledger.C134_rejected",
    "Gledger.C134_before",
    "Gledger.C134_last_false",
    "Gledger.C134_include_false"
   ],
   "note": "C134_last_false and C134_include_false show why at most the last item, and include directives, are excepted."
  },
  {
   "property": "C135",
   "status": "partial",
   "theorems": [
    "Gledger.C135_figures",
    "Gledger.C135_runs_partial",
    "Gledger.C135_first_day_false"
   ],
   "note": "Proved for all runs of statistics in which no transaction is on 1 January of the year 1 (C135_first_day_false: then the money may be older than the period)."
  },
  {
   "property": "C136",
   "status": "proved",
   "theorems": [
    "Gledger.C136_reports",
    "Gledger.C136_runs",
    "Gledger.C136_replaced",
    "Gledger.C136_texts",
    "Gledger.C136_mixed_false"
   ],
   "note": "Carrying balances forward: at the level of reports, of whole runs, and of texts (the opening transaction as print writes it). Mixed commodities: C136_mixed_false."
  },
  {
   "property": "C137",
   "status": "proved",
   "theorems": [
    "Gledger.C137_numbers",
    "Gledger.C137_unbalanced",
    "Gledger.C137_without",
    "Gledger.C137_reported",
    "Gledger.C137_unnoticed_false"
   ],
   "note": "Every kind of slip in the statement, at the level of bytes to printed output. C137_unnoticed_false shows what is outside the statement: an amount left out, and two slips."
  },
  {
   "property": "C138",
   "status": "proved",
   "theorems": [
    "Gledger.C138_reports",
    "Gledger.C138_runs",
    "Gledger.C138_collapse_false"
   ],
   "note": "On the printed lines, for all runs. C138_collapse_false for --collapse."
  },
  {
   "property": "C139",
   "status": "proved",
   "theorems": [
    "Gledger.C139_age",
    "Gledger.C139_stats",
    "Gledger.C139_statistics",
    "Gledger.C139_balance",
    "Gledger.C139_accounts",
    "Gledger.C139_payees",
    "Gledger.C139_print",
    "Gledger.C139_budget_false"
   ],
   "note": "Of the days asked for, both limits are moved. Balance in one commodity; print if no two transactions are on the same day. Budgets are by month: C139_budget_false."
  },
  {
   "property": "C140",
   "status": "proved",
   "theorems": [
    "Gledger.C140_reports",
    "Gledger.C140_warnings",
    "Gledger.C140_budgets",
    "Gledger.C140_budget_warnings",
    "Gledger.C140_runs",
    "Gledger.C140_budget_runs",
    "Gledger.C140_merged_false"
   ],
   "note": "Without arguments, so that the order of postings is the written one; what is posted in the two journals is compared, not how it is written."
  },
  {
   "property": "C141",
   "status": "proved",
   "theorems": [
    "Gledger.C141_reports",
    "Gledger.C141_hundredfold",
    "Gledger.C141_runs",
    "Gledger.C141_overflow_false"
   ],
   "note": "Compares what is posted in the two journals. The condition on sums is met by odd factors (keeps_odd) and if the multiples fit (keeps_fitting); C141_overflow_false shows that it is needed."
  },
  {
   "property": "C142",
   "status": "proved",
   "theorems": [
    "Gledger.C142_reports",
    "Gledger.C142_runs"
   ],
   "note": "Every number; warnings, months and categories are the same and all figures are multiples modulo 2^64; runs without filter arguments."
  },
  {
   "property": "C143",
   "status": "proved",
   "theorems": [
    "Gledger.C143_reports",
    "Gledger.C143_shared",
    "Gledger.C143_journal",
    "Gledger.C143_period",
    "Gledger.C143_budgeted_false"
   ],
   "note": "C143_journal for the parts of a journal, C143_period for the parts of a period; C143_budgeted_false shows that what is budgeted is repeated, not shared out."
  },
  {
   "property": "C144",
   "status": "proved",
   "theorems": [
    "Gledger.C144_age",
    "Gledger.C144_stats",
    "Gledger.C144_statistics",
    "Gledger.C144_overflow_false"
   ],
   "note": "Whole runs (C144_statistics), with C144_age for the list of ages itself; C144_overflow_false shows why the bound is needed."
  },
  {
   "property": "C145",
   "status": "proved",
   "theorems": [
    "Gledger.C145_reports",
    "Gledger.C145_runs"
   ],
   "note": "runs of budget with any filters and date flags; equal output without a commodity, equal reports in one commodity"
  },
  {
   "property": "C146",
   "status": "proved",
   "theorems": [
    "Gledger.C146_balances",
    "Gledger.C146_budgets",
    "Gledger.C146_balance",
    "Gledger.C146_budget",
    "Gledger.C146_wide_false"
   ],
   "note": "all forms of balance, and budget; C146_wide_false: wider figures and names push their lines out"
  },
  {
   "property": "C147",
   "status": "proved",
   "theorems": [
    "Gledger.C147_stats",
    "Gledger.C147_statistics",
    "Gledger.C147_kinds_false"
   ],
   "note": "runs of statistics without arguments, any date flags; C147_kinds_false: the names Income and Expenses are special"
  },
  {
   "property": "C148",
   "status": "proved",
   "theorems": [
    "Gledger.C148_age",
    "Gledger.C148_statistics",
    "Gledger.C148_needed_false"
   ],
   "note": "runs of statistics with any filters and date flags; C148_needed_false: income that is needed matters"
  },
  {
   "property": "C149",
   "status": "proved",
   "theorems": [
    "Gledger.C149_balance",
    "Gledger.C149_budget",
    "Gledger.C149_overlap_false"
   ],
   "note": "Balances and budgets of whole runs; C149_overlap_false shows why no posting may be asked for twice."
  },
  {
   "property": "C150",
   "status": "proved",
   "theorems": [
    "Gledger.C150_accounts",
    "Gledger.C150_payees",
    "Gledger.C150_print",
    "Gledger.C150_statistics"
   ],
   "note": "Whole runs of accounts, payees, print and statistics."
  },
  {
   "property": "C151",
   "status": "proved",
   "theorems": [
    "Gledger.C151_reports",
    "Gledger.C151_payees",
    "Gledger.C151_balance",
    "Gledger.C151_budget",
    "Gledger.C151_mixed_false"
   ],
   "note": "Whole runs; C151_mixed_false shows why balance needs one commodity."
  },
  {
   "property": "C152",
   "status": "proved",
   "theorems": [
    "Gledger.C152_reports",
    "Gledger.C152_balance",
    "Gledger.C152_budget",
    "Gledger.C152_accounts",
    "Gledger.C152_payees",
    "Gledger.C152_covering",
    "Gledger.C152_all",
    "Gledger.C152_transactions_false"
   ],
   "note": "Whole runs; C152_transactions_false shows why the postings and not only the transactions must be the same."
  }
 ]
}
