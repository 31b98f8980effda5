{
 "C01": {"status": "proved", "note": "For every file system, handler, file and open-file limit; calls made before a failure included."},
 "C02": {"status": "proved", "note": "Stated on the postings added in order with the builder's AddPosting, followed by Close."},
 "C03": {"status": "proved", "note": "Entry anywhere after a part that parses and a blank line; ended by end of file, blank line or header; arbitrary handlers and arbitrary following bytes."},
 "C04": {"status": "partial", "note": "The claim as stated is false of the code (C04_all_amounts_false gives the input). Proved: at most one posting lacks an amount, and only if the others already sum to zero (C04_all_amounts_partial); exactly which delivered postings lack one (C04_exactly_partial)."},
 "C05": {"status": "partial", "note": "False of the code (C05_elided_rejected_false). Proved exactly: rejected if the last posting is one of the elided ones; otherwise accepted with all elided postings but the first dropped (C05_surplus_dropped_partial)."},
 "C06": {"status": "partial", "note": "False of the code (C06_decimal_value_false: 1.5; C06_rejected_false: --5). Proved: exact for numbers without a point or with two places, and an exact description of all accepted texts with the value each gets."},
 "C07": {"status": "proved", "note": "For all quantities of magnitude below 100*2^46, through the float64 division and the rounding of %.2f; C07_display_beyond_false shows that the bound matters."},
 "C08": {"status": "proved", "note": "For all quantities of magnitude below 100*2^46."},
 "C09": {"status": "partial", "note": "False of the code (C09_too_large_false). Proved: rejected iff the whole part does not fit in int64; otherwise stored modulo 2^64."},
 "C10": {"status": "proved", "note": "Acceptance iff, error for other texts of five or more characters, crash for shorter ones."},
 "C100": {"status": "proved", "note": "C100_addEach is about Journal.AddPosting for any sequence of postings, C100_balance about the journal that the balance command builds. The commands do not read this record again; it is a claim about the data structure."},
 "C101": {"status": "proved", "note": "C101_every_run (the description Does holds of every run, Spec/Runs.lean); C101_ending (it determines how a run ends); C101_crash, C101_flag and C101_unused are its parts. Which texts the standard library gives for errors, and what cobra does before the command runs, is not modelled."},
 "C102": {"status": "proved", "note": "C102_flags: arguments written as in Typed (Spec/CommandLine) run the command with the last value of each flag and the words; C102_rejects: all others give status 1 and no output; C102_same, C102_order, C102_spellings: spelling and order do not matter. cobra and pflag are modelled as known; their code is not in /repo."},
 "C103": {"status": "partial", "note": "False (C103_flags_first_false): the first argument equal to the command's name is removed even if it is the value of a flag before it; one-letter flags written together with their value in the next argument make that value the command. Proved: C103_before_partial for whatever is passed over in the search, C103_flags_first_partial for flags written one at a time, if the name of the command is not among them."},
 "C104": {"status": "proved", "note": "C104_main: Handles (Spec/CommandLine) relates a command line to exactly what the program does; C104_every_line, C104_one: total and functional. Together with C101 this describes the output for every command line. Texts of help and the completion command are parameters."},
 "C105": {"status": "proved", "note": "C105_names: the four generated tables against the declared constants, for all integers; slices never out of range."},
 "C106": {"status": "proved", "note": "C106_text: lines, indentation, one line per account, reading back; C106_accounts_from_text: equal texts of legible trees have the same accounts (an example shows two trees with the same text when a name begins with spaces)."},
 "C107": {"status": "partial", "note": "False (C107_bounds_false): without an interval (the only kind the parser produces) bounds are ignored. C107_bounds_partial: with an interval or without bounds; C107_run: the exact result and message for all bounds. The program calls it with zero bounds only."},
 "C108": {"status": "proved", "note": "Paragraphs in any order deliver the same transactions; per command what the reports then have in common, and examples of what can differ."},
 "C109": {"status": "proved", "note": "For any two accepted journals with the same relevant entries in the same order, and for removing a paragraph that holds none."},
 "C11": {"status": "proved", "note": "Round trip for years 0 to 9999; instants compare as (year, month, day); consecutive days have consecutive numbers."},
 "C110": {"status": "proved", "note": "Every command before and after a move (MovedRun: the same run, or the same error with the files at their new places); statistics with the list of files mapped; which file an include directive names."},
 "C111": {"status": "proved", "note": "bufio is modelled (fill, ReadSlice, ReadLine); readers that return data together with an error, which files of the operating system never do, are excluded"},
 "C112": {"status": "proved", "note": "errors whose text is EOF but are not the end of the file are excluded: the lexer compares texts"},
 "C113": {"status": "partial", "note": "false of the code by overflow; proved: exact sum is a multiple of 2^64 (iff accepted), zero below the bound, always for two postings that are not both the least int64, converse"},
 "C114": {"status": "partial", "note": "false of the code by overflow; proved: exact if and only if the sum fits in int64, and shown exactly for moderate journals"},
 "C115": {"status": "partial", "note": "false of the code by overflow; proved: exact if and only if the sum fits in int64"},
 "C116": {"status": "proved", "note": "compares all runs of a command on two disks; the files of a journal are given by Spec/Surroundings.lean PartOf through the include lines of C97"},
 "C117": {"status": "proved", "note": "now, year and zone are inputs of the model (Machine.now, nowYear, offset); humanize is a parameter"},
 "C118": {"status": "partial", "note": "False of the code when a run passes midnight (C118_same_days_false). Proved: with --current if tomorrow stays between the same two UTC midnights, otherwise if the year does not change or the flags are written with a year; with maps ordered anew for every transaction: equal for accounts, payees, print, statistics and without filters, equal up to mixed commodities for balance and budget (their warnings are not compared). For all clocks, what a run gives instead: what the program gives without date flags of just the transactions in range when they were judged (C118_own_time_partial)."},
 "C119": {"status": "proved", "note": "Text with what the print command can write (Printable, lines that fit the read buffer; C66). Nothing heeded may be missing from the print (Command.Kept); monthly budgets are never printed. Commodities of accounts that mix them may differ; statistics if no transaction is dated 0001-01-01; equal text of print if no two transactions are of one day."},
 "C12": {"status": "proved", "note": "For every file system, handler, prefix and suffix; failures compared up to line numbers."},
 "C120": {"status": "proved", "note": ""},
 "C121": {"status": "proved", "note": ""},
 "C122": {"status": "proved", "note": ""},
 "C123": {"status": "proved", "note": ""},
 "C124": {"status": "proved", "note": ""},
 "C125": {"status": "proved", "note": "Balance: the lines of a top-level account; budget: the lines of a category, month by month. Filters that pick single postings need one commodity, as the order of Go's maps is arbitrary."},
 "C126": {"status": "partial", "note": "exact where the words are right; what they are instead is proved too (C126_words_partial); missing: 18 to 24 months and 37 years or more, and zones east of Greenwich, where the claim is false (C126_two_years_false, C126_east_false)"},
 "C127": {"status": "partial", "note": "False of the code for accounts and payees (C127_fields_false). Proved: print and balance as stated; accounts and payees with what they do instead. The engine is a parameter that is only required to find plain words where they stand."},
 "C128": {"status": "partial", "note": "Proved for the tree and the collapsed tree, and for the list if no account has a reserved name above it and no transaction is without postings; sums below 2^46. C128_flat_false and C128_large_false show the exceptions."},
 "C129": {"status": "partial", "note": "accounts and payees in full. statistics in full up to its stated conditions. budget: proved if no top category ends in a blank, and shown false otherwise (the padding hides it). print: proved for transactions that print can write exactly, and shown false for large amounts."},
 "C13": {"status": "proved", "note": "Repeated blank line, blank before a header, blank at end of file; failures compared up to line numbers."},
 "C130": {"status": "partial", "note": "proved without --show-zero for accounts not called _root_ (with --flat, if anything is asked for in one it must be in the other); shown false for the two exceptions named in the statement."},
 "C131": {"status": "proved", "note": "runs as bytes in one commodity; reports of postings in any commodities."},
 "C132": {"status": "proved", "note": "runs as bytes in one commodity; reports of postings in any commodities; the sign of each number separately."},
 "C133": {"status": "proved", "note": "C133_reports for what is filed; C133_runs for two runs."},
 "C134": {"status": "proved", "note": "C134_last_false and C134_include_false show why at most the last item, and include directives, are excepted."},
 "C135": {"status": "partial", "note": "Proved for all runs of statistics in which no transaction is on 1 January of the year 1 (C135_first_day_false: then the money may be older than the period)."},
 "C136": {"status": "proved", "note": "Carrying balances forward: at the level of reports, of whole runs, and of texts (the opening transaction as print writes it). Mixed commodities: C136_mixed_false."},
 "C137": {"status": "proved", "note": "Every kind of slip in the statement, at the level of bytes to printed output. C137_unnoticed_false shows what is outside the statement: an amount left out, and two slips."},
 "C138": {"status": "proved", "note": "On the printed lines, for all runs. C138_collapse_false for --collapse."},
 "C139": {"status": "proved", "note": "Of the days asked for, both limits are moved. Balance in one commodity; print if no two transactions are on the same day. Budgets are by month: C139_budget_false."},
 "C14": {"status": "proved", "note": "Exact equality of the parse for LF, CRLF and missing final newline, for lines that fit the buffer."},
 "C140": {"status": "proved", "note": "Without arguments, so that the order of postings is the written one; what is posted in the two journals is compared, not how it is written."},
 "C141": {"status": "proved", "note": "Compares what is posted in the two journals. The condition on sums is met by odd factors (keeps_odd) and if the multiples fit (keeps_fitting); C141_overflow_false shows that it is needed."},
 "C142": {"status": "proved", "note": "Every number; warnings, months and categories are the same and all figures are multiples modulo 2^64; runs without filter arguments."},
 "C143": {"status": "proved", "note": "C143_journal for the parts of a journal, C143_period for the parts of a period; C143_budgeted_false shows that what is budgeted is repeated, not shared out."},
 "C144": {"status": "proved", "note": "Whole runs (C144_statistics), with C144_age for the list of ages itself; C144_overflow_false shows why the bound is needed."},
 "C145": {"status": "proved", "note": "runs of budget with any filters and date flags; equal output without a commodity, equal reports in one commodity"},
 "C146": {"status": "proved", "note": "all forms of balance, and budget; C146_wide_false: wider figures and names push their lines out"},
 "C147": {"status": "proved", "note": "runs of statistics without arguments, any date flags; C147_kinds_false: the names Income and Expenses are special"},
 "C148": {"status": "proved", "note": "runs of statistics with any filters and date flags; C148_needed_false: income that is needed matters"},
 "C149": {"status": "proved", "note": "Balances and budgets of whole runs; C149_overlap_false shows why no posting may be asked for twice."},
 "C15": {"status": "proved", "note": "Both the case where the first part parses and the case where it fails."},
 "C150": {"status": "proved", "note": "Whole runs of accounts, payees, print and statistics."},
 "C151": {"status": "proved", "note": "Whole runs; C151_mixed_false shows why balance needs one commodity."},
 "C152": {"status": "proved", "note": "Whole runs; C152_transactions_false shows why the postings and not only the transactions must be the same."},
 "C16": {"status": "proved", "note": "C16_tree_inlining: any tree of files in which none is missing (C16_include_is_inlining is the one-level form, stated on bytes). Calls compared up to the file path, failures up to position."},
 "C17": {"status": "proved", "note": "For every limit on open files: direct self-inclusion and any set of files each of which includes one of the set."},
 "C18": {"status": "partial", "note": "False of the code (C18_attribution_false). Proved: correct for a file without includes and for one level of includes met between transactions; C18_labels_partial gives the file name of every call for every tree of files (own file until the first include directive in it, the root file from then on)."},
 "C19": {"status": "proved", "note": "Root file without includes; the failing line is named and everything before it was processed; only the end of file failure has no number."},
 "C20": {"status": "partial", "note": "False of the code (C20_never_crashes_false). Proved: no crash for every file accepted by the SafeText automaton, whatever other errors it has; a file not accepted by it never parses (C20_unsafe_fails_partial); exactly which lines crash the parser at which points (C20_lines_partial) and exactly which journals do (C20_exactly_partial, C20_otherwise_partial)."},
 "C21": {"status": "proved", "note": "Fatal at the over-long line; fitting lines are whole; no byte lost in files without CR."},
 "C22": {"status": "proved", "note": "Valid text is decoded to its characters; the cursor-based lexer depends only on the decoded characters; bytes are divided into characters without gap or overlap."},
 "C23": {"status": "partial", "note": "False of the code for header notes written after fewer than two blanks (C23_header_note_false). Proved: as written for every well-formed header line; otherwise the first character after the end of the payee is lost and the rest is the note (C23_lost_character_partial, C23_nothing_lost_partial; notes of blanks only: C23_blanks_after_lost_partial, C23_blanks_only_partial)."},
 "C24": {"status": "proved", "note": "Every written posting is delivered with the account, commodity and quantity it was written with, for whole journals."},
 "C25": {"status": "proved", "note": "Notes under the header go to the transaction and those under a posting to that posting, in order, for whole journals."},
 "C26": {"status": "partial", "note": "False of the code (C26_no_line_ignored_false). Proved: an indented line beginning with a letter is never ignored; every other indented line that is not a comment is ignored, wherever it stands (C26_ignored_partial)."},
 "C27": {"status": "proved", "note": "By induction over the list of postings; the postings must carry amounts, otherwise the program crashes (C27_no_amount_crashes)."},
 "C28": {"status": "proved", "note": "Holds whenever the command prints a report, for all date flags and report forms. A transaction whose elided posting got no amount crashes the command before it prints anything; C61_runs says when it gets through."},
 "C29": {"status": "proved", "note": ""},
 "C30": {"status": "proved", "note": ""},
 "C31": {"status": "proved", "note": "A reserved name among the ancestors cuts the path (C31_reserved_names_cut); C31_path therefore excludes it, as the statement does; C31_spelled gives the path of every account without exception."},
 "C32": {"status": "partial", "note": "False of the code (C32_components_own_false). Proved: exactly which names the components hold in every tree without reserved names, and which accounts share an array (C32_components_exact_partial, C32_shared_exactly_partial); they are the account's own down to three levels, and at all levels while no account from the third level on has two children."},
 "C33": {"status": "proved", "note": ""},
 "C34": {"status": "proved", "note": "The user's expectation that no non-zero account is hidden is refuted (C34_nonzero_shown_false). Accounts named _root_ are never removed."},
 "C35": {"status": "proved", "note": ""},
 "C36": {"status": "proved", "note": ""},
 "C37": {"status": "proved", "note": ""},
 "C38": {"status": "proved", "note": "All trees, all prefixes that are never empty (the code tests the text so far for emptiness). A childless root is printed as a line of its own."},
 "C39": {"status": "proved", "note": "All trees."},
 "C40": {"status": "proved", "note": "All trees; levels and chains are defined from the tree alone, and every account is shown on exactly one line."},
 "C41": {"status": "proved", "note": "All trees and all permutations of all child maps, for prefixes that do not themselves depend on the order; the balance prefix does not."},
 "C42": {"status": "partial", "note": "False of the code (C42_lines_sum_false); the exact relation for all journals is C42_lines_and_own_postings, and the claim holds if nothing is posted to a parent."},
 "C43": {"status": "proved", "note": ""},
 "C44": {"status": "proved", "note": ""},
 "C45": {"status": "proved", "note": "The empty argument crashes (C45_empty_argument_crashes)."},
 "C46": {"status": "partial", "note": "False of the code west of UTC (C46_date_range_false). Proved for zones from UTC to UTC+24h, transactions of year 1 on, either flag absent or present; C46_west_partial gives the exact range west of UTC (begin excluded, end included)."},
 "C47": {"status": "partial", "note": "False of the code (C47_current_false). Proved: the exact set included, one day too many."},
 "C48": {"status": "partial", "note": "False of the code for signed years (C48_smart_dates_false). Proved: every smart date is read as the day it names, and texts not beginning with a sign are accepted only if they are one. What is accepted exactly (smart dates, and years of three digits with a sign) is C48_accepted."},
 "C49": {"status": "proved", "note": "Every sort by date (stable or not), every filter list and date range; the output is the concatenation of the formatted transactions, so with C24/C25 it is readable."},
 "C50": {"status": "proved", "note": "For tidy transactions (clean texts, an amount in every posting, quantities below 100*2^46, lines within the read buffer). The record of which amount was missing in the source is not printed and not compared."},
 "C51": {"status": "proved", "note": "Every map iteration order. The filters are matched against the account path whatever their kind, as the code does."},
 "C52": {"status": "proved", "note": "Every map iteration order and regular expression engine; a bad argument gives its compile error."},
 "C53": {"status": "proved", "note": "Also the income and expense buckets. Dates of 1 January of year 1 excluded for the first and last date: C53_first_date_false shows that such a transaction is forgotten."},
 "C54": {"status": "proved", "note": "Also which expense is matched with which income. For the matching, days with expenses summing to zero are excluded: C54_zero_expense_false."},
 "C55": {"status": "proved", "note": "Same paths in both trees for every sequence of filed postings; hence every line of the report is found."},
 "C56": {"status": "proved", "note": "Month sums for every sequence, independence of other months, and end to end for the budget command up to the order in which maps hand over postings. Also shown: which postings make the code crash (no amount; an account that is just the root)."},
 "C57": {"status": "proved", "note": "For every sequence of filed postings whose allocations sum to zero, and for every run of the budget command, where they do because each transaction balances."},
 "C58": {"status": "partial", "note": "False of the code (C58_columns_false: Budgeted and Activity are swapped); the partial theorem states what each column shows."},
 "C59": {"status": "proved", "note": "For all days of the calendar."},
 "C60": {"status": "partial", "note": "False of the code (C60_period_rejected_false). Proved: what each text is read as."},
 "C61": {"status": "proved", "note": "Quantities and set of accounts; the text of the report is the subject of C38-C40."},
 "C62": {"status": "partial", "note": "False of the code (C62_per_commodity_false). Proved for delivered transactions written in a single commodity."},
 "C63": {"status": "proved", "note": "End to end from bytes to text. In the flat form the paths begin after the last reserved name, if there is one (C31_spelled). Printing goes through the modelled number formatting."},
 "C64": {"status": "partial", "note": "The claim is false of the code (C64_age_average_false); proved for at most ten matches, and C64_age_average_exact says what is computed for any number."},
 "C65": {"status": "proved", "note": "Invariant over lexer items, parser and builder."},
 "C66": {"status": "proved", "note": "The sort used by print must leave a list in date order unchanged (a hypothesis for idempotence; sort.Slice is not modelled)."},
 "C67": {"status": "proved", "note": "The text is given in terms of the filed postings up to map order; the placeholder lines of the header are as printed by the code."},
 "C68": {"status": "partial", "note": "False of the code (C68_commodity_false); the partial theorem says which commodity is shown."},
 "C69": {"status": "partial", "note": "False of the code (C69_period_days_false). Proved exactly for all journals without zero dates: the smaller of the number of days and 106752."},
 "C70": {"status": "partial", "note": "False of the code for a single day (C70_per_day_false); proved for at least one day between first and last; for a single day the text is +Inf (FiguresOf.rateZero in C72)."},
 "C71": {"status": "proved", "note": "Float64 arithmetic is modelled exactly (round to nearest even)."},
 "C72": {"status": "proved", "note": "humanize.Time is a parameter. Figures carry the conditions of C53, C54, C64, C69 and C70; the average is the one the code computes (C64)."},
 "C73": {"status": "proved", "note": "The warnings are stated over the delivered transactions (one list of postings per transaction: in written order if the whole transaction is selected, otherwise a permutation of the selected ones because of the map order); the report after them is that of the same postings in the same order."},
 "C74": {"status": "partial", "note": "False of the code (C74_mixes_reported_false). Proved: two different written commodities are always pointed out, and silence holds exactly if blank ones come first and one commodity follows."},
 "C75": {"status": "proved", "note": "Stated over the postings filed per transaction; order as written for budget transactions and whole transactions, a permutation of the selected ones otherwise; the report after the warnings is that of the same postings in the same order."},
 "C76": {"status": "partial", "note": "False of the code (C76_one_commodity_false). Proved: exact condition for silence (parents budgeted before children in the month, pool not empty), and silence for flat categories."},
 "C77": {"status": "proved", "note": "The text of the opening error is a parameter (standard library)."},
 "C78": {"status": "partial", "note": "False of the code (C78_exit_status_false). Proved: exact characterisation of the runs with a status other than 0."},
 "C79": {"status": "proved", "note": "Provided the command's own handling has not stopped before (date flags, panic). Messages of the standard library are a parameter."},
 "C80": {"status": "partial", "note": "False of the code (C80_dates_false). Proved: with at least one delivered transaction every command but budget prints one error ending with the reason and nothing else; budget does so or panics; without transactions the flags go unnoticed."},
 "C81": {"status": "partial", "note": "False of the code (C81_words_false). Proved: all words but p. C81_table compares every word with a table written out in the statement."},
 "C82": {"status": "proved", "note": "Standard error and what a panicking report has already printed are not modelled; reports do not panic in the model."},
 "C83": {"status": "proved", "note": "Runs are compared as output and exit status; for rejected journals the message may name another file and line. File names in the statistics' list differ (shown)."},
 "C84": {"status": "proved", "note": "Layout changes are those of Spec/Layout: comment lines below the read buffer's size, blank lines where another blank line, a header or the end follows, line ends."},
 "C85": {"status": "proved", "note": "Quantities and accounts; the commodity shown depends on which posting comes first."},
 "C86": {"status": "proved", "note": "For readable dates, without --current, and a dividing date other than the zero instant, which the program takes as no date."},
 "C87": {"status": "proved", "note": "Without filters and arguments; all four commands must get through."},
 "C88": {"status": "proved", "note": "Both commands must get through; the budget stops where C57 says. Sums are in 64-bit arithmetic."},
 "C89": {"status": "proved", "note": "For transactions that print can write (C50, C66)."},
 "C90": {"status": "proved", "note": "Without filters; before accounts with zero amount are removed from the tree."},
 "C91": {"status": "proved", "note": "Runs are compared up to the line and file named in an error."},
 "C92": {"status": "proved", "note": "For present years 1000 to 9999."},
 "C93": {"status": "partial", "note": "False of the code (C93_orders_false). Proved: accounts, payees, print and version; balance and budget without filters; stats up to the order of the listed files; balance with filters in one commodity; with filters and any commodities, balance and budget fail alike or print the same lines and quantities, and only mixed commodities can differ (C93_balance_partial, C93_budget_partial)."},
 "C94": {"status": "proved", "note": "For lines of the file itself that fit the read buffer. The exact message is for lines of no known kind at which reading has arrived; standard library texts are parameters."},
 "C95": {"status": "proved", "note": "Filters are those of the arguments, in order; the first invalid argument decides; every list of arguments is of one of the two kinds (C95_complete)."},
 "C96": {"status": "proved", "note": "exact: a command on an accepted journal panics iff an amount it needs is missing (the outcome of Close for a zero sum), otherwise exits 0"},
 "C97": {"status": "proved", "note": "The journal is made of entries and budget entries, in one file or in files that include each other (Reads), up to layout (SameLayouts: comment lines, blank lines, line ends); amounts without a fraction or with two places. Transactions after an include directive are attributed to the root, as the code does (seen in statistics only). Days are the ones the code selects (C46, C47: off by a day west of Greenwich and with --current). For payees the arguments are assumed to compile as they stand."},
 "C98": {"status": "proved", "note": "for the kinds of mistakes listed in Spec/Mistakes.lean, after complete paragraphs (each followed by a blank line), in the journal or in included files; the reason given for dates and amounts is known up to what time.Parse and strconv.ParseInt say; an error at the end of a file carries no line number of that file"},
 "C99": {"status": "proved", "note": "Kinds of lines and readings are defined without the model's functions (Spec/Lines, Spec/Journals). The commands' answers are those of C97 and C98, for settings in which the root file exists, the filters compile and the date flags can be read."}
}
