# Axioms of each property theorem

Written by `tools/axioms.py` from `#print axioms`.

| property | theorem | axioms |
|---|---|---|
| C01 | `Gledger.C01_delivered_balance` | Classical.choice, Quot.sound, propext |
| C02 | `Gledger.C02_elided_inferred` | Classical.choice, Quot.sound, propext |
| C03 | `Gledger.C03_unbalanced_rejected` | Classical.choice, Quot.sound, propext |
| C03 | `Gledger.C03_first_entry` | Classical.choice, Quot.sound, propext |
| C03 | `Gledger.C03_directly` | Classical.choice, Quot.sound, propext |
| C04 | `Gledger.C04_exactly_partial` | Classical.choice, Quot.sound, propext |
| C04 | `Gledger.C04_all_amounts_false` | Classical.choice, Quot.sound, propext |
| C04 | `Gledger.C04_all_amounts_partial` | Classical.choice, Quot.sound, propext |
| C05 | `Gledger.C05_elided_rejected_false` | Classical.choice, Quot.sound, propext |
| C05 | `Gledger.C05_last_elided_partial` | Classical.choice, Quot.sound, propext |
| C05 | `Gledger.C05_surplus_dropped_partial` | Classical.choice, Quot.sound, propext |
| C05 | `Gledger.C05_directly_partial` | Classical.choice, Quot.sound, propext |
| C06 | `Gledger.C06_accepted_texts_partial` | Classical.choice, Quot.sound, propext |
| C06 | `Gledger.C06_decimal_value_partial` | Classical.choice, Quot.sound, propext |
| C06 | `Gledger.C06_decimal_value_false` | Classical.choice, Quot.sound, propext |
| C06 | `Gledger.C06_rejected_false` | Classical.choice, Quot.sound, propext |
| C07 | `Gledger.C07_display_exact` | Classical.choice, Quot.sound, propext |
| C07 | `Gledger.C07_display_beyond_false` | Classical.choice, Quot.sound, propext |
| C08 | `Gledger.C08_display_parses_back` | Classical.choice, Quot.sound, propext |
| C09 | `Gledger.C09_too_large_false` | Classical.choice, Quot.sound, propext |
| C09 | `Gledger.C09_whole_too_large_partial` | Classical.choice, Quot.sound, propext |
| C10 | `Gledger.C10_dates_accepted` | Classical.choice, Quot.sound, propext |
| C11 | `Gledger.C11_format_parses_back` | Classical.choice, Quot.sound, propext |
| C11 | `Gledger.C11_comparison_is_calendar_order` | Classical.choice, Quot.sound, propext |
| C11 | `Gledger.C11_layout` | Classical.choice, Quot.sound, propext |
| C12 | `Gledger.C12_comment_lines` | Classical.choice, Quot.sound, propext |
| C13 | `Gledger.C13_repeated_blank` | Classical.choice, Quot.sound, propext |
| C13 | `Gledger.C13_blank_before_header` | Classical.choice, Quot.sound, propext |
| C13 | `Gledger.C13_blank_at_end` | Classical.choice, Quot.sound, propext |
| C14 | `Gledger.C14_line_endings` | Classical.choice, Quot.sound, propext |
| C15 | `Gledger.C15_files_compose` | Classical.choice, Quot.sound, propext |
| C15 | `Gledger.C15_first_part_fails` | Classical.choice, Quot.sound, propext |
| C16 | `Gledger.C16_tree_inlining` | Classical.choice, Quot.sound, propext |
| C16 | `Gledger.C16_include_is_inlining` | Classical.choice, Quot.sound, propext |
| C17 | `Gledger.C17_cyclic_include_fails` | Classical.choice, Quot.sound, propext |
| C17 | `Gledger.C17_self_include_fails` | Classical.choice, Quot.sound, propext |
| C18 | `Gledger.C18_labels_partial` | Classical.choice, Quot.sound, propext |
| C18 | `Gledger.C18_attribution_false` | Classical.choice, Quot.sound, propext |
| C18 | `Gledger.C18_single_file_partial` | Classical.choice, Quot.sound, propext |
| C18 | `Gledger.C18_include_partial` | Classical.choice, Quot.sound, propext |
| C19 | `Gledger.C19_errors_name_line` | Classical.choice, Quot.sound, propext |
| C19 | `Gledger.C19_line_number_or_end` | Classical.choice, Quot.sound, propext |
| C20 | `Gledger.C20_lines_partial` | Classical.choice, Quot.sound, propext |
| C20 | `Gledger.C20_exactly_partial` | Classical.choice, Quot.sound, propext |
| C20 | `Gledger.C20_otherwise_partial` | Classical.choice, Quot.sound, propext |
| C20 | `Gledger.C20_never_crashes_false` | Classical.choice, Quot.sound, propext |
| C20 | `Gledger.C20_safe_text_partial` | Classical.choice, Quot.sound, propext |
| C20 | `Gledger.C20_unsafe_fails_partial` | Classical.choice, Quot.sound, propext |
| C21 | `Gledger.C21_long_line_is_fatal` | Classical.choice, Quot.sound, propext |
| C21 | `Gledger.C21_fitting_line_is_whole` | Quot.sound, propext |
| C21 | `Gledger.C21_no_byte_lost` | Quot.sound, propext |
| C22 | `Gledger.C22_valid_text` | Classical.choice, Quot.sound, propext |
| C22 | `Gledger.C22_only_characters_matter` | Classical.choice, Quot.sound, propext |
| C22 | `Gledger.C22_every_byte_once` | Classical.choice, Quot.sound, propext |
| C23 | `Gledger.C23_header_line_partial` | Classical.choice, Quot.sound, propext |
| C23 | `Gledger.C23_date_partial` | Classical.choice, Quot.sound, propext |
| C23 | `Gledger.C23_header_note_false` | Classical.choice, Quot.sound, propext |
| C23 | `Gledger.C23_lost_character_partial` | Classical.choice, Quot.sound, propext |
| C23 | `Gledger.C23_blanks_after_lost_partial` | Classical.choice, Quot.sound, propext |
| C23 | `Gledger.C23_blanks_only_partial` | Classical.choice, Quot.sound, propext |
| C23 | `Gledger.C23_nothing_lost_partial` | Classical.choice, Quot.sound, propext |
| C24 | `Gledger.C24_posting_line` | Classical.choice, Quot.sound, propext |
| C24 | `Gledger.C24_amount_value` | Classical.choice, Quot.sound, propext |
| C25 | `Gledger.C25_notes_attach` | Classical.choice, Quot.sound, propext |
| C26 | `Gledger.C26_no_line_ignored_false` | Classical.choice, Quot.sound, propext |
| C26 | `Gledger.C26_letter_line_partial` | Classical.choice, Quot.sound, propext |
| C26 | `Gledger.C26_ignored_partial` | Classical.choice, Quot.sound, propext |
| C27 | `Gledger.C27_balance_is_sum` | Classical.choice, Quot.sound, propext |
| C27 | `Gledger.C27_no_amount_crashes` | Classical.choice, Quot.sound, propext |
| C28 | `Gledger.C28_total_zero` | Classical.choice, Quot.sound, propext |
| C29 | `Gledger.C29_parent_is_own_plus_children` | Classical.choice, Quot.sound, propext |
| C30 | `Gledger.C30_find_or_create` | Classical.choice, Quot.sound, propext |
| C30 | `Gledger.C30_different` | Classical.choice, Quot.sound, propext |
| C31 | `Gledger.C31_spelled` | Classical.choice, Quot.sound, propext |
| C31 | `Gledger.C31_path` | Classical.choice, Quot.sound, propext |
| C31 | `Gledger.C31_split` | Classical.choice, Quot.sound, propext |
| C31 | `Gledger.C31_reserved_names_cut` | Classical.choice, Quot.sound, propext |
| C31 | `Gledger.C31_head` | Classical.choice, Quot.sound, propext |
| C32 | `Gledger.C32_components_own_false` | Classical.choice, Quot.sound, propext |
| C32 | `Gledger.C32_three_levels_partial` | Classical.choice, Quot.sound, propext |
| C32 | `Gledger.C32_narrow_partial` | Classical.choice, Quot.sound, propext |
| C32 | `Gledger.C32_components_exact_partial` | Classical.choice, Quot.sound, propext |
| C32 | `Gledger.C32_shared_exactly_partial` | Classical.choice, Quot.sound, propext |
| C33 | `Gledger.C33_order_irrelevant` | Classical.choice, Quot.sound, propext |
| C34 | `Gledger.C34_shown` | Classical.choice, Quot.sound, propext |
| C34 | `Gledger.C34_unchanged` | Classical.choice, Quot.sound, propext |
| C34 | `Gledger.C34_no_zero` | Classical.choice, Quot.sound, propext |
| C34 | `Gledger.C34_nonzero_shown_false` | Classical.choice, Quot.sound, propext |
| C34 | `Gledger.C34_words` | Classical.choice, Quot.sound, propext |
| C35 | `Gledger.C35_prune` | Classical.choice, Quot.sound, propext |
| C35 | `Gledger.C35_negative` | Classical.choice, Quot.sound, propext |
| C36 | `Gledger.C36_remove` | Classical.choice, Quot.sound, propext |
| C37 | `Gledger.C37_find_accounts` | Classical.choice, Quot.sound, propext |
| C37 | `Gledger.C37_leaves` | Classical.choice, Quot.sound, propext |
| C38 | `Gledger.C38_flat_report` | Classical.choice, Quot.sound, propext |
| C39 | `Gledger.C39_tree_report` | Classical.choice, Quot.sound, propext |
| C40 | `Gledger.C40_collapsed_report` | Classical.choice, Quot.sound, propext |
| C40 | `Gledger.C40_each_once` | Classical.choice, Quot.sound, propext |
| C41 | `Gledger.C41_order_irrelevant` | Classical.choice, Quot.sound, propext |
| C41 | `Gledger.C41_balance` | Classical.choice, Quot.sound, propext |
| C42 | `Gledger.C42_lines_and_own_postings` | Classical.choice, Quot.sound, propext |
| C42 | `Gledger.C42_lines_sum_partial` | Classical.choice, Quot.sound, propext |
| C42 | `Gledger.C42_lines_sum_false` | Classical.choice, Quot.sound, propext |
| C43 | `Gledger.C43_evaluators_agree` | Classical.choice, Quot.sound, propext |
| C44 | `Gledger.C44_whole` | Quot.sound, propext |
| C44 | `Gledger.C44_any_of` | Classical.choice, Quot.sound, propext |
| C44 | `Gledger.C44_out_of_range` | propext |
| C44 | `Gledger.C44_order` | Classical.choice, Quot.sound, propext |
| C44 | `Gledger.C44_more_filters` | Classical.choice, Quot.sound, propext |
| C45 | `Gledger.C45_filter_argument` | Classical.choice, Quot.sound, propext |
| C45 | `Gledger.C45_empty_argument_crashes` | Classical.choice, Quot.sound, propext |
| C46 | `Gledger.C46_date_range_false` | Classical.choice, Quot.sound, propext |
| C46 | `Gledger.C46_days_partial` | Classical.choice, Quot.sound, propext |
| C46 | `Gledger.C46_date_range_partial` | Classical.choice, Quot.sound, propext |
| C46 | `Gledger.C46_west_partial` | Classical.choice, Quot.sound, propext |
| C47 | `Gledger.C47_current_false` | propext |
| C47 | `Gledger.C47_current_partial` | Classical.choice, Quot.sound, propext |
| C47 | `Gledger.C47_today_partial` | Classical.choice, Quot.sound, propext |
| C48 | `Gledger.C48_smart_dates_false` | Classical.choice, Quot.sound, propext |
| C48 | `Gledger.C48_accepted` | Classical.choice, Quot.sound, propext |
| C48 | `Gledger.C48_smart_dates_partial` | Classical.choice, Quot.sound, propext |
| C49 | `Gledger.C49_print` | Classical.choice, Quot.sound, propext |
| C49 | `Gledger.C49_runs` | Classical.choice, Quot.sound, propext |
| C49 | `Gledger.C49_layout` | Classical.choice, Quot.sound, propext |
| C50 | `Gledger.C50_print_parses_back` | Classical.choice, Quot.sound, propext |
| C51 | `Gledger.C51_accounts` | Classical.choice, Quot.sound, propext |
| C52 | `Gledger.C52_payees` | Classical.choice, Quot.sound, propext |
| C52 | `Gledger.C52_bad_argument` | Classical.choice, Quot.sound, propext |
| C53 | `Gledger.C53_statistics` | Classical.choice, Quot.sound, propext |
| C53 | `Gledger.C53_first_date_false` | Classical.choice, Quot.sound, propext |
| C54 | `Gledger.C54_words` | Classical.choice, Quot.sound, propext |
| C54 | `Gledger.C54_first_in_first_out` | Classical.choice, Quot.sound, propext |
| C54 | `Gledger.C54_nothing_lost` | Classical.choice, Quot.sound, propext |
| C54 | `Gledger.C54_zero_expense_false` | none |
| C54 | `Gledger.C54_of_journal` | Classical.choice, Quot.sound, propext |
| C55 | `Gledger.C55_same_paths` | Classical.choice, Quot.sound, propext |
| C55 | `Gledger.C55_report_complete` | Classical.choice, Quot.sound, propext |
| C56 | `Gledger.C56_month_sums` | Classical.choice, Quot.sound, propext |
| C56 | `Gledger.C56_other_months` | Classical.choice, Quot.sound, propext |
| C56 | `Gledger.C56_crashes` | Classical.choice, Quot.sound, propext |
| C56 | `Gledger.C56_command` | Classical.choice, Quot.sound, propext |
| C56 | `Gledger.C56_words` | Classical.choice, Quot.sound, propext |
| C57 | `Gledger.C57_pool` | Classical.choice, Quot.sound, propext |
| C57 | `Gledger.C57_command` | Classical.choice, Quot.sound, propext |
| C57 | `Gledger.C57_words` | Classical.choice, Quot.sound, propext |
| C58 | `Gledger.C58_columns_false` | Classical.choice, Quot.sound, propext |
| C58 | `Gledger.C58_columns_partial` | Classical.choice, Quot.sound, propext |
| C59 | `Gledger.C59_month_keys` | Quot.sound, propext |
| C60 | `Gledger.C60_period_rejected_false` | Classical.choice, Quot.sound, propext |
| C60 | `Gledger.C60_period_read_partial` | Classical.choice, Quot.sound, propext |
| C61 | `Gledger.C61_runs_iff` | Classical.choice, Quot.sound, propext |
| C61 | `Gledger.C61_filtered_balance` | Classical.choice, Quot.sound, propext |
| C61 | `Gledger.C61_runs` | Classical.choice, Quot.sound, propext |
| C62 | `Gledger.C62_per_commodity_false` | Classical.choice, Quot.sound, propext |
| C62 | `Gledger.C62_per_commodity_partial` | Classical.choice, Quot.sound, propext |
| C63 | `Gledger.C63_flat` | Classical.choice, Quot.sound, propext |
| C63 | `Gledger.C63_tree` | Classical.choice, Quot.sound, propext |
| C63 | `Gledger.C63_collapsed` | Classical.choice, Quot.sound, propext |
| C64 | `Gledger.C64_overflow_false` | Classical.choice, Quot.sound, propext |
| C64 | `Gledger.C64_age_average_exact` | Classical.choice, Quot.sound, propext |
| C64 | `Gledger.C64_age_average_partial` | Classical.choice, Quot.sound, propext |
| C64 | `Gledger.C64_age_average_false` | Classical.choice, Quot.sound, propext |
| C65 | `Gledger.C65_commodities` | Classical.choice, Quot.sound, propext |
| C65 | `Gledger.C65_delivered_sound` | Classical.choice, Quot.sound, propext |
| C65 | `Gledger.C65_delivered_period` | Classical.choice, Quot.sound, propext |
| C65 | `Gledger.C65_one_line` | Classical.choice, Quot.sound, propext |
| C65 | `Gledger.C65_delivered_one_line` | Classical.choice, Quot.sound, propext |
| C66 | `Gledger.C66_printed_is_journal` | Classical.choice, Quot.sound, propext |
| C66 | `Gledger.C66_print_idempotent` | Classical.choice, Quot.sound, propext |
| C66 | `Gledger.C66_print_again` | Classical.choice, Quot.sound, propext |
| C67 | `Gledger.C67_budget_report` | Classical.choice, Quot.sound, propext |
| C67 | `Gledger.C67_words` | Classical.choice, Quot.sound, propext |
| C68 | `Gledger.C68_commodity_false` | Classical.choice, Quot.sound, propext |
| C68 | `Gledger.C68_commodity_partial` | Classical.choice, Quot.sound, propext |
| C69 | `Gledger.C69_period_days_partial` | Classical.choice, Quot.sound, propext |
| C69 | `Gledger.C69_period_shown_partial` | Classical.choice, Quot.sound, propext |
| C69 | `Gledger.C69_period_days_false` | propext |
| C70 | `Gledger.C70_per_day_partial` | Classical.choice, Quot.sound, propext |
| C70 | `Gledger.C70_per_day_false` | Classical.choice, Quot.sound, propext |
| C71 | `Gledger.C71_age_days` | Classical.choice, Quot.sound, propext |
| C72 | `Gledger.C72_statistics_report` | Classical.choice, Quot.sound, propext |
| C73 | `Gledger.C73_warnings` | Classical.choice, Quot.sound, propext |
| C73 | `Gledger.C73_balance_output` | Classical.choice, Quot.sound, propext |
| C73 | `Gledger.C73_one_commodity` | Classical.choice, Quot.sound, propext |
| C74 | `Gledger.C74_mixes_reported_false` | Classical.choice, Quot.sound, propext |
| C74 | `Gledger.C74_mixes_reported_partial` | Classical.choice, Quot.sound, propext |
| C75 | `Gledger.C75_warnings` | Classical.choice, Quot.sound, propext |
| C75 | `Gledger.C75_budget_output` | Classical.choice, Quot.sound, propext |
| C76 | `Gledger.C76_one_commodity_false` | Classical.choice, Quot.sound, propext |
| C76 | `Gledger.C76_one_commodity_partial` | Classical.choice, Quot.sound, propext |
| C76 | `Gledger.C76_flat_categories_partial` | Classical.choice, Quot.sound, propext |
| C77 | `Gledger.C77_file_flag` | Classical.choice, Quot.sound, propext |
| C77 | `Gledger.C77_environment` | Classical.choice, Quot.sound, propext |
| C77 | `Gledger.C77_no_journal` | Classical.choice, Quot.sound, propext |
| C77 | `Gledger.C77_missing_journal` | Classical.choice, Quot.sound, propext |
| C78 | `Gledger.C78_exit_status_false` | Classical.choice, Quot.sound, propext |
| C78 | `Gledger.C78_exit_status_partial` | Classical.choice, Quot.sound, propext |
| C79 | `Gledger.C79_message` | Classical.choice, Quot.sound, propext |
| C80 | `Gledger.C80_reported_partial` | Classical.choice, Quot.sound, propext |
| C80 | `Gledger.C80_unnoticed` | Classical.choice, Quot.sound, propext |
| C80 | `Gledger.C80_dates_false` | Classical.choice, Quot.sound, propext |
| C80 | `Gledger.C80_dates_partial` | Classical.choice, Quot.sound, propext |
| C81 | `Gledger.C81_table` | Classical.choice, Quot.sound, propext |
| C81 | `Gledger.C81_words_false` | Classical.choice, Quot.sound, propext |
| C81 | `Gledger.C81_words_partial` | Classical.choice, Quot.sound, propext |
| C81 | `Gledger.C81_only_words` | Classical.choice, Quot.sound, propext |
| C82 | `Gledger.C82_no_partial_report` | Classical.choice, Quot.sound, propext |
| C83 | `Gledger.C83_split` | Classical.choice, Quot.sound, propext |
| C83 | `Gledger.C83_split_statistics` | Classical.choice, Quot.sound, propext |
| C84 | `Gledger.C84_layout` | Classical.choice, Quot.sound, propext |
| C85 | `Gledger.C85_parts_add` | Classical.choice, Quot.sound, propext |
| C85 | `Gledger.C85_parts_swap` | Classical.choice, Quot.sound, propext |
| C86 | `Gledger.C86_transactions` | Classical.choice, Quot.sound, propext |
| C86 | `Gledger.C86_periods_add` | Classical.choice, Quot.sound, propext |
| C87 | `Gledger.C87_counts` | Classical.choice, Quot.sound, propext |
| C88 | `Gledger.C88_budget_balance` | Classical.choice, Quot.sound, propext |
| C89 | `Gledger.C89_printed_balance` | Classical.choice, Quot.sound, propext |
| C90 | `Gledger.C90_accounts_tree` | Classical.choice, Quot.sound, propext |
| C91 | `Gledger.C91_same_transactions` | Classical.choice, Quot.sound, propext |
| C92 | `Gledger.C92_spelling` | Classical.choice, Quot.sound, propext |
| C92 | `Gledger.C92_current` | Classical.choice, Quot.sound, propext |
| C93 | `Gledger.C93_balance_partial` | Classical.choice, Quot.sound, propext |
| C93 | `Gledger.C93_budget_partial` | Classical.choice, Quot.sound, propext |
| C93 | `Gledger.C93_lists_partial` | Classical.choice, Quot.sound, propext |
| C93 | `Gledger.C93_unfiltered_partial` | Classical.choice, Quot.sound, propext |
| C93 | `Gledger.C93_statistics_partial` | Classical.choice, Quot.sound, propext |
| C93 | `Gledger.C93_one_commodity_partial` | Classical.choice, Quot.sound, propext |
| C93 | `Gledger.C93_orders_false` | Classical.choice, Quot.sound, propext |
| C94 | `Gledger.C94_unknown_line` | Classical.choice, Quot.sound, propext |
| C94 | `Gledger.C94_never_accepted` | Classical.choice, Quot.sound, propext |
| C94 | `Gledger.C94_run` | Classical.choice, Quot.sound, propext |
| C94 | `Gledger.C94_no_report` | Classical.choice, Quot.sound, propext |
| C95 | `Gledger.C95_filters` | Classical.choice, Quot.sound, propext |
| C95 | `Gledger.C95_invalid` | Classical.choice, Quot.sound, propext |
| C95 | `Gledger.C95_complete` | Classical.choice, Quot.sound, propext |
| C96 | `Gledger.C96_words` | Classical.choice, Quot.sound, propext |
| C96 | `Gledger.C96_stopped` | Classical.choice, Quot.sound, propext |
| C96 | `Gledger.C96_crash` | Classical.choice, Quot.sound, propext |
| C97 | `Gledger.C97_crash` | Classical.choice, Quot.sound, propext |
| C97 | `Gledger.C97_accounts` | Classical.choice, Quot.sound, propext |
| C97 | `Gledger.C97_payees` | Classical.choice, Quot.sound, propext |
| C97 | `Gledger.C97_print` | Classical.choice, Quot.sound, propext |
| C97 | `Gledger.C97_balance` | Classical.choice, Quot.sound, propext |
| C97 | `Gledger.C97_budget` | Classical.choice, Quot.sound, propext |
| C97 | `Gledger.C97_statistics` | Classical.choice, Quot.sound, propext |
| C98 | `Gledger.C98_reported` | Classical.choice, Quot.sound, propext |
| C99 | `Gledger.C99_lines` | Classical.choice, Quot.sound, propext |
| C99 | `Gledger.C99_one_reading` | Classical.choice, Quot.sound, propext |
| C99 | `Gledger.C99_parsed` | Classical.choice, Quot.sound, propext |
| C99 | `Gledger.C99_answers` | Classical.choice, Quot.sound, propext |
| C99 | `Gledger.C99_well_formed` | Classical.choice, Quot.sound, propext |
| C100 | `Gledger.C100_addEach` | Classical.choice, Quot.sound, propext |
| C100 | `Gledger.C100_balance` | Classical.choice, Quot.sound, propext |
| C101 | `Gledger.C101_crash` | Classical.choice, Quot.sound, propext |
| C101 | `Gledger.C101_unused` | Classical.choice, Quot.sound, propext |
| C101 | `Gledger.C101_flag` | Classical.choice, Quot.sound, propext |
| C101 | `Gledger.C101_every_run` | Classical.choice, Quot.sound, propext |
| C101 | `Gledger.C101_ending` | Classical.choice, Quot.sound, propext |
| C102 | `Gledger.C102_flags` | Classical.choice, Quot.sound, propext |
| C102 | `Gledger.C102_rejects` | Classical.choice, Quot.sound, propext |
| C102 | `Gledger.C102_same` | Classical.choice, Quot.sound, propext |
| C102 | `Gledger.C102_spellings` | Classical.choice, Quot.sound, propext |
| C102 | `Gledger.C102_names` | Classical.choice, Quot.sound, propext |
| C102 | `Gledger.C102_own_names` | Classical.choice, Quot.sound, propext |
| C102 | `Gledger.C102_order` | propext |
| C103 | `Gledger.C103_flags_first_false` | Classical.choice, Quot.sound, propext |
| C103 | `Gledger.C103_before_partial` | Classical.choice, Quot.sound, propext |
| C103 | `Gledger.C103_flags_first_partial` | Classical.choice, Quot.sound, propext |
| C104 | `Gledger.C104_every_line` | Classical.choice, Quot.sound, propext |
| C104 | `Gledger.C104_main` | Classical.choice, Quot.sound, propext |
| C104 | `Gledger.C104_one` | Classical.choice, Quot.sound, propext |
| C105 | `Gledger.C105_names` | Classical.choice, Quot.sound, propext |
| C106 | `Gledger.C106_text` | Classical.choice, Quot.sound, propext |
| C106 | `Gledger.C106_accounts_from_text` | Classical.choice, Quot.sound, propext |
| C107 | `Gledger.C107_bounds_partial` | Classical.choice, Quot.sound, propext |
| C107 | `Gledger.C107_bounds_false` | Classical.choice, Quot.sound, propext |
| C107 | `Gledger.C107_run` | Classical.choice, Quot.sound, propext |
| C108 | `Gledger.C108_paragraphs` | Classical.choice, Quot.sound, propext |
| C108 | `Gledger.C108_ending` | Classical.choice, Quot.sound, propext |
| C108 | `Gledger.C108_lists` | Classical.choice, Quot.sound, propext |
| C108 | `Gledger.C108_print` | Classical.choice, Quot.sound, propext |
| C108 | `Gledger.C108_balance` | Classical.choice, Quot.sound, propext |
| C108 | `Gledger.C108_one_commodity` | Classical.choice, Quot.sound, propext |
| C108 | `Gledger.C108_budget` | Classical.choice, Quot.sound, propext |
| C108 | `Gledger.C108_statistics` | Classical.choice, Quot.sound, propext |
| C109 | `Gledger.C109_heeded` | Classical.choice, Quot.sound, propext |
| C109 | `Gledger.C109_passage` | Classical.choice, Quot.sound, propext |
| C110 | `Gledger.C110_directory` | Quot.sound, propext |
| C110 | `Gledger.C110_moved` | Classical.choice, Quot.sound, propext |
| C110 | `Gledger.C110_statistics` | Classical.choice, Quot.sound, propext |
| C110 | `Gledger.C110_include` | Classical.choice, Quot.sound, propext |
| C110 | `Gledger.C110_missing` | Classical.choice, Quot.sound, propext |
| C111 | `Gledger.C111_lex` | Classical.choice, Quot.sound, propext |
| C111 | `Gledger.C111_items` | Classical.choice, Quot.sound, propext |
| C111 | `Gledger.C111_parse` | Classical.choice, Quot.sound, propext |
| C111 | `Gledger.C111_run` | Classical.choice, Quot.sound, propext |
| C111 | `Gledger.C111_same` | Classical.choice, Quot.sound, propext |
| C112 | `Gledger.C112_success` | Classical.choice, Quot.sound, propext |
| C112 | `Gledger.C112_report` | Classical.choice, Quot.sound, propext |
| C112 | `Gledger.C112_failing` | Classical.choice, Quot.sound, propext |
| C112 | `Gledger.C112_include` | Classical.choice, Quot.sound, propext |
| C112 | `Gledger.C112_no_report` | Classical.choice, Quot.sound, propext |
| C112 | `Gledger.C112_directory` | Classical.choice, Quot.sound, propext |
| C112 | `Gledger.C112_stuck` | Classical.choice, Quot.sound, propext |
| C113 | `Gledger.C113_balanced_iff` | Classical.choice, Quot.sound, propext |
| C113 | `Gledger.C113_balance_exactly_false` | Classical.choice, Quot.sound, propext |
| C113 | `Gledger.C113_balance_exactly_partial` | Classical.choice, Quot.sound, propext |
| C113 | `Gledger.C113_two_partial` | Classical.choice, Quot.sound, propext |
| C113 | `Gledger.C113_accepts` | Classical.choice, Quot.sound, propext |
| C113 | `Gledger.C113_inferred` | Classical.choice, Quot.sound, propext |
| C114 | `Gledger.C114_exact_iff_partial` | Classical.choice, Quot.sound, propext |
| C114 | `Gledger.C114_balances_exact_false` | Classical.choice, Quot.sound, propext |
| C114 | `Gledger.C114_moderate_partial` | Classical.choice, Quot.sound, propext |
| C115 | `Gledger.C115_exact_iff_partial` | Classical.choice, Quot.sound, propext |
| C115 | `Gledger.C115_budget_exact_false` | Classical.choice, Quot.sound, propext |
| C116 | `Gledger.C116_parse` | Classical.choice, Quot.sound, propext |
| C116 | `Gledger.C116_files` | Classical.choice, Quot.sound, propext |
| C117 | `Gledger.C117_no_dates` | Classical.choice, Quot.sound, propext |
| C117 | `Gledger.C117_current` | Classical.choice, Quot.sound, propext |
| C117 | `Gledger.C117_dates` | Classical.choice, Quot.sound, propext |
| C117 | `Gledger.C117_words` | Classical.choice, Quot.sound, propext |
| C118 | `Gledger.C118_current_partial` | Classical.choice, Quot.sound, propext |
| C118 | `Gledger.C118_dates_partial` | Classical.choice, Quot.sound, propext |
| C118 | `Gledger.C118_same_days_false` | Classical.choice, Quot.sound, propext |
| C118 | `Gledger.C118_own_time_partial` | Classical.choice, Quot.sound, propext |
| C118 | `Gledger.C118_balance_partial` | Classical.choice, Quot.sound, propext |
| C118 | `Gledger.C118_budget_partial` | Classical.choice, Quot.sound, propext |
| C118 | `Gledger.C118_statistics_partial` | Classical.choice, Quot.sound, propext |
| C119 | `Gledger.C119_lists` | Classical.choice, Quot.sound, propext |
| C119 | `Gledger.C119_print` | Classical.choice, Quot.sound, propext |
| C119 | `Gledger.C119_balance` | Classical.choice, Quot.sound, propext |
| C119 | `Gledger.C119_one_commodity` | Classical.choice, Quot.sound, propext |
| C119 | `Gledger.C119_budget` | Classical.choice, Quot.sound, propext |
| C119 | `Gledger.C119_statistics` | Classical.choice, Quot.sound, propext |
| C120 | `Gledger.C120_reports` | Classical.choice, Quot.sound, propext |
| C120 | `Gledger.C120_runs` | Classical.choice, Quot.sound, propext |
| C120 | `Gledger.C120_paragraph` | Classical.choice, Quot.sound, propext |
| C121 | `Gledger.C121_reports` | Classical.choice, Quot.sound, propext |
| C121 | `Gledger.C121_runs` | Classical.choice, Quot.sound, propext |
| C121 | `Gledger.C121_paragraph` | Classical.choice, Quot.sound, propext |
| C122 | `Gledger.C122_more_filters` | propext |
| C122 | `Gledger.C122_no_filters` | propext |
| C122 | `Gledger.C122_more_arguments` | Classical.choice, Quot.sound, propext |
| C122 | `Gledger.C122_longer_period` | Classical.choice, Quot.sound, propext |
| C122 | `Gledger.C122_more_paragraphs` | Classical.choice, Quot.sound, propext |
| C122 | `Gledger.C122_accounts` | Classical.choice, Quot.sound, propext |
| C122 | `Gledger.C122_payees` | Classical.choice, Quot.sound, propext |
| C122 | `Gledger.C122_print` | Classical.choice, Quot.sound, propext |
| C122 | `Gledger.C122_balance` | Classical.choice, Quot.sound, propext |
| C122 | `Gledger.C122_budget` | Classical.choice, Quot.sound, propext |
| C122 | `Gledger.C122_statistics` | Classical.choice, Quot.sound, propext |
| C123 | `Gledger.C123_journal_parts` | Classical.choice, Quot.sound, propext |
| C123 | `Gledger.C123_period_parts` | Classical.choice, Quot.sound, propext |
| C123 | `Gledger.C123_accounts` | Classical.choice, Quot.sound, propext |
| C123 | `Gledger.C123_payees` | Classical.choice, Quot.sound, propext |
| C123 | `Gledger.C123_print` | Classical.choice, Quot.sound, propext |
| C123 | `Gledger.C123_statistics` | Classical.choice, Quot.sound, propext |
| C124 | `Gledger.C124_accounts` | Classical.choice, Quot.sound, propext |
| C124 | `Gledger.C124_payees` | Classical.choice, Quot.sound, propext |
| C124 | `Gledger.C124_balance` | Classical.choice, Quot.sound, propext |
| C124 | `Gledger.C124_budget` | Classical.choice, Quot.sound, propext |
| C124 | `Gledger.C124_statistics` | Classical.choice, Quot.sound, propext |
| C125 | `Gledger.C125_balance` | Classical.choice, Quot.sound, propext |
| C125 | `Gledger.C125_budget` | Classical.choice, Quot.sound, propext |
| C126 | `Gledger.C126_words_partial` | Classical.choice, Quot.sound, propext |
| C126 | `Gledger.C126_days` | Classical.choice, Quot.sound, propext |
| C126 | `Gledger.C126_two_years_false` | Classical.choice, Quot.sound, propext |
| C126 | `Gledger.C126_east_false` | Classical.choice, Quot.sound, propext |
| C126 | `Gledger.C126_report_partial` | Classical.choice, Quot.sound, propext |
| C127 | `Gledger.C127_print` | Classical.choice, Quot.sound, propext |
| C127 | `Gledger.C127_balance` | Classical.choice, Quot.sound, propext |
| C127 | `Gledger.C127_accounts_partial` | Classical.choice, Quot.sound, propext |
| C127 | `Gledger.C127_payees_partial` | Classical.choice, Quot.sound, propext |
| C127 | `Gledger.C127_fields_false` | Classical.choice, Quot.sound, propext |
| C128 | `Gledger.C128_reports_partial` | Classical.choice, Quot.sound, propext |
| C128 | `Gledger.C128_runs_partial` | Classical.choice, Quot.sound, propext |
| C128 | `Gledger.C128_sums_partial` | Classical.choice, Quot.sound, propext |
| C128 | `Gledger.C128_flat_false` | Classical.choice, Quot.sound, propext |
| C128 | `Gledger.C128_large_false` | propext |
| C129 | `Gledger.C129_budget_partial` | Classical.choice, Quot.sound, propext |
| C129 | `Gledger.C129_accounts` | Classical.choice, Quot.sound, propext |
| C129 | `Gledger.C129_payees` | Classical.choice, Quot.sound, propext |
| C129 | `Gledger.C129_statistics` | Classical.choice, Quot.sound, propext |
| C129 | `Gledger.C129_print_partial` | Classical.choice, Quot.sound, propext |
| C129 | `Gledger.C129_budget_false` | Classical.choice, Quot.sound, propext |
| C129 | `Gledger.C129_print_false` | Classical.choice, Quot.sound, propext |
| C130 | `Gledger.C130_reports_partial` | Classical.choice, Quot.sound, propext |
| C130 | `Gledger.C130_runs_partial` | Classical.choice, Quot.sound, propext |
| C130 | `Gledger.C130_taken_back_partial` | Classical.choice, Quot.sound, propext |
| C130 | `Gledger.C130_show_zero_false` | Classical.choice, Quot.sound, propext |
| C130 | `Gledger.C130_root_false` | Classical.choice, Quot.sound, propext |
| C131 | `Gledger.C131_texts` | Classical.choice, Quot.sound, propext |
| C131 | `Gledger.C131_reports` | Classical.choice, Quot.sound, propext |
| C131 | `Gledger.C131_runs` | Classical.choice, Quot.sound, propext |
| C131 | `Gledger.C131_accounts` | Classical.choice, Quot.sound, propext |
| C132 | `Gledger.C132_sign` | Classical.choice, Quot.sound, propext |
| C132 | `Gledger.C132_reports` | Classical.choice, Quot.sound, propext |
| C132 | `Gledger.C132_runs` | Classical.choice, Quot.sound, propext |
| C133 | `Gledger.C133_reports` | Classical.choice, Quot.sound, propext |
| C133 | `Gledger.C133_runs` | Classical.choice, Quot.sound, propext |
| C134 | `Gledger.C134_cut` | Classical.choice, Quot.sound, propext |
| C134 | `Gledger.C134_lines` | Classical.choice, Quot.sound, propext |
| C134 | `Gledger.C134_rejected` | Classical.choice, Quot.sound, propext |
| C134 | `Gledger.C134_before` | Classical.choice, Quot.sound, propext |
| C134 | `Gledger.C134_last_false` | Classical.choice, Quot.sound, propext |
| C134 | `Gledger.C134_include_false` | Classical.choice, Quot.sound, propext |
| C135 | `Gledger.C135_figures` | Classical.choice, Quot.sound, propext |
| C135 | `Gledger.C135_runs_partial` | Classical.choice, Quot.sound, propext |
| C135 | `Gledger.C135_first_day_false` | Classical.choice, Quot.sound, propext |
| C136 | `Gledger.C136_reports` | Classical.choice, Quot.sound, propext |
| C136 | `Gledger.C136_runs` | Classical.choice, Quot.sound, propext |
| C136 | `Gledger.C136_replaced` | Classical.choice, Quot.sound, propext |
| C136 | `Gledger.C136_texts` | Classical.choice, Quot.sound, propext |
| C136 | `Gledger.C136_mixed_false` | Classical.choice, Quot.sound, propext |
| C137 | `Gledger.C137_numbers` | Classical.choice, Quot.sound, propext |
| C137 | `Gledger.C137_unbalanced` | Classical.choice, Quot.sound, propext |
| C137 | `Gledger.C137_without` | Classical.choice, Quot.sound, propext |
| C137 | `Gledger.C137_reported` | Classical.choice, Quot.sound, propext |
| C137 | `Gledger.C137_unnoticed_false` | Classical.choice, Quot.sound, propext |
| C138 | `Gledger.C138_reports` | Classical.choice, Quot.sound, propext |
| C138 | `Gledger.C138_runs` | Classical.choice, Quot.sound, propext |
| C138 | `Gledger.C138_collapse_false` | Classical.choice, Quot.sound, propext |
| C139 | `Gledger.C139_age` | Classical.choice, Quot.sound, propext |
| C139 | `Gledger.C139_stats` | Classical.choice, Quot.sound, propext |
| C139 | `Gledger.C139_statistics` | Classical.choice, Quot.sound, propext |
| C139 | `Gledger.C139_balance` | Classical.choice, Quot.sound, propext |
| C139 | `Gledger.C139_accounts` | Classical.choice, Quot.sound, propext |
| C139 | `Gledger.C139_payees` | Classical.choice, Quot.sound, propext |
| C139 | `Gledger.C139_print` | Classical.choice, Quot.sound, propext |
| C139 | `Gledger.C139_budget_false` | Classical.choice, Quot.sound, propext |
| C140 | `Gledger.C140_reports` | Classical.choice, Quot.sound, propext |
| C140 | `Gledger.C140_warnings` | Classical.choice, Quot.sound, propext |
| C140 | `Gledger.C140_budgets` | Classical.choice, Quot.sound, propext |
| C140 | `Gledger.C140_budget_warnings` | Classical.choice, Quot.sound, propext |
| C140 | `Gledger.C140_runs` | Classical.choice, Quot.sound, propext |
| C140 | `Gledger.C140_budget_runs` | Classical.choice, Quot.sound, propext |
| C140 | `Gledger.C140_merged_false` | Classical.choice, Quot.sound, propext |
| C141 | `Gledger.C141_reports` | Classical.choice, Quot.sound, propext |
| C141 | `Gledger.C141_hundredfold` | Classical.choice, Quot.sound, propext |
| C141 | `Gledger.C141_runs` | Classical.choice, Quot.sound, propext |
| C141 | `Gledger.C141_overflow_false` | Classical.choice, Quot.sound, propext |
| C142 | `Gledger.C142_reports` | Classical.choice, Quot.sound, propext |
| C142 | `Gledger.C142_runs` | Classical.choice, Quot.sound, propext |
| C143 | `Gledger.C143_reports` | Classical.choice, Quot.sound, propext |
| C143 | `Gledger.C143_shared` | Classical.choice, Quot.sound, propext |
| C143 | `Gledger.C143_journal` | Classical.choice, Quot.sound, propext |
| C143 | `Gledger.C143_period` | Classical.choice, Quot.sound, propext |
| C143 | `Gledger.C143_budgeted_false` | Classical.choice, Quot.sound, propext |
| C144 | `Gledger.C144_age` | Classical.choice, Quot.sound, propext |
| C144 | `Gledger.C144_stats` | Classical.choice, Quot.sound, propext |
| C144 | `Gledger.C144_statistics` | Classical.choice, Quot.sound, propext |
| C144 | `Gledger.C144_overflow_false` | Classical.choice, Quot.sound, propext |
| C145 | `Gledger.C145_reports` | Classical.choice, Quot.sound, propext |
| C145 | `Gledger.C145_runs` | Classical.choice, Quot.sound, propext |
| C146 | `Gledger.C146_balances` | Classical.choice, Quot.sound, propext |
| C146 | `Gledger.C146_budgets` | Classical.choice, Quot.sound, propext |
| C146 | `Gledger.C146_balance` | Classical.choice, Quot.sound, propext |
| C146 | `Gledger.C146_budget` | Classical.choice, Quot.sound, propext |
| C146 | `Gledger.C146_wide_false` | Classical.choice, Quot.sound, propext |
| C147 | `Gledger.C147_stats` | Classical.choice, Quot.sound, propext |
| C147 | `Gledger.C147_statistics` | Classical.choice, Quot.sound, propext |
| C147 | `Gledger.C147_kinds_false` | Classical.choice, Quot.sound, propext |
| C148 | `Gledger.C148_age` | Classical.choice, Quot.sound, propext |
| C148 | `Gledger.C148_statistics` | Classical.choice, Quot.sound, propext |
| C148 | `Gledger.C148_needed_false` | Classical.choice, Quot.sound, propext |
| C149 | `Gledger.C149_balance` | Classical.choice, Quot.sound, propext |
| C149 | `Gledger.C149_budget` | Classical.choice, Quot.sound, propext |
| C149 | `Gledger.C149_overlap_false` | Classical.choice, Quot.sound, propext |
| C150 | `Gledger.C150_accounts` | Classical.choice, Quot.sound, propext |
| C150 | `Gledger.C150_payees` | Classical.choice, Quot.sound, propext |
| C150 | `Gledger.C150_print` | Classical.choice, Quot.sound, propext |
| C150 | `Gledger.C150_statistics` | Classical.choice, Quot.sound, propext |
| C151 | `Gledger.C151_reports` | Classical.choice, Quot.sound, propext |
| C151 | `Gledger.C151_payees` | Classical.choice, Quot.sound, propext |
| C151 | `Gledger.C151_balance` | Classical.choice, Quot.sound, propext |
| C151 | `Gledger.C151_budget` | Classical.choice, Quot.sound, propext |
| C151 | `Gledger.C151_mixed_false` | Classical.choice, Quot.sound, propext |
| C152 | `Gledger.C152_reports` | Classical.choice, Quot.sound, propext |
| C152 | `Gledger.C152_balance` | Classical.choice, Quot.sound, propext |
| C152 | `Gledger.C152_budget` | Classical.choice, Quot.sound, propext |
| C152 | `Gledger.C152_accounts` | Classical.choice, Quot.sound, propext |
| C152 | `Gledger.C152_payees` | Classical.choice, Quot.sound, propext |
| C152 | `Gledger.C152_covering` | Classical.choice, Quot.sound, propext |
| C152 | `Gledger.C152_all` | Classical.choice, Quot.sound, propext |
| C152 | `Gledger.C152_transactions_false` | Classical.choice, Quot.sound, propext |
