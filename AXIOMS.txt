PO.C01_lookup_decision: propext, Classical.choice, Quot.sound
PO.C01_find_throws: propext
PO.C01_exact_case_sensitive: propext, Quot.sound
PO.C02_order_irrelevant: propext, Classical.choice, Quot.sound
PO.C03_case_insensitive_match: propext, Classical.choice, Quot.sound
PO.C03_case_insensitive_lookup: propext, Classical.choice, Quot.sound
PO.C03_declared_case: propext, Classical.choice, Quot.sound
PO.C04_lost_iff: propext, Classical.choice, Quot.sound
PO.C04_negation: propext, Classical.choice, Quot.sound
PO.C04_short_icase_partial: propext, Classical.choice, Quot.sound
PO.C05_names_with_short: propext, Quot.sound
PO.C05_names_without_short: propext, Quot.sound
PO.C05_known_under: propext, Classical.choice, Quot.sound
PO.C06_canonical_key: propext, Classical.choice, Quot.sound
PO.C07_arguments: propext, Classical.choice, Quot.sound
PO.C07_positional_names: propext, Quot.sound
PO.C07_positional_trailing: propext, Classical.choice, Quot.sound
PO.C07_two_trailing: propext
PO.C08_declared: propext, Classical.choice, Quot.sound
PO.C08_numbered: propext, Classical.choice, Quot.sound
PO.C08_unnamed: propext, Classical.choice, Quot.sound
PO.C08_too_many: propext, Classical.choice, Quot.sound
PO.C08_only_names: propext, Classical.choice, Quot.sound
PO.C09_style_accepted: propext, Quot.sound
PO.C09_default_accepted: propext
PO.C09_parse_refuses: propext, Quot.sound
PO.C10_terminates: propext, Classical.choice, Quot.sound
PO.C10_lengthening_diverges: propext, Classical.choice, Quot.sound
PO.C11_tokens_conserved: propext, Classical.choice, Quot.sound
PO.C11_disguised_rewrites: propext, Classical.choice, Quot.sound
PO.C11_additional_drops: propext, Classical.choice, Quot.sound
PO.C12_terminator: propext, Classical.choice, Quot.sound
PO.C13_adjacent_separate: propext, Classical.choice, Quot.sound
PO.C14_adjacent_separate: propext, Classical.choice, Quot.sound
PO.C15_group_separate: propext, Classical.choice, Quot.sound
PO.C16_negation: propext, Classical.choice, Quot.sound
PO.C16_negation_adjacent: propext, Classical.choice, Quot.sound
PO.C16_placement_ignored: propext, Quot.sound
PO.C16_placement_partial: propext, Quot.sound
PO.C17_all_registered: propext, Classical.choice, Quot.sound
PO.C17_never_unknown: propext, Classical.choice, Quot.sound
PO.C17_flag: propext, Classical.choice, Quot.sound
PO.C17_rejected: propext, Classical.choice, Quot.sound
PO.C18_token_counts: propext, Classical.choice, Quot.sound
PO.C19_subsequence: propext, Classical.choice, Quot.sound
PO.C19_complete: propext, Classical.choice, Quot.sound
PO.C20_names_and_counts: propext, Quot.sound
PO.C21_undefined_all_iff: propext, Classical.choice, Quot.sound
PO.C21_all_partial: propext, Classical.choice, Quot.sound
PO.C21_negation: propext, Classical.choice, Quot.sound
PO.C21_negation_empty: propext, Classical.choice, Quot.sound
PO.C21_no_ub_partial: propext, Classical.choice, Quot.sound
PO.C21_identified_partial: propext, Classical.choice, Quot.sound
PO.C21_undefined_iff: propext, Classical.choice, Quot.sound
PO.C21_tokens_partial: propext, Classical.choice, Quot.sound
PO.C22_exact: propext, Classical.choice, Quot.sound
PO.C22_negation: propext, Classical.choice, Quot.sound
PO.C22_implicit_partial: propext, Classical.choice, Quot.sound
PO.C23_positional_exact: propext, Classical.choice, Quot.sound
PO.C23_token_iff: propext, Classical.choice, Quot.sound
PO.C23_negation: propext, Classical.choice, Quot.sound
PO.C23_no_positional_partial: propext, Classical.choice, Quot.sound
PO.C24_irrelevant_edits: propext, Quot.sound
PO.C24_crlf: propext, Quot.sound
PO.C24_final_newline: propext, Quot.sound
PO.C25_round_trip: propext, Classical.choice, Quot.sound
PO.C26_section_prefix: propext, Classical.choice, Quot.sound
PO.C26_no_section: propext, Classical.choice, Quot.sound
PO.C27_negation: propext, Classical.choice, Quot.sound
PO.C27_no_ub_partial: propext, Classical.choice, Quot.sound
PO.C27_undefined_iff: propext, Classical.choice, Quot.sound
PO.C28_all_accepted: propext, Classical.choice, Quot.sound
PO.C28_acceptance: propext, Classical.choice, Quot.sound
PO.C28_single: propext, Classical.choice, Quot.sound
PO.C29_overlap: propext, Classical.choice, Quot.sound
PO.C30_negation: propext, Classical.choice, Quot.sound
PO.C30_overlap_message_partial: propext, Classical.choice, Quot.sound
PO.C30_message: propext, Classical.choice, Quot.sound
PO.C30_reported: propext, Classical.choice, Quot.sound
PO.C31_negation: propext, Classical.choice, Quot.sound
PO.C31_first_name_partial: propext, Classical.choice, Quot.sound
PO.C31_accepted_iff: propext, Classical.choice, Quot.sound
PO.C32_environment_mapper: propext, Quot.sound
PO.C32_environment_prefix: propext, Quot.sound
PO.C33_first_source_wins: propext, Classical.choice, Quot.sound
PO.C33_history: propext, Classical.choice, Quot.sound
PO.C34_composing_accumulates: propext, Classical.choice, Quot.sound
PO.C35_defaults: propext, Classical.choice, Quot.sound
PO.C35_explicit_replaces_default: propext, Classical.choice, Quot.sound
PO.C36_frame: propext, Classical.choice, Quot.sound
PO.C36_ignored: propext
PO.C37_unchanged_iff: propext, Classical.choice, Quot.sound
PO.C37_negation: propext, Classical.choice, Quot.sound
PO.C37_lost_default: propext, Classical.choice, Quot.sound
PO.C37_failed_store_partial: propext, Classical.choice, Quot.sound
PO.C38_required: propext, Classical.choice, Quot.sound
PO.C39_notify_order: propext, Classical.choice, Quot.sound
PO.C40_chain: propext, Quot.sound
PO.C41_clear: propext
PO.C42_bool_words: propext, Quot.sound
PO.C42_wide_bool_words: propext, Quot.sound
PO.C43_scalar_once_per_source: propext, Classical.choice, Quot.sound
PO.C43_untyped_once_per_source: propext, Classical.choice, Quot.sound
PO.C44_exact: propext, Quot.sound
PO.C44_stored: propext, Classical.choice, Quot.sound
PO.C44_negation: propext, Classical.choice, Quot.sound
PO.C44_overwritten: propext, Classical.choice, Quot.sound
PO.C44_implicit_repetition_partial: propext, Classical.choice, Quot.sound
PO.C45_token_counts: propext, Quot.sound
PO.C45_token_counts_exact: propext, Quot.sound
PO.C46_true_iff_present: propext, Classical.choice, Quot.sound
PO.C46_value_rejected: propext, Classical.choice, Quot.sound
PO.C47_grows: propext, Classical.choice, Quot.sound
PO.C47_grows_reachable: propext, Classical.choice, Quot.sound
PO.C47_negation_growing: propext, Classical.choice, Quot.sound
PO.C47_value_hangs: propext, Classical.choice, Quot.sound
PO.C47_value_iff: propext, Classical.choice, Quot.sound
PO.C47_name_hangs: propext, Classical.choice, Quot.sound
PO.C47_unknown_iff: propext, Classical.choice, Quot.sound
PO.C47_hangs: propext, Classical.choice, Quot.sound
PO.C47_negation: propext, Classical.choice, Quot.sound
PO.C47_reachable: propext, Classical.choice, Quot.sound
PO.C47_returns_partial: propext, Classical.choice, Quot.sound
PO.C48_unknown_iff: propext, Classical.choice, Quot.sound
PO.C48_verbatim_partial: propext, Classical.choice, Quot.sound
PO.C48_invalid_value_partial: propext, Classical.choice, Quot.sound
PO.C48_negation: propext, Classical.choice, Quot.sound
PO.C49_alternatives: propext, Classical.choice, Quot.sound
PO.C50_unix_round_trip: propext, Quot.sound
PO.C51_winmain_lines: propext, Quot.sound
PO.C51_winmain_round_trip: propext, Quot.sound
PO.C52_layout: propext, Classical.choice, Quot.sound
PO.C52_once: propext, Classical.choice, Quot.sound
PO.C53_lossless: propext, Classical.choice, Quot.sound
PO.C53_description: propext, Quot.sound
PO.C54_paragraph: propext, Classical.choice, Quot.sound
PO.C54_description: propext, Classical.choice, Quot.sound
PO.C54_entry: propext, Classical.choice, Quot.sound
PO.C54_help: propext, Classical.choice, Quot.sound
PO.C55_print_partial: propext, Classical.choice, Quot.sound
PO.C55_default_sizes: propext, Classical.choice, Quot.sound
PO.C55_negation: propext, Classical.choice, Quot.sound
PO.C55_negation_nested: propext, Classical.choice, Quot.sound
PO.C55_printable_iff: propext, Classical.choice, Quot.sound
PO.C56_chunks: propext, Classical.choice, Quot.sound
PO.C56_failure: propext, Classical.choice, Quot.sound
PO.C56_buffer: propext, Quot.sound
PO.C56_utf8: propext, Classical.choice, Quot.sound
PO.C57_round_trip: propext, Classical.choice, Quot.sound
PO.C57_standard: propext, Classical.choice, Quot.sound
PO.C58_priority: propext, Classical.choice, Quot.sound
PO.C59_exact: propext, Quot.sound
PO.C59_stored: propext, Classical.choice, Quot.sound
PO.C59_negation: propext, Classical.choice, Quot.sound
PO.C59_accumulates_partial: propext, Classical.choice, Quot.sound
PO.C60_words_not_chopped: propext, Classical.choice, Quot.sound
PO.C61_grammar: propext, Classical.choice, Quot.sound
PO.C61_unambiguous: propext, Classical.choice, Quot.sound
PO.C61_token: propext, Classical.choice, Quot.sound
PO.C61_grammar_all: propext, Classical.choice, Quot.sound
PO.C62_maximal: propext, Classical.choice, Quot.sound
PO.C62_multitoken: propext, Classical.choice, Quot.sound
PO.C63_refused_all: propext, Classical.choice, Quot.sound
PO.C63_all_cases: propext, Classical.choice, Quot.sound
PO.C63_refused: propext, Classical.choice, Quot.sound
PO.C63_accepted_or_refused: propext, Classical.choice, Quot.sound
PO.C63_undefined: propext, Classical.choice, Quot.sound
PO.C64_accepted: propext, Classical.choice, Quot.sound
PO.C64_refused: propext, Classical.choice, Quot.sound
PO.C65_succeeds: propext, Classical.choice, Quot.sound
PO.C65_fails: propext, Classical.choice, Quot.sound
PO.C65_told: propext, Classical.choice, Quot.sound
PO.C65_result: propext, Classical.choice, Quot.sound
PO.C65_failed_state: propext, Classical.choice, Quot.sound
PO.C66_order_irrelevant: propext, Classical.choice, Quot.sound
PO.C67_disjoint_sources_commute: propext, Classical.choice, Quot.sound
PO.C67_display_differs: propext, Classical.choice, Quot.sound
PO.C68_store_again: propext, Classical.choice, Quot.sound
PO.C69_negation: propext, Classical.choice, Quot.sound
PO.C69_notify_negation: propext, Classical.choice, Quot.sound
PO.C69_type_partial: propext, Classical.choice, Quot.sound
PO.C69_notify_partial: propext, Classical.choice, Quot.sound
PO.C69_exact: propext, Quot.sound
PO.C69_notify_exact: propext, Quot.sound
PO.C69_iff: propext, Classical.choice, Quot.sound
PO.C70_unmentioned_option: propext, Classical.choice, Quot.sound
PO.C70_new_name: propext, Classical.choice, Quot.sound
PO.C70_store: propext, Classical.choice, Quot.sound
PO.C71_values_are_typed: propext, Classical.choice, Quot.sound
PO.C72_negation: propext, Classical.choice, Quot.sound
PO.C72_wide_partial: propext, Classical.choice, Quot.sound
PO.C72_iff: propext, Classical.choice, Quot.sound
PO.C73_wide_config: propext, Classical.choice, Quot.sound
PO.C74_strict: propext, Classical.choice, Quot.sound
PO.C74_allowing_adds: propext, Classical.choice, Quot.sound
PO.C75_negation: propext, Classical.choice, Quot.sound
PO.C75_guessing_partial: propext, Classical.choice, Quot.sound
PO.C75_iff: propext, Classical.choice, Quot.sound
PO.C76_compose: propext, Classical.choice, Quot.sound
PO.C76_positional: propext, Classical.choice, Quot.sound
PO.C76_positional_stored: propext, Classical.choice, Quot.sound
PO.C76_stored: propext, Classical.choice, Quot.sound
PO.C76_not_composing: propext, Classical.choice, Quot.sound
PO.C77_unix_grammar: propext, Quot.sound
PO.C77_unix_refusal: propext, Quot.sound
PO.C78_winmain_grammar: propext, Quot.sound
PO.C79_wide_unix: propext, Classical.choice, Quot.sound
PO.C79_wide_winmain: propext, Classical.choice, Quot.sound
PO.C80_explained: propext, Classical.choice, Quot.sound
PO.C80_token: propext, Classical.choice, Quot.sound
PO.C81_help: propext, Classical.choice, Quot.sound
PO.C81_parameter: propext, Quot.sound
PO.C82_value: propext, Classical.choice, Quot.sound
PO.C82_refused: propext, Classical.choice, Quot.sound
PO.C82_untyped: propext, Quot.sound
PO.C83_explained: propext, Classical.choice, Quot.sound
PO.C83_bad_value: propext, Classical.choice, Quot.sound
PO.C83_unknown: propext, Classical.choice, Quot.sound
PO.C83_command_line: propext
PO.C83_other_sources: propext
PO.C84_round_trip: propext, Classical.choice, Quot.sound
PO.C84_settings: propext, Classical.choice, Quot.sound
PO.C84_one_string: propext, Classical.choice, Quot.sound
PO.C85_only_values: propext, Classical.choice, Quot.sound
PO.C85_sources: propext, Classical.choice, Quot.sound
PO.C86_decoded: propext, Classical.choice, Quot.sound
PO.C86_refused: propext, Classical.choice, Quot.sound
PO.C86_encoded: propext, Classical.choice, Quot.sound
PO.C87_succeeds: propext, Classical.choice, Quot.sound
PO.C87_stored: propext, Classical.choice, Quot.sound
PO.C87_wide: propext, Classical.choice, Quot.sound
PO.C87_wide_string: propext, Classical.choice, Quot.sound
PO.C88_assigned: propext, Classical.choice, Quot.sound
PO.C88_program: propext, Classical.choice, Quot.sound
PO.C89_parts: propext, Classical.choice, Quot.sound
PO.C89_forwarded_partial: propext, Classical.choice, Quot.sound
PO.C89_recognised_partial: propext, Classical.choice, Quot.sound
PO.C89_negation: propext, Classical.choice, Quot.sound
PO.C89_negation_group: propext, Classical.choice, Quot.sound
PO.C89_recognised_iff: propext, Classical.choice, Quot.sound
PO.C89_forwarded_iff: propext, Classical.choice, Quot.sound
PO.C89_iff: propext, Classical.choice, Quot.sound
PO.C90_two_programs: propext, Classical.choice, Quot.sound
PO.C90_stored: propext, Classical.choice, Quot.sound
PO.C91_run_out_of_range_all: propext, Classical.choice, Quot.sound
PO.C91_run: propext, Classical.choice, Quot.sound
PO.C91_match: propext, Quot.sound
PO.C91_run_out_of_range: propext, Classical.choice, Quot.sound
PO.C91_run_in_range: propext, Classical.choice, Quot.sound
PO.C91_config: propext, Classical.choice, Quot.sound
PO.C91_config_out_of_range: propext, Classical.choice, Quot.sound
PO.C91_environment: propext, Quot.sound
PO.C91_names: propext, Classical.choice, Quot.sound
PO.C91_winmain: propext, Quot.sound
PO.C91_messages: propext, Classical.choice, Quot.sound
PO.C91_entries: propext, Quot.sound
PO.C91_print: propext, Classical.choice, Quot.sound
PO.C91_print_in_range: propext, Classical.choice, Quot.sound
PO.C92_stream: propext, Classical.choice, Quot.sound
PO.C92_wide_stream: propext, Classical.choice, Quot.sound
PO.C92_broken_stream: propext, Classical.choice, Quot.sound
PO.C92_file_partial: propext, Classical.choice, Quot.sound
PO.C92_file_broken: propext, Classical.choice, Quot.sound
PO.C92_negation: propext, Classical.choice, Quot.sound
PO.C92_environment: propext, Quot.sound
PO.C93_copies: propext, Classical.choice, Quot.sound
PO.C93_values: propext, Classical.choice, Quot.sound
PO.C93_alone: propext, Classical.choice, Quot.sound
PO.C93_copies_partial: propext, Classical.choice, Quot.sound
PO.C93_negation: propext, Classical.choice, Quot.sound
PO.C93_negation_section: propext, Classical.choice, Quot.sound
PO.C94_long_partial: propext, Classical.choice, Quot.sound
PO.C94_short_partial: propext, Classical.choice, Quot.sound
PO.C94_iff: propext, Classical.choice, Quot.sound
PO.C94_short_iff: propext, Classical.choice, Quot.sound
PO.C94_negation: propext, Classical.choice, Quot.sound
PO.C94_negation_zero: propext, Classical.choice, Quot.sound
PO.C95_file_partial: propext, Classical.choice, Quot.sound
PO.C95_fault_partial: propext, Classical.choice, Quot.sound
PO.C95_line_returns: propext, Classical.choice, Quot.sound
PO.C95_negation: propext, Classical.choice, Quot.sound
PO.C95_required_partial: propext, Classical.choice, Quot.sound
PO.C95_line_iff: propext, Classical.choice, Quot.sound
PO.C95_file_iff: propext, Classical.choice, Quot.sound
PO.C95_fault_iff: propext, Classical.choice, Quot.sound
PO.C96_normal_form: propext, Classical.choice, Quot.sound
PO.C96_regular: propext, Classical.choice, Quot.sound
PO.C97_command_line_partial: propext, Classical.choice, Quot.sound
PO.C97_config_file: propext, Classical.choice, Quot.sound
PO.C97_negation: propext, Classical.choice, Quot.sound
PO.C97_store_refuses: propext, Classical.choice, Quot.sound
PO.C97_clash: propext, Classical.choice, Quot.sound
PO.C97_positional: propext, Classical.choice, Quot.sound
PO.C97_iff: propext, Classical.choice, Quot.sound
PO.C98_interchangeable: propext, Classical.choice, Quot.sound
PO.C98_letter_case: propext, Classical.choice, Quot.sound
PO.C98_family_case: propext, Classical.choice, Quot.sound
PO.C99_outcome: propext, Quot.sound
PO.C99_used_up: propext, Quot.sound
PO.C99_left: propext, Classical.choice, Quot.sound
PO.C99_progress: propext, Classical.choice, Quot.sound
PO.C99_behind: propext, Classical.choice, Quot.sound
PO.C99_settles: propext, Classical.choice, Quot.sound
PO.C99_negation: propext, Classical.choice, Quot.sound
PO.C99_again_partial: propext, Quot.sound
PO.C99_accepted_later: propext, Classical.choice, Quot.sound
PO.C100_explicit_iff: propext, Classical.choice, Quot.sound
PO.C100_found_iff: propext, Classical.choice, Quot.sound
PO.C100_own_names: propext, Classical.choice, Quot.sound
PO.C100_command_line_partial: propext, Classical.choice, Quot.sound
PO.C100_config_file_partial: propext, Classical.choice, Quot.sound
PO.C100_environment_partial: propext, Quot.sound
PO.C100_default_instead: propext, Classical.choice, Quot.sound
PO.C100_required_missing: propext, Classical.choice, Quot.sound
PO.C100_negation: propext, Classical.choice, Quot.sound
PO.C100_environment_alias: propext, Classical.choice, Quot.sound
PO.C100_positional_alias: propext, Classical.choice, Quot.sound
PO.C100_family_alias: propext, Classical.choice, Quot.sound
PO.C101_accepted_iff: propext, Classical.choice, Quot.sound
PO.C101_value: propext, Classical.choice, Quot.sound
PO.C101_stranger: propext, Classical.choice, Quot.sound
PO.C101_unreachable: propext, Classical.choice, Quot.sound
PO.C101_reachable_partial: propext, Quot.sound
PO.C101_negation: propext, Classical.choice, Quot.sound
PO.C102_group_partial: propext, Quot.sound
PO.C102_individually_partial: propext, Quot.sound
PO.C102_itself: propext
PO.C102_negation: propext, Classical.choice, Quot.sound
PO.C103_command_line_partial: propext, Classical.choice, Quot.sound
PO.C103_store_partial: propext, Classical.choice, Quot.sound
PO.C103_silent: propext
PO.C103_negation: propext, Classical.choice, Quot.sound
PO.C104_succeeds: propext, Classical.choice, Quot.sound
PO.C104_value: propext, Classical.choice, Quot.sound
PO.C104_only_source: propext, Classical.choice, Quot.sound
PO.C104_any_order: propext, Classical.choice, Quot.sound
PO.C104_variable: propext, Classical.choice, Quot.sound
PO.C104_one_or_two: propext, Classical.choice, Quot.sound
PO.C105_extra_parser: propext, Classical.choice, Quot.sound
PO.C105_response_file: propext, Classical.choice, Quot.sound
PO.C105_gcc_style: propext, Classical.choice, Quot.sound
PO.C105_words: propext
PO.C105_command_line_stands: propext, Classical.choice, Quot.sound
PO.C106_given_iff: propext, Classical.choice, Quot.sound
PO.C106_conflicting: propext, Classical.choice, Quot.sound
PO.C106_dependency: propext, Classical.choice, Quot.sound
PO.C106_failed_store: propext, Classical.choice, Quot.sound
PO.C107_written: propext, Classical.choice, Quot.sound
PO.C107_value: propext, Classical.choice, Quot.sound
PO.C108_environment: propext, Quot.sound
PO.C108_sources: propext, Classical.choice, Quot.sound
PO.C108_strings: propext, Classical.choice, Quot.sound
PO.C108_numbers: propext, Classical.choice, Quot.sound
PO.C108_gui: propext, Classical.choice, Quot.sound
PO.C108_include_path: propext, Classical.choice, Quot.sound
PO.C108_command_only: propext, Classical.choice, Quot.sound
PO.C108_help: propext, Classical.choice, Quot.sound
PO.C108_switch_off: propext, Classical.choice, Quot.sound
PO.C109_caught: propext, Classical.choice, Quot.sound
PO.C109_wide: propext, Classical.choice, Quot.sound
PO.C110_flags: propext, Quot.sound
PO.C110_set: propext, Quot.sound
PO.C110_idle_iff: propext, Classical.choice, Quot.sound
PO.C111_returns: propext, Classical.choice, Quot.sound
PO.C111_otherwise: propext, Classical.choice, Quot.sound
PO.C112_returns: propext, Classical.choice, Quot.sound
PO.C112_otherwise: propext, Classical.choice, Quot.sound
PO.C113_succeeds: propext, Classical.choice, Quot.sound
PO.C113_given: propext, Classical.choice, Quot.sound
PO.C113_not_given: propext, Classical.choice, Quot.sound
PO.C113_nothing_else: propext, Classical.choice, Quot.sound
PO.C113_otherwise: propext, Classical.choice, Quot.sound
PO.C114_first: propext, Classical.choice, Quot.sound
PO.C114_groups: propext, Classical.choice, Quot.sound
PO.C114_real: propext, Classical.choice, Quot.sound
PO.C114_otherwise: propext, Classical.choice, Quot.sound
PO.C115_sound: propext, Classical.choice, Quot.sound
PO.C115_partial: propext, Classical.choice, Quot.sound
PO.C115_iff: propext, Classical.choice, Quot.sound
PO.C115_failure: propext, Classical.choice, Quot.sound
PO.C115_cut_off: propext, Classical.choice, Quot.sound
PO.C115_only_shifts: propext, Classical.choice, Quot.sound
PO.C115_negation: propext, Quot.sound
PO.C116_quiet: propext
PO.C116_throws: propext, Classical.choice, Quot.sound
PO.C116_missing: propext, Classical.choice, Quot.sound
PO.C116_sees: propext, Quot.sound
PO.C117_stored: propext, Classical.choice, Quot.sound
PO.C117_given: propext, Classical.choice, Quot.sound
PO.C117_not_given: propext, Classical.choice, Quot.sound
PO.C117_nothing_else: propext, Classical.choice, Quot.sound
PO.C117_notify: propext, Classical.choice, Quot.sound
PO.C117_lacking: propext, Classical.choice, Quot.sound
PO.C117_variable: propext, Classical.choice, Quot.sound
PO.C117_otherwise: propext, Classical.choice, Quot.sound
PO.C117_tokens: propext, Classical.choice, Quot.sound
PO.DescProgram.C118_returns: propext, Classical.choice, Quot.sound
PO.DescProgram.C118_otherwise: propext, Classical.choice, Quot.sound
PO.C119_library: propext, Quot.sound
PO.C119_stored: propext, Classical.choice, Quot.sound
PO.C119_given: propext, Classical.choice, Quot.sound
PO.C119_not_given: propext, Classical.choice, Quot.sound
PO.C119_once: propext, Quot.sound
PO.C119_vector: propext
PO.C119_optional: propext
PO.C119_argument: none
PO.C119_refused: propext, Classical.choice, Quot.sound
PO.C119_refuses: propext, Classical.choice, Quot.sound
PO.C119_notify: propext, Classical.choice, Quot.sound
PO.C119_otherwise: propext, Classical.choice, Quot.sound
PO.C119_cast_escapes: propext, Classical.choice, Quot.sound
PO.RegexProgram.C120_returns: propext, Classical.choice, Quot.sound
PO.RegexProgram.C120_otherwise: propext, Classical.choice, Quot.sound
PO.RegexProgram.C120_message: propext, Classical.choice, Quot.sound
PO.C121_stored: propext, Classical.choice, Quot.sound
PO.C121_given: propext, Classical.choice, Quot.sound
PO.C121_not_given: propext, Classical.choice, Quot.sound
PO.C121_nothing_else: propext, Classical.choice, Quot.sound
PO.C121_notify: propext, Classical.choice, Quot.sound
PO.C121_lacking: propext, Classical.choice, Quot.sound
PO.C121_variable: propext, Classical.choice, Quot.sound
PO.C121_otherwise: propext, Classical.choice, Quot.sound
PO.C121_command_line: propext, Classical.choice, Quot.sound
PO.C121_config_file: propext, Classical.choice, Quot.sound
PO.C121_environment: propext, Quot.sound
PO.CustomSyntax.C122_custom_syntax: propext, Classical.choice, Quot.sound
PO.CustomSyntax.C122_custom_otherwise: propext, Classical.choice, Quot.sound
PO.ResponseFile.C122_response_file: propext, Classical.choice, Quot.sound
PO.ResponseFile.C122_not_opened: propext, Classical.choice, Quot.sound
PO.ResponseFile.C122_response_otherwise: propext, Classical.choice, Quot.sound
PO.C123_read: propext, Classical.choice, Quot.sound
PO.C123_unique: propext, Classical.choice, Quot.sound
PO.C123_refusing: propext, Classical.choice, Quot.sound
PO.C123_passed_on: propext, Classical.choice, Quot.sound
PO.C123_source: propext, Classical.choice, Quot.sound
PO.C123_named_source: propext, Classical.choice, Quot.sound
PO.C123_two: propext, Classical.choice, Quot.sound
PO.C123_same: propext, Classical.choice, Quot.sound
PO.C123_bool: propext, Classical.choice, Quot.sound
PO.C124_lookup: propext, Quot.sound
PO.C124_lookup_iff: propext, Classical.choice, Quot.sound
PO.C124_lookup_exact: propext, Quot.sound
PO.C124_bool: propext, Classical.choice, Quot.sound
PO.C124_wide_bool: propext, Classical.choice, Quot.sound
PO.C124_prefix: propext, Classical.choice, Quot.sound
PO.C124_winmain: propext, Classical.choice, Quot.sound
PO.C124_partial: propext, Classical.choice, Quot.sound
PO.C124_not: propext
PO.C125_sizes: propext, Classical.choice, Quot.sound
PO.C125_self_iff: propext, Classical.choice, Quot.sound
PO.C125_destroy_last: propext, Classical.choice, Quot.sound
PO.C125_destroyed_iff: propext, Quot.sound
PO.C125_counts: propext, Classical.choice, Quot.sound
PO.C125_alive: propext, Classical.choice, Quot.sound
PO.C125_undefined_iff: propext, Classical.choice, Quot.sound
PO.C125_endless_iff: propext, Classical.choice, Quot.sound
PO.C125_notify: propext, Classical.choice, Quot.sound
PO.C125_no_leak: propext, Classical.choice, Quot.sound
PO.C125_links: propext, Quot.sound
PO.C125_lookup_gone: propext, Classical.choice, Quot.sound
PO.C125_run_iff: propext, Classical.choice, Quot.sound
PO.C125_store_iff: propext, Classical.choice, Quot.sound
PO.Release.C126_help: propext, Classical.choice, Quot.sound
PO.Release.C126_same: propext, Classical.choice, Quot.sound
PO.Release.C126_outcome: propext, Classical.choice, Quot.sound
PO.Tabs.C127_release_iff: propext, Classical.choice, Quot.sound
PO.Tabs.C127_debug_iff: propext, Classical.choice, Quot.sound
PO.Tabs.C127_partial: propext, Classical.choice, Quot.sound
PO.Tabs.C127_removed: propext, Classical.choice, Quot.sound
PO.Tabs.C127_one_tab: propext, Classical.choice, Quot.sound
PO.Tabs.C127_not: propext, Classical.choice, Quot.sound
PO.Release.C128_environment: propext, Quot.sound
PO.Release.C128_positional: propext, Quot.sound
PO.Release.C128_add: none
PO.Release.C128_parse: propext, Classical.choice, Quot.sound
PO.Release.C128_absorb: propext, Quot.sound
PO.Release.C128_swallowed: propext, Quot.sound
PO.Release.C128_names: propext
PO.Release.C128_nameless: propext
PO.ExtraCalls.C129_calls: propext, Classical.choice, Quot.sound
PO.ExtraCalls.C129_parsed: propext, Classical.choice, Quot.sound
PO.ExtraCalls.C129_partial: propext, Classical.choice, Quot.sound
PO.ExtraCalls.C129_function: propext, Classical.choice, Quot.sound
PO.ExtraCalls.C129_not: propext
PO.C130_reported: propext, Classical.choice, Quot.sound
PO.C130_iff: propext, Classical.choice, Quot.sound
PO.C130_partial: propext, Classical.choice, Quot.sound
PO.C130_token: propext, Classical.choice, Quot.sound
PO.C130_not: propext, Classical.choice, Quot.sound
PO.C131_order: propext, Classical.choice, Quot.sound
PO.C131_same: propext, Classical.choice, Quot.sound
PO.C131_dangling_iff: propext, Classical.choice, Quot.sound
PO.C131_iff: propext, Classical.choice, Quot.sound
PO.C131_partial: propext, Classical.choice, Quot.sound
PO.C131_late: propext, Classical.choice, Quot.sound
PO.C131_ends: propext, Classical.choice, Quot.sound
PO.C131_recursion: propext, Classical.choice, Quot.sound
PO.C131_not: propext, Classical.choice, Quot.sound
PO.C131_endless: propext, Classical.choice, Quot.sound
PO.C132_throws: propext
PO.C132_declares: propext, Quot.sound
PO.C132_order: propext, Quot.sound
PO.C132_name: propext
PO.C132_switch: propext
PO.C132_texts_partial: propext, Quot.sound
PO.C132_stale: propext
PO.C132_negation: propext
PO.C133_unused: propext, Classical.choice, Quot.sound
PO.C133_added: propext, Classical.choice, Quot.sound
PO.C133_config_file: propext, Classical.choice, Quot.sound
PO.C133_disguise: propext, Classical.choice, Quot.sound
PO.C133_stored: propext, Classical.choice, Quot.sound
PO.C133_same_map: propext, Classical.choice, Quot.sound
PO.C133_program: propext, Classical.choice, Quot.sound
PO.C133_shared_name: propext, Classical.choice, Quot.sound
PO.C134_last: propext, Classical.choice, Quot.sound
PO.C134_unique: propext, Quot.sound
PO.C134_asking: propext, Classical.choice, Quot.sound
PO.C134_library: propext, Classical.choice, Quot.sound
PO.C135_filled_partial: propext, Classical.choice, Quot.sound
PO.C135_left_partial: propext, Classical.choice, Quot.sound
PO.C135_reworded: propext, Classical.choice, Quot.sound
PO.C135_negation: propext, Classical.choice, Quot.sound
PO.C135_library: propext, Classical.choice, Quot.sound
PO.C135_ambiguous: propext, Classical.choice, Quot.sound
PO.C136_run: propext, Quot.sound
PO.C136_unique: propext
PO.C136_exists: propext, Quot.sound
PO.C136_without: propext, Quot.sound
PO.C136_refused: propext, Quot.sound
PO.C136_tokens: propext
PO.C136_used_up: propext, Quot.sound
PO.C136_left: propext
PO.C136_swap: propext, Quot.sound
PO.C136_parse_command_line: propext
PO.C137_command_line: propext, Classical.choice, Quot.sound
PO.C137_message: propext, Classical.choice, Quot.sound
PO.C137_config_file: propext, Classical.choice, Quot.sound
PO.C137_store: propext, Classical.choice, Quot.sound
PO.C137_end_to_end: propext, Classical.choice, Quot.sound
PO.C137_needed: propext, Classical.choice, Quot.sound
PO.C137_help: propext, Quot.sound
PO.C138_value: propext, Classical.choice, Quot.sound
PO.C138_returns_iff: propext, Classical.choice, Quot.sound
PO.C138_dangling_iff: propext, Classical.choice, Quot.sound
PO.C138_endless_iff: propext, Classical.choice, Quot.sound
PO.C138_enough: propext, Classical.choice, Quot.sound
PO.C138_untouched: propext, Classical.choice, Quot.sound
PO.C138_copy: propext, Classical.choice, Quot.sound
PO.C138_assign: propext, Classical.choice, Quot.sound
PO.C138_assign_circle: propext, Classical.choice, Quot.sound
PO.C138_clear: propext, Classical.choice, Quot.sound
PO.C138_link: propext, Quot.sound
PO.C138_create: propext, Quot.sound
PO.C138_store: propext, Quot.sound
PO.C138_destroy: propext, Classical.choice, Quot.sound
PO.C138_programs_partial: propext, Classical.choice, Quot.sound
PO.C138_negation: propext, Classical.choice, Quot.sound
PO.C138_negation_circle: propext, Classical.choice, Quot.sound
PO.C138_only_lookup: propext, Classical.choice, Quot.sound
PO.C139_course: propext, Classical.choice, Quot.sound
PO.C139_performs_iff: propext, Classical.choice, Quot.sound
PO.C139_settled_iff: propext, Classical.choice, Quot.sound
PO.C139_given_anew_iff: propext, Classical.choice, Quot.sound
PO.C139_given_anew_partial: propext, Classical.choice, Quot.sound
PO.C139_inserted: propext, Classical.choice, Quot.sound
PO.C139_inserted_default: propext, Classical.choice, Quot.sound
PO.C139_in_the_way: propext, Classical.choice, Quot.sound
PO.C139_not_told: propext, Classical.choice, Quot.sound
PO.C139_required: propext, Classical.choice, Quot.sound
PO.C139_erased_required: propext, Quot.sound
PO.C139_swap_partial: none
PO.C139_swap_heard: propext, Classical.choice, Quot.sound
PO.C139_negation: propext, Classical.choice, Quot.sound
PO.C139_swap_negation: propext, Classical.choice, Quot.sound
PO.C140_readable_iff: propext, Classical.choice, Quot.sound
PO.C140_stay_partial: propext, Classical.choice, Quot.sound
PO.C140_again: propext, Quot.sound
PO.C140_copy: propext, Classical.choice, Quot.sound
PO.C140_negation: propext
PO.C141_throws: propext, Classical.choice, Quot.sound
PO.C141_written: propext, Classical.choice, Quot.sound
PO.C141_not_good: propext
PO.C141_same_iff: propext, Classical.choice, Quot.sound
PO.C141_same_partial: propext, Classical.choice, Quot.sound
PO.C141_room: propext, Classical.choice, Quot.sound
PO.C141_thrown: propext, Classical.choice, Quot.sound
PO.C141_negation: propext, Classical.choice, Quot.sound
PO.C142_grammar: propext, Classical.choice, Quot.sound
PO.C142_refusal: propext, Classical.choice, Quot.sound
PO.C142_undefined_iff: propext, Classical.choice, Quot.sound
PO.C142_tokens_conserved: propext, Classical.choice, Quot.sound
PO.C142_canonical_key: propext, Classical.choice, Quot.sound
PO.C142_flag: propext, Classical.choice, Quot.sound
PO.C142_counts: propext, Classical.choice, Quot.sound
PO.C142_counts_partial: propext, Classical.choice, Quot.sound
PO.C142_no_ub_partial: propext, Classical.choice, Quot.sound
PO.C142_throws: propext
PO.C142_first: propext, Classical.choice, Quot.sound
PO.C142_idle: propext, Classical.choice, Quot.sound
PO.C142_negation: propext, Classical.choice, Quot.sound
PO.C142_ub_negation: propext, Classical.choice, Quot.sound
PO.C143_fails_iff: propext, Classical.choice, Quot.sound
PO.C143_names: propext, Classical.choice, Quot.sound
PO.C143_limit: propext, Classical.choice, Quot.sound
PO.C143_arguments: propext, Classical.choice, Quot.sound
PO.C143_kept_iff: propext, Classical.choice, Quot.sound
PO.C143_negation: propext
PO.C143_kept_partial: propext, Classical.choice, Quot.sound
PO.C143_after_endless: propext, Classical.choice, Quot.sound
PO.C144_longer: propext, Quot.sound
PO.C144_lookup: propext, Classical.choice, Quot.sound
PO.C144_shortest: propext, Classical.choice, Quot.sound
PO.C144_lookup_shortest: propext, Classical.choice, Quot.sound
PO.C144_command_line: propext, Classical.choice, Quot.sound
PO.C145_joined: propext, Classical.choice, Quot.sound
PO.C145_refused: propext, Classical.choice, Quot.sound
PO.C145_parts: propext, Classical.choice, Quot.sound
PO.C145_order: propext, Classical.choice, Quot.sound
PO.C145_one_or_two: propext, Classical.choice, Quot.sound
PO.C145_in_full: propext, Classical.choice, Quot.sound
PO.C145_writable: propext, Quot.sound
PO.C145_same_section: propext, Classical.choice, Quot.sound
PO.C145_needs_header: propext, Classical.choice, Quot.sound
PO.C145_given_twice: propext, Classical.choice, Quot.sound
PO.C146_apart_partial: propext, Classical.choice, Quot.sound
PO.C146_iff: propext, Classical.choice, Quot.sound
PO.C146_alone: propext, Classical.choice, Quot.sound
PO.C146_negation: propext
PO.C146_ends: propext
PO.C147_places: propext, Quot.sound
PO.C147_equal_iff: propext, Quot.sound
PO.C147_equal_partial: propext, Quot.sound
PO.C147_negation: propext
PO.C148_counts: propext, Classical.choice, Quot.sound
PO.C148_switch: propext, Classical.choice, Quot.sound
PO.C148_typed: propext, Quot.sound
PO.C148_untyped: none
PO.C148_bool_switch: propext
PO.C149_negation: propext, Classical.choice, Quot.sound
PO.C149_case_partial: propext, Classical.choice, Quot.sound
PO.C149_names_partial: propext, Classical.choice, Quot.sound
PO.C149_without_dashes: propext, Classical.choice, Quot.sound
PO.C150_negation: propext, Classical.choice, Quot.sound
PO.C150_sticky_partial: propext, Classical.choice, Quot.sound
PO.C151_forms: propext, Classical.choice, Quot.sound
PO.C151_forms_long: propext, Classical.choice, Quot.sound
PO.C151_no_options: propext, Classical.choice, Quot.sound
PO.C152_letters: propext, Quot.sound
PO.C152_letters_iff: propext, Classical.choice, Quot.sound
PO.C153_letters: propext, Classical.choice, Quot.sound
PO.C153_letters_iff: propext, Classical.choice, Quot.sound
PO.C153_environment: propext
PO.C153_environment_iff: propext
PO.C153_prefix: propext, Quot.sound
PO.C154_store: propext, Classical.choice, Quot.sound
PO.C154_strings: propext
PO.C155_help: propext, Quot.sound
PO.C155_help_iff: propext, Classical.choice, Quot.sound
PO.C156_unix: propext, Quot.sound
PO.C156_unix_iff: propext, Classical.choice, Quot.sound
PO.C156_winmain: propext, Quot.sound
PO.C156_winmain_iff: propext, Quot.sound
PO.C157_parse_file: propext, Classical.choice, Quot.sound
PO.C157_checks: propext, Classical.choice, Quot.sound
PO.C157_own_file: propext, Classical.choice, Quot.sound
PO.C157_left_out: propext, Classical.choice, Quot.sound
PO.C158_command_line: propext, Classical.choice, Quot.sound
PO.C158_exit_code: propext, Classical.choice, Quot.sound
PO.C159_notify: propext, Classical.choice, Quot.sound
PO.C159_program: propext, Classical.choice, Quot.sound
PO.C159_order_iff: propext, Classical.choice, Quot.sound
PO.C160_prefix: propext, Classical.choice, Quot.sound
PO.C160_refused: propext, Classical.choice, Quot.sound
PO.C160_same_exception: propext, Classical.choice, Quot.sound
PO.C161_lines: propext, Classical.choice, Quot.sound
PO.C161_refused: propext, Classical.choice, Quot.sound
PO.C161_cut: propext, Classical.choice, Quot.sound
PO.C161_bracket: propext
PO.C161_wide_refused: propext, Classical.choice, Quot.sound
PO.C161_wide: propext, Classical.choice, Quot.sound
PO.C162_stored: propext, Classical.choice, Quot.sound
PO.C162_failed: propext
PO.C162_file: propext, Classical.choice, Quot.sound
PO.C162_file_failed: propext, Classical.choice, Quot.sound
PO.C163_prefix: propext, Classical.choice, Quot.sound
PO.C163_stored: propext, Classical.choice, Quot.sound
PO.C163_failed: propext, Classical.choice, Quot.sound
PO.C163_needed: propext, Classical.choice, Quot.sound
PO.C164_arguments: propext, Classical.choice, Quot.sound
PO.C164_stored: propext, Classical.choice, Quot.sound
PO.C164_file: propext, Classical.choice, Quot.sound
PO.C164_environment: propext, Quot.sound
PO.C164_variable: propext, Classical.choice, Quot.sound
