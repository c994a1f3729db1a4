{
 "claims": [
  {
   "property": "C01",
   "status": "proved",
   "theorems": [
    "PO.C01_lookup_decision",
    "PO.C01_find_throws",
    "PO.C01_exact_case_sensitive"
   ],
   "note": ""
  },
  {
   "property": "C02",
   "status": "proved",
   "theorems": [
    "PO.C02_order_irrelevant"
   ],
   "note": ""
  },
  {
   "property": "C03",
   "status": "proved",
   "theorems": [
    "PO.C03_case_insensitive_match",
    "PO.C03_case_insensitive_lookup",
    "PO.C03_declared_case"
   ],
   "note": ""
  },
  {
   "property": "C04",
   "status": "partial",
   "theorems": [
    "PO.C04_lost_iff",
    "PO.C04_negation",
    "PO.C04_short_icase_partial"
   ],
   "note": "False in the code (C04_negation, witness: option 'foo,F' and '-F'); C04_short_icase_partial covers the options and names for which it holds. C04_lost_iff says exactly when a match is lost."
  },
  {
   "property": "C05",
   "status": "proved",
   "theorems": [
    "PO.C05_names_with_short",
    "PO.C05_names_without_short",
    "PO.C05_known_under"
   ],
   "note": ""
  },
  {
   "property": "C06",
   "status": "proved",
   "theorems": [
    "PO.C06_canonical_key"
   ],
   "note": ""
  },
  {
   "property": "C07",
   "status": "proved",
   "theorems": [
    "PO.C07_arguments",
    "PO.C07_positional_names",
    "PO.C07_positional_trailing",
    "PO.C07_two_trailing"
   ],
   "note": ""
  },
  {
   "property": "C08",
   "status": "proved",
   "theorems": [
    "PO.C08_declared",
    "PO.C08_numbered",
    "PO.C08_unnamed",
    "PO.C08_too_many",
    "PO.C08_only_names"
   ],
   "note": ""
  },
  {
   "property": "C09",
   "status": "proved",
   "theorems": [
    "PO.C09_style_accepted",
    "PO.C09_default_accepted",
    "PO.C09_parse_refuses"
   ],
   "note": ""
  },
  {
   "property": "C10",
   "status": "proved",
   "theorems": [
    "PO.C10_terminates",
    "PO.C10_lengthening_diverges"
   ],
   "note": ""
  },
  {
   "property": "C11",
   "status": "proved",
   "theorems": [
    "PO.C11_tokens_conserved",
    "PO.C11_disguised_rewrites",
    "PO.C11_additional_drops"
   ],
   "note": ""
  },
  {
   "property": "C12",
   "status": "proved",
   "theorems": [
    "PO.C12_terminator"
   ],
   "note": ""
  },
  {
   "property": "C13",
   "status": "proved",
   "theorems": [
    "PO.C13_adjacent_separate"
   ],
   "note": ""
  },
  {
   "property": "C14",
   "status": "proved",
   "theorems": [
    "PO.C14_adjacent_separate"
   ],
   "note": ""
  },
  {
   "property": "C15",
   "status": "proved",
   "theorems": [
    "PO.C15_group_separate"
   ],
   "note": ""
  },
  {
   "property": "C16",
   "status": "partial",
   "theorems": [
    "PO.C16_negation",
    "PO.C16_negation_adjacent",
    "PO.C16_placement_ignored",
    "PO.C16_placement_partial"
   ],
   "note": "False in the code (C16_negation, C16_negation_adjacent: '--foo bar' is accepted without long_allow_next, '--foo=bar' without long_allow_adjacent; C16_placement_ignored: the four bits never influence parsing); C16_placement_partial: a style with neither is refused."
  },
  {
   "property": "C17",
   "status": "proved",
   "theorems": [
    "PO.C17_all_registered",
    "PO.C17_never_unknown",
    "PO.C17_flag",
    "PO.C17_rejected"
   ],
   "note": ""
  },
  {
   "property": "C18",
   "status": "proved",
   "theorems": [
    "PO.C18_token_counts"
   ],
   "note": ""
  },
  {
   "property": "C19",
   "status": "proved",
   "theorems": [
    "PO.C19_subsequence",
    "PO.C19_complete"
   ],
   "note": ""
  },
  {
   "property": "C20",
   "status": "proved",
   "theorems": [
    "PO.C20_names_and_counts"
   ],
   "note": ""
  },
  {
   "property": "C21",
   "status": "partial",
   "theorems": [
    "PO.C21_undefined_all_iff",
    "PO.C21_all_partial",
    "PO.C21_negation",
    "PO.C21_negation_empty",
    "PO.C21_no_ub_partial",
    "PO.C21_identified_partial",
    "PO.C21_undefined_iff",
    "PO.C21_tokens_partial"
   ],
   "note": "False in the code (C21_negation, witness: 'foo,f' and 'foo,g' with '-fg' reads original_tokens[0] of an empty vector; C21_negation_empty: an option named ',foo' trips the assertion of the second pass); C21_no_ub_partial and C21_identified_partial give conditions under which every outcome is a result or a library exception. C21_undefined_iff says exactly when there is undefined behaviour, C21_tokens_partial that it takes an option without original tokens. C21_undefined_all_iff and C21_all_partial do so for all option sets, also those with empty reported names."
  },
  {
   "property": "C22",
   "status": "partial",
   "theorems": [
    "PO.C22_exact",
    "PO.C22_negation",
    "PO.C22_implicit_partial"
   ],
   "note": "False in the code (C22_negation: '--foo 3' gives the implicit-value option the value '3'); C22_implicit_partial: an adjacent value is kept as is, and otherwise at most one token is taken, which on its own would be positional. C22_exact: exactly when the option takes the next token, and what it gets."
  },
  {
   "property": "C23",
   "status": "partial",
   "theorems": [
    "PO.C23_positional_exact",
    "PO.C23_token_iff",
    "PO.C23_negation",
    "PO.C23_no_positional_partial"
   ],
   "note": "False in the code (C23_negation: '--=x' becomes the positional argument 'x'). C23_positional_exact and C23_token_iff say exactly which arguments are positional: of the tokens spelled like long options those of the form '--=v' and no others."
  },
  {
   "property": "C24",
   "status": "proved",
   "theorems": [
    "PO.C24_irrelevant_edits",
    "PO.C24_crlf",
    "PO.C24_final_newline"
   ],
   "note": ""
  },
  {
   "property": "C25",
   "status": "proved",
   "theorems": [
    "PO.C25_round_trip"
   ],
   "note": ""
  },
  {
   "property": "C26",
   "status": "proved",
   "theorems": [
    "PO.C26_section_prefix",
    "PO.C26_no_section"
   ],
   "note": ""
  },
  {
   "property": "C27",
   "status": "partial",
   "theorems": [
    "PO.C27_negation",
    "PO.C27_no_ub_partial",
    "PO.C27_undefined_iff"
   ],
   "note": "False in the code (C27_negation, witness: a line '[]'); C27_no_ub_partial covers every file without such a line, C27_undefined_iff says exactly which files have undefined behaviour."
  },
  {
   "property": "C28",
   "status": "proved",
   "theorems": [
    "PO.C28_all_accepted",
    "PO.C28_acceptance",
    "PO.C28_single"
   ],
   "note": ""
  },
  {
   "property": "C29",
   "status": "proved",
   "theorems": [
    "PO.C29_overlap"
   ],
   "note": ""
  },
  {
   "property": "C30",
   "status": "partial",
   "theorems": [
    "PO.C30_negation",
    "PO.C30_overlap_message_partial",
    "PO.C30_message",
    "PO.C30_reported"
   ],
   "note": "False in the code (C30_negation, witness: '0*', 'a!*', 'a*'); C30_overlap_message_partial: the first name is right, the second one is right when only two wildcards are declared. C30_message says exactly which two names are shown."
  },
  {
   "property": "C31",
   "status": "partial",
   "theorems": [
    "PO.C31_negation",
    "PO.C31_first_name_partial",
    "PO.C31_accepted_iff"
   ],
   "note": "False in the code (C31_negation, witness: the second long name of 'alias,other'); C31_first_name_partial covers the first long name. C31_accepted_iff says exactly which names are accepted."
  },
  {
   "property": "C32",
   "status": "proved",
   "theorems": [
    "PO.C32_environment_mapper",
    "PO.C32_environment_prefix"
   ],
   "note": ""
  },
  {
   "property": "C33",
   "status": "proved",
   "theorems": [
    "PO.C33_first_source_wins",
    "PO.C33_history"
   ],
   "note": ""
  },
  {
   "property": "C34",
   "status": "proved",
   "theorems": [
    "PO.C34_composing_accumulates"
   ],
   "note": ""
  },
  {
   "property": "C35",
   "status": "proved",
   "theorems": [
    "PO.C35_defaults",
    "PO.C35_explicit_replaces_default"
   ],
   "note": ""
  },
  {
   "property": "C36",
   "status": "proved",
   "theorems": [
    "PO.C36_frame",
    "PO.C36_ignored"
   ],
   "note": ""
  },
  {
   "property": "C37",
   "status": "partial",
   "theorems": [
    "PO.C37_unchanged_iff",
    "PO.C37_negation",
    "PO.C37_lost_default",
    "PO.C37_failed_store_partial"
   ],
   "note": "False in the code (C37_negation: a failed store leaves an empty entry; C37_lost_default: which hides a later default). C37_failed_store_partial says what a failed store can change, C37_unchanged_iff exactly when it changes no entry, C65_failed_state what each entry then is."
  },
  {
   "property": "C38",
   "status": "proved",
   "theorems": [
    "PO.C38_required"
   ],
   "note": ""
  },
  {
   "property": "C39",
   "status": "proved",
   "theorems": [
    "PO.C39_notify_order"
   ],
   "note": ""
  },
  {
   "property": "C40",
   "status": "proved",
   "theorems": [
    "PO.C40_chain"
   ],
   "note": ""
  },
  {
   "property": "C41",
   "status": "proved",
   "theorems": [
    "PO.C41_clear"
   ],
   "note": ""
  },
  {
   "property": "C42",
   "status": "proved",
   "theorems": [
    "PO.C42_bool_words",
    "PO.C42_wide_bool_words"
   ],
   "note": ""
  },
  {
   "property": "C43",
   "status": "proved",
   "theorems": [
    "PO.C43_scalar_once_per_source",
    "PO.C43_untyped_once_per_source"
   ],
   "note": ""
  },
  {
   "property": "C44",
   "status": "partial",
   "theorems": [
    "PO.C44_exact",
    "PO.C44_stored",
    "PO.C44_negation",
    "PO.C44_overwritten",
    "PO.C44_implicit_repetition_partial"
   ],
   "note": "False in the code (C44_negation, C44_overwritten: with an implicit value a repeated scalar option is accepted); C44_implicit_repetition_partial covers the repetitions that are reported. C44_exact says exactly which repetitions are accepted and with what value, C44_stored the same of a store."
  },
  {
   "property": "C45",
   "status": "proved",
   "theorems": [
    "PO.C45_token_counts",
    "PO.C45_token_counts_exact"
   ],
   "note": ""
  },
  {
   "property": "C46",
   "status": "proved",
   "theorems": [
    "PO.C46_true_iff_present",
    "PO.C46_value_rejected"
   ],
   "note": ""
  },
  {
   "property": "C47",
   "status": "partial",
   "theorems": [
    "PO.C47_grows",
    "PO.C47_grows_reachable",
    "PO.C47_negation_growing",
    "PO.C47_value_hangs",
    "PO.C47_value_iff",
    "PO.C47_name_hangs",
    "PO.C47_unknown_iff",
    "PO.C47_hangs",
    "PO.C47_negation",
    "PO.C47_reachable",
    "PO.C47_returns_partial"
   ],
   "note": "False in the code (C47_negation, C47_hangs, C47_reachable: a typed token containing '%canonical_option%' makes what() loop for ever). C47_returns_partial: what() returns when no text contains a placeholder. Exactly: C47_value_iff (an offending value makes what() loop iff it contains '%value%'; C47_value_hangs: whatever the names), C47_name_hangs (every class with a displayed name), C47_unknown_iff (unknown options: iff the token has '%canonical_option%' or '%original_token%', for tokens without '%option%')."
  },
  {
   "property": "C48",
   "status": "partial",
   "theorems": [
    "PO.C48_unknown_iff",
    "PO.C48_verbatim_partial",
    "PO.C48_invalid_value_partial",
    "PO.C48_negation"
   ],
   "note": "False in the code in general (C48_negation: an option name containing '%prefix%' is displayed wrongly); C48_verbatim_partial gives the exact message of every exception class but ambiguous_option when names, tokens and lines contain no placeholder and the value does not contain '%value%'. C48_unknown_iff: exactly which tokens (without '%option%') of unknown options are quoted as typed."
  },
  {
   "property": "C49",
   "status": "proved",
   "theorems": [
    "PO.C49_alternatives"
   ],
   "note": ""
  },
  {
   "property": "C50",
   "status": "proved",
   "theorems": [
    "PO.C50_unix_round_trip"
   ],
   "note": ""
  },
  {
   "property": "C51",
   "status": "proved",
   "theorems": [
    "PO.C51_winmain_lines",
    "PO.C51_winmain_round_trip"
   ],
   "note": ""
  },
  {
   "property": "C52",
   "status": "proved",
   "theorems": [
    "PO.C52_layout",
    "PO.C52_once"
   ],
   "note": ""
  },
  {
   "property": "C53",
   "status": "proved",
   "theorems": [
    "PO.C53_lossless",
    "PO.C53_description"
   ],
   "note": ""
  },
  {
   "property": "C54",
   "status": "proved",
   "theorems": [
    "PO.C54_paragraph",
    "PO.C54_description",
    "PO.C54_entry",
    "PO.C54_help"
   ],
   "note": ""
  },
  {
   "property": "C55",
   "status": "partial",
   "theorems": [
    "PO.C55_print_partial",
    "PO.C55_default_sizes",
    "PO.C55_negation",
    "PO.C55_negation_nested",
    "PO.C55_printable_iff"
   ],
   "note": "False in the code (C55_negation: minimum description length 1; C55_negation_nested: an added group with a smaller line length; both pass the constructor's check and fail an assertion in print); C55_print_partial and C55_default_sizes give simple conditions under which printing succeeds, and C55_printable_iff says exactly when it does."
  },
  {
   "property": "C56",
   "status": "proved",
   "theorems": [
    "PO.C56_chunks",
    "PO.C56_failure",
    "PO.C56_buffer",
    "PO.C56_utf8"
   ],
   "note": ""
  },
  {
   "property": "C57",
   "status": "proved",
   "theorems": [
    "PO.C57_round_trip",
    "PO.C57_standard"
   ],
   "note": ""
  },
  {
   "property": "C58",
   "status": "proved",
   "theorems": [
    "PO.C58_priority"
   ],
   "note": ""
  },
  {
   "property": "C59",
   "status": "partial",
   "theorems": [
    "PO.C59_exact",
    "PO.C59_stored",
    "PO.C59_negation",
    "PO.C59_accumulates_partial"
   ],
   "note": "False in the code (C59_negation: an occurrence without a value replaces everything accumulated by the implicit value); C59_accumulates_partial covers occurrences that carry a value. C59_exact says exactly what the option gets from any sequence of occurrences."
  },
  {
   "property": "C60",
   "status": "proved",
   "theorems": [
    "PO.C60_words_not_chopped"
   ],
   "note": ""
  },
  {
   "property": "C61",
   "status": "proved",
   "theorems": [
    "PO.C61_grammar",
    "PO.C61_unambiguous",
    "PO.C61_token",
    "PO.C61_grammar_all"
   ],
   "note": ""
  },
  {
   "property": "C62",
   "status": "proved",
   "theorems": [
    "PO.C62_maximal",
    "PO.C62_multitoken"
   ],
   "note": ""
  },
  {
   "property": "C63",
   "status": "proved",
   "theorems": [
    "PO.C63_refused_all",
    "PO.C63_all_cases",
    "PO.C63_refused",
    "PO.C63_accepted_or_refused",
    "PO.C63_undefined"
   ],
   "note": ""
  },
  {
   "property": "C64",
   "status": "proved",
   "theorems": [
    "PO.C64_accepted",
    "PO.C64_refused"
   ],
   "note": ""
  },
  {
   "property": "C65",
   "status": "proved",
   "theorems": [
    "PO.C65_succeeds",
    "PO.C65_fails",
    "PO.C65_told",
    "PO.C65_result",
    "PO.C65_failed_state"
   ],
   "note": ""
  },
  {
   "property": "C66",
   "status": "proved",
   "theorems": [
    "PO.C66_order_irrelevant"
   ],
   "note": ""
  },
  {
   "property": "C67",
   "status": "proved",
   "theorems": [
    "PO.C67_disjoint_sources_commute",
    "PO.C67_display_differs"
   ],
   "note": ""
  },
  {
   "property": "C68",
   "status": "proved",
   "theorems": [
    "PO.C68_store_again"
   ],
   "note": ""
  },
  {
   "property": "C69",
   "status": "partial",
   "theorems": [
    "PO.C69_negation",
    "PO.C69_notify_negation",
    "PO.C69_type_partial",
    "PO.C69_notify_partial",
    "PO.C69_exact",
    "PO.C69_notify_exact",
    "PO.C69_iff"
   ],
   "note": "False in the code (C69_negation and C69_notify_negation, witness: wvalue<std::string>, whose validator stores a std::wstring); C69_type_partial and C69_notify_partial cover every other declaration. C69_exact and C69_notify_exact: exactly which values have another type and for which of them notify dereferences null; C69_iff: exactly which declarations."
  },
  {
   "property": "C70",
   "status": "proved",
   "theorems": [
    "PO.C70_unmentioned_option",
    "PO.C70_new_name",
    "PO.C70_store"
   ],
   "note": ""
  },
  {
   "property": "C71",
   "status": "proved",
   "theorems": [
    "PO.C71_values_are_typed"
   ],
   "note": ""
  },
  {
   "property": "C72",
   "status": "partial",
   "theorems": [
    "PO.C72_negation",
    "PO.C72_wide_partial",
    "PO.C72_iff"
   ],
   "note": "False in the code (C72_negation, witness: '-é' with allow_unregistered is cut between the two octets of 'é', and decoding the second throws logic_error); C72_wide_partial covers command lines whose short options are ASCII, or where no declared option has a letter outside ASCII and unregistered options are refused. C72_iff says exactly which wide command lines fail: those where some value begins inside a character; otherwise the result is as C72 says."
  },
  {
   "property": "C73",
   "status": "proved",
   "theorems": [
    "PO.C73_wide_config"
   ],
   "note": ""
  },
  {
   "property": "C74",
   "status": "proved",
   "theorems": [
    "PO.C74_strict",
    "PO.C74_allowing_adds"
   ],
   "note": ""
  },
  {
   "property": "C75",
   "status": "partial",
   "theorems": [
    "PO.C75_negation",
    "PO.C75_guessing_partial",
    "PO.C75_iff"
   ],
   "note": "False in the code (C75_negation, witness: with the options foo* and foobar the argument --foob=1 is foo* without guessing and ambiguous with it); C75_guessing_partial covers long names without a star or a leading dash or slash, when unregistered options are refused, without additional parser and without long options behind a single dash. C75_iff says exactly which accepted command lines guessing changes, also with families and with unregistered options allowed: those with an option reported under a name that is no declared name but the beginning of one."
  },
  {
   "property": "C76",
   "status": "proved",
   "theorems": [
    "PO.C76_compose",
    "PO.C76_positional",
    "PO.C76_positional_stored",
    "PO.C76_stored",
    "PO.C76_not_composing"
   ],
   "note": ""
  },
  {
   "property": "C77",
   "status": "proved",
   "theorems": [
    "PO.C77_unix_grammar",
    "PO.C77_unix_refusal"
   ],
   "note": ""
  },
  {
   "property": "C78",
   "status": "proved",
   "theorems": [
    "PO.C78_winmain_grammar"
   ],
   "note": ""
  },
  {
   "property": "C79",
   "status": "proved",
   "theorems": [
    "PO.C79_wide_unix",
    "PO.C79_wide_winmain"
   ],
   "note": ""
  },
  {
   "property": "C80",
   "status": "proved",
   "theorems": [
    "PO.C80_explained",
    "PO.C80_token"
   ],
   "note": ""
  },
  {
   "property": "C81",
   "status": "proved",
   "theorems": [
    "PO.C81_help",
    "PO.C81_parameter"
   ],
   "note": ""
  },
  {
   "property": "C82",
   "status": "proved",
   "theorems": [
    "PO.C82_value",
    "PO.C82_refused",
    "PO.C82_untyped"
   ],
   "note": ""
  },
  {
   "property": "C83",
   "status": "proved",
   "theorems": [
    "PO.C83_explained",
    "PO.C83_bad_value",
    "PO.C83_unknown",
    "PO.C83_command_line",
    "PO.C83_other_sources"
   ],
   "note": ""
  },
  {
   "property": "C84",
   "status": "proved",
   "theorems": [
    "PO.C84_round_trip",
    "PO.C84_settings",
    "PO.C84_one_string"
   ],
   "note": ""
  },
  {
   "property": "C85",
   "status": "proved",
   "theorems": [
    "PO.C85_only_values",
    "PO.C85_sources"
   ],
   "note": ""
  },
  {
   "property": "C86",
   "status": "proved",
   "theorems": [
    "PO.C86_decoded",
    "PO.C86_refused",
    "PO.C86_encoded"
   ],
   "note": ""
  },
  {
   "property": "C87",
   "status": "proved",
   "theorems": [
    "PO.C87_succeeds",
    "PO.C87_stored",
    "PO.C87_wide",
    "PO.C87_wide_string"
   ],
   "note": ""
  },
  {
   "property": "C88",
   "status": "proved",
   "theorems": [
    "PO.C88_assigned",
    "PO.C88_program"
   ],
   "note": ""
  },
  {
   "property": "C89",
   "status": "partial",
   "theorems": [
    "PO.C89_parts",
    "PO.C89_forwarded_partial",
    "PO.C89_recognised_partial",
    "PO.C89_negation",
    "PO.C89_negation_group",
    "PO.C89_recognised_iff",
    "PO.C89_forwarded_iff",
    "PO.C89_iff"
   ],
   "note": "False in the code: the terminator is not passed on, and a group of short options with an unknown one is passed on together with the known ones (C89_negation, C89_negation_group). C89_forwarded_partial, C89_recognised_partial: proved for command lines without terminator and without such groups. C89_iff, C89_recognised_iff, C89_forwarded_iff: it holds exactly if no group of short options has known and unknown ones in it and no argument behind the terminator looks like an option or terminator."
  },
  {
   "property": "C90",
   "status": "proved",
   "theorems": [
    "PO.C90_two_programs",
    "PO.C90_stored"
   ],
   "note": ""
  },
  {
   "property": "C91",
   "status": "proved",
   "theorems": [
    "PO.C91_run_out_of_range_all",
    "PO.C91_run",
    "PO.C91_match",
    "PO.C91_run_out_of_range",
    "PO.C91_run_in_range",
    "PO.C91_config",
    "PO.C91_config_out_of_range",
    "PO.C91_environment",
    "PO.C91_names",
    "PO.C91_winmain",
    "PO.C91_messages",
    "PO.C91_entries",
    "PO.C91_print",
    "PO.C91_print_in_range"
   ],
   "note": ""
  },
  {
   "property": "C92",
   "status": "partial",
   "theorems": [
    "PO.C92_stream",
    "PO.C92_wide_stream",
    "PO.C92_broken_stream",
    "PO.C92_file_partial",
    "PO.C92_file_broken",
    "PO.C92_negation",
    "PO.C92_environment"
   ],
   "note": "False in the code: the overload for streams takes a failure for the end of the file (C92_negation). Proved: the contents are read exactly line by line and option by option; the overload with a file name reports a failure; after the other one the stream is bad."
  },
  {
   "property": "C93",
   "status": "partial",
   "theorems": [
    "PO.C93_copies",
    "PO.C93_values",
    "PO.C93_alone",
    "PO.C93_copies_partial",
    "PO.C93_negation",
    "PO.C93_negation_section"
   ],
   "note": "False in the code: copies share the stream (C93_negation) but not the current section (C93_negation_section). Proved: without sections the copies together hand out every option once, in order. C93_copies: exactly what any copies are handed out in any order of increments, with sections; C93_values: the values always come in order, each once; C93_alone: a single iterator gets the options of the file."
  },
  {
   "property": "C94",
   "status": "partial",
   "theorems": [
    "PO.C94_long_partial",
    "PO.C94_short_partial",
    "PO.C94_iff",
    "PO.C94_short_iff",
    "PO.C94_negation",
    "PO.C94_negation_zero"
   ],
   "note": "False in the code for an implicit value with empty text (C94_negation) and for zero_tokens with multitoken (C94_negation_zero). Proved for all other declarations whose value_name does not start with a bracket, for the long name and the short name. C94_iff, C94_short_iff: for value<T>(), exactly when it holds for the long and for the short name."
  },
  {
   "property": "C95",
   "status": "partial",
   "theorems": [
    "PO.C95_file_partial",
    "PO.C95_fault_partial",
    "PO.C95_line_returns",
    "PO.C95_negation",
    "PO.C95_required_partial",
    "PO.C95_line_iff",
    "PO.C95_file_iff",
    "PO.C95_fault_iff"
   ],
   "note": "False in the code for lines that contain placeholders (C95_negation: what() loops forever). Proved exactly: for which lines and names of a file the message is made and for which it quotes them; only names that contain %option% are left out. For required options only names without percent signs."
  },
  {
   "property": "C96",
   "status": "proved",
   "theorems": [
    "PO.C96_normal_form",
    "PO.C96_regular"
   ],
   "note": ""
  },
  {
   "property": "C97",
   "status": "partial",
   "theorems": [
    "PO.C97_command_line_partial",
    "PO.C97_config_file",
    "PO.C97_negation",
    "PO.C97_store_refuses",
    "PO.C97_clash",
    "PO.C97_positional",
    "PO.C97_iff"
   ],
   "note": "False in the code for wildcard names with guessing or case-insensitive names (C97_negation, C97_store_refuses: --fo=1 is accepted for foo* and then unknown to the store). C97_command_line_partial covers options without wildcards, and all options when neither is on; C97_config_file covers configuration files completely. C97_iff: exactly which accepted command lines the store knows all options of."
  },
  {
   "property": "C98",
   "status": "proved",
   "theorems": [
    "PO.C98_interchangeable",
    "PO.C98_letter_case",
    "PO.C98_family_case"
   ],
   "note": ""
  },
  {
   "property": "C99",
   "status": "partial",
   "theorems": [
    "PO.C99_outcome",
    "PO.C99_used_up",
    "PO.C99_left",
    "PO.C99_progress",
    "PO.C99_behind",
    "PO.C99_settles",
    "PO.C99_negation",
    "PO.C99_again_partial",
    "PO.C99_accepted_later"
   ],
   "note": "False in the code (C99_negation, C99_accepted_later). C99_again_partial: a success is followed by an empty success, a failure that takes no token away by the same failure; C99_left says exactly what is left, C99_settles that repeated runs settle."
  },
  {
   "property": "C100",
   "status": "partial",
   "theorems": [
    "PO.C100_explicit_iff",
    "PO.C100_found_iff",
    "PO.C100_own_names",
    "PO.C100_command_line_partial",
    "PO.C100_config_file_partial",
    "PO.C100_environment_partial",
    "PO.C100_default_instead",
    "PO.C100_required_missing",
    "PO.C100_negation",
    "PO.C100_environment_alias",
    "PO.C100_positional_alias",
    "PO.C100_family_alias"
   ],
   "note": "False in the code (C100_negation, C100_environment_alias, C100_positional_alias, C100_family_alias: a second name of an option used in the environment or in a positional description). C100_found_iff says exactly when it holds; C100_command_line_partial, C100_config_file_partial, C100_environment_partial give conditions for each source."
  },
  {
   "property": "C101",
   "status": "partial",
   "theorems": [
    "PO.C101_accepted_iff",
    "PO.C101_value",
    "PO.C101_stranger",
    "PO.C101_unreachable",
    "PO.C101_reachable_partial",
    "PO.C101_negation"
   ],
   "note": "False in the code for names with upper-case letters (C101_negation, C101_unreachable). C101_reachable_partial covers all other names; C101_accepted_iff, C101_value and C101_stranger have no such condition."
  },
  {
   "property": "C102",
   "status": "partial",
   "theorems": [
    "PO.C102_group_partial",
    "PO.C102_individually_partial",
    "PO.C102_itself",
    "PO.C102_negation"
   ],
   "note": "False if both are the same object and it has options (C102_negation, C102_itself). C102_group_partial and C102_individually_partial cover all other cases."
  },
  {
   "property": "C103",
   "status": "partial",
   "theorems": [
    "PO.C103_command_line_partial",
    "PO.C103_store_partial",
    "PO.C103_silent",
    "PO.C103_negation"
   ],
   "note": "False in the code (C103_negation). C103_command_line_partial and C103_store_partial: the name can then not be used; C103_silent: unused, nothing is reported."
  },
  {
   "property": "C104",
   "status": "proved",
   "theorems": [
    "PO.C104_succeeds",
    "PO.C104_value",
    "PO.C104_only_source",
    "PO.C104_any_order",
    "PO.C104_variable",
    "PO.C104_one_or_two"
   ],
   "note": ""
  },
  {
   "property": "C105",
   "status": "proved",
   "theorems": [
    "PO.C105_extra_parser",
    "PO.C105_response_file",
    "PO.C105_gcc_style",
    "PO.C105_words",
    "PO.C105_command_line_stands"
   ],
   "note": ""
  },
  {
   "property": "C106",
   "status": "proved",
   "theorems": [
    "PO.C106_given_iff",
    "PO.C106_conflicting",
    "PO.C106_dependency",
    "PO.C106_failed_store"
   ],
   "note": ""
  },
  {
   "property": "C107",
   "status": "proved",
   "theorems": [
    "PO.C107_written",
    "PO.C107_value"
   ],
   "note": ""
  },
  {
   "property": "C108",
   "status": "proved",
   "theorems": [
    "PO.C108_environment",
    "PO.C108_sources",
    "PO.C108_strings",
    "PO.C108_numbers",
    "PO.C108_gui",
    "PO.C108_include_path",
    "PO.C108_command_only",
    "PO.C108_help",
    "PO.C108_switch_off"
   ],
   "note": ""
  },
  {
   "property": "C109",
   "status": "proved",
   "theorems": [
    "PO.C109_caught",
    "PO.C109_wide"
   ],
   "note": ""
  },
  {
   "property": "C110",
   "status": "proved",
   "theorems": [
    "PO.C110_flags",
    "PO.C110_set",
    "PO.C110_idle_iff"
   ],
   "note": ""
  },
  {
   "property": "C111",
   "status": "proved",
   "theorems": [
    "PO.C111_returns",
    "PO.C111_otherwise"
   ],
   "note": ""
  },
  {
   "property": "C112",
   "status": "proved",
   "theorems": [
    "PO.C112_returns",
    "PO.C112_otherwise"
   ],
   "note": ""
  },
  {
   "property": "C113",
   "status": "proved",
   "theorems": [
    "PO.C113_succeeds",
    "PO.C113_given",
    "PO.C113_not_given",
    "PO.C113_nothing_else",
    "PO.C113_otherwise"
   ],
   "note": ""
  },
  {
   "property": "C114",
   "status": "proved",
   "theorems": [
    "PO.C114_first",
    "PO.C114_groups",
    "PO.C114_real",
    "PO.C114_otherwise"
   ],
   "note": ""
  },
  {
   "property": "C115",
   "status": "partial",
   "theorems": [
    "PO.C115_sound",
    "PO.C115_partial",
    "PO.C115_iff",
    "PO.C115_failure",
    "PO.C115_cut_off",
    "PO.C115_only_shifts",
    "PO.C115_negation"
   ],
   "note": "False in the code (C115_negation). C115_partial: it holds for texts whose last unit completes a character; C115_iff and C115_failure: exactly what is converted."
  },
  {
   "property": "C116",
   "status": "proved",
   "theorems": [
    "PO.C116_quiet",
    "PO.C116_throws",
    "PO.C116_missing",
    "PO.C116_sees"
   ],
   "note": ""
  },
  {
   "property": "C117",
   "status": "proved",
   "theorems": [
    "PO.C117_stored",
    "PO.C117_given",
    "PO.C117_not_given",
    "PO.C117_nothing_else",
    "PO.C117_notify",
    "PO.C117_lacking",
    "PO.C117_variable",
    "PO.C117_otherwise",
    "PO.C117_tokens"
   ],
   "note": ""
  },
  {
   "property": "C118",
   "status": "proved",
   "theorems": [
    "PO.DescProgram.C118_returns",
    "PO.DescProgram.C118_otherwise"
   ],
   "note": ""
  },
  {
   "property": "C119",
   "status": "proved",
   "theorems": [
    "PO.C119_library",
    "PO.C119_stored",
    "PO.C119_given",
    "PO.C119_not_given",
    "PO.C119_once",
    "PO.C119_vector",
    "PO.C119_optional",
    "PO.C119_argument",
    "PO.C119_refused",
    "PO.C119_refuses",
    "PO.C119_notify",
    "PO.C119_otherwise",
    "PO.C119_cast_escapes"
   ],
   "note": ""
  },
  {
   "property": "C120",
   "status": "proved",
   "theorems": [
    "PO.RegexProgram.C120_returns",
    "PO.RegexProgram.C120_otherwise",
    "PO.RegexProgram.C120_message"
   ],
   "note": ""
  },
  {
   "property": "C121",
   "status": "proved",
   "theorems": [
    "PO.C121_stored",
    "PO.C121_given",
    "PO.C121_not_given",
    "PO.C121_nothing_else",
    "PO.C121_notify",
    "PO.C121_lacking",
    "PO.C121_variable",
    "PO.C121_otherwise",
    "PO.C121_command_line",
    "PO.C121_config_file",
    "PO.C121_environment"
   ],
   "note": ""
  },
  {
   "property": "C122",
   "status": "proved",
   "theorems": [
    "PO.CustomSyntax.C122_custom_syntax",
    "PO.CustomSyntax.C122_custom_otherwise",
    "PO.ResponseFile.C122_response_file",
    "PO.ResponseFile.C122_not_opened",
    "PO.ResponseFile.C122_response_otherwise"
   ],
   "note": ""
  },
  {
   "property": "C123",
   "status": "proved",
   "theorems": [
    "PO.C123_read",
    "PO.C123_unique",
    "PO.C123_refusing",
    "PO.C123_passed_on",
    "PO.C123_source",
    "PO.C123_named_source",
    "PO.C123_two",
    "PO.C123_same",
    "PO.C123_bool"
   ],
   "note": ""
  },
  {
   "property": "C124",
   "status": "partial",
   "theorems": [
    "PO.C124_lookup",
    "PO.C124_lookup_iff",
    "PO.C124_lookup_exact",
    "PO.C124_bool",
    "PO.C124_wide_bool",
    "PO.C124_prefix",
    "PO.C124_winmain",
    "PO.C124_partial",
    "PO.C124_not"
   ],
   "note": "False in the code (C124_not). C124_partial: it holds for the narrow functions where char is unsigned or no byte is between 0x80 and 0xfe; C124_lookup_exact: always for lookups that regard case; C124_winmain: always for split_winmain; C124_lookup_iff, C124_bool, C124_wide_bool, C124_prefix: exactly when not."
  },
  {
   "property": "C125",
   "status": "proved",
   "theorems": [
    "PO.C125_sizes",
    "PO.C125_self_iff",
    "PO.C125_destroy_last",
    "PO.C125_destroyed_iff",
    "PO.C125_counts",
    "PO.C125_alive",
    "PO.C125_undefined_iff",
    "PO.C125_endless_iff",
    "PO.C125_notify",
    "PO.C125_no_leak",
    "PO.C125_links",
    "PO.C125_lookup_gone",
    "PO.C125_run_iff",
    "PO.C125_store_iff"
   ],
   "note": ""
  },
  {
   "property": "C126",
   "status": "proved",
   "theorems": [
    "PO.Release.C126_help",
    "PO.Release.C126_same",
    "PO.Release.C126_outcome"
   ],
   "note": ""
  },
  {
   "property": "C127",
   "status": "partial",
   "theorems": [
    "PO.Tabs.C127_release_iff",
    "PO.Tabs.C127_debug_iff",
    "PO.Tabs.C127_partial",
    "PO.Tabs.C127_removed",
    "PO.Tabs.C127_one_tab",
    "PO.Tabs.C127_not"
   ],
   "note": "False in the code (C127_not). C127_partial: it holds for a tab on the first line before its last position; C127_release_iff, C127_debug_iff: exactly when it holds; C127_removed, C127_one_tab: the other two sentences hold always."
  },
  {
   "property": "C128",
   "status": "proved",
   "theorems": [
    "PO.Release.C128_environment",
    "PO.Release.C128_positional",
    "PO.Release.C128_add",
    "PO.Release.C128_parse",
    "PO.Release.C128_absorb",
    "PO.Release.C128_swallowed",
    "PO.Release.C128_names",
    "PO.Release.C128_nameless"
   ],
   "note": ""
  },
  {
   "property": "C129",
   "status": "partial",
   "theorems": [
    "PO.ExtraCalls.C129_calls",
    "PO.ExtraCalls.C129_parsed",
    "PO.ExtraCalls.C129_partial",
    "PO.ExtraCalls.C129_function",
    "PO.ExtraCalls.C129_not"
   ],
   "note": "False in the code for the tokens behind a terminator (C129_not). C129_partial: without a terminator it holds; C129_parsed, C129_calls: exactly the tokens it is called on, always."
  },
  {
   "property": "C130",
   "status": "partial",
   "theorems": [
    "PO.C130_reported",
    "PO.C130_iff",
    "PO.C130_partial",
    "PO.C130_token",
    "PO.C130_not"
   ],
   "note": "False in the code (C130_not). C130_partial: it holds if no declared option needs a value of its own; C130_iff: exactly when it holds; C130_reported: exactly what is reported, always; C130_token: a token after a beginning that can be read by itself is reported."
  },
  {
   "property": "C131",
   "status": "partial",
   "theorems": [
    "PO.C131_order",
    "PO.C131_same",
    "PO.C131_dangling_iff",
    "PO.C131_iff",
    "PO.C131_partial",
    "PO.C131_late",
    "PO.C131_ends",
    "PO.C131_recursion",
    "PO.C131_not",
    "PO.C131_endless"
   ],
   "note": "False in the code (C131_not). C131_partial: it holds if each notifier leaves the records up to its own name as they are; C131_iff: exactly when it holds; order, undefined behaviour and termination are proved in full (C131_order, C131_dangling_iff, C131_ends, C131_endless, C131_recursion)."
  },
  {
   "property": "C132",
   "status": "partial",
   "theorems": [
    "PO.C132_throws",
    "PO.C132_declares",
    "PO.C132_order",
    "PO.C132_name",
    "PO.C132_switch",
    "PO.C132_texts_partial",
    "PO.C132_stale",
    "PO.C132_negation"
   ],
   "note": "The part about texts is false in the code after a call that throws (C132_negation, witness: a second default value that cannot be printed); C132_texts_partial covers chains without exception, C132_stale says exactly what is left after one. The other parts are proved in full (C132_declares, C132_order, C132_throws)."
  },
  {
   "property": "C133",
   "status": "proved",
   "theorems": [
    "PO.C133_unused",
    "PO.C133_added",
    "PO.C133_config_file",
    "PO.C133_disguise",
    "PO.C133_stored",
    "PO.C133_same_map",
    "PO.C133_program",
    "PO.C133_shared_name"
   ],
   "note": ""
  },
  {
   "property": "C134",
   "status": "proved",
   "theorems": [
    "PO.C134_last",
    "PO.C134_unique",
    "PO.C134_asking",
    "PO.C134_library"
   ],
   "note": ""
  },
  {
   "property": "C135",
   "status": "partial",
   "theorems": [
    "PO.C135_filled_partial",
    "PO.C135_left_partial",
    "PO.C135_reworded",
    "PO.C135_negation",
    "PO.C135_library",
    "PO.C135_ambiguous"
   ],
   "note": "False in the code (C135_negation, witness: a template with %value% in other words than the default's and no value told). C135_left_partial says exactly which placeholders are left, defaults included, in templates whose words have at most one placeholder each; C135_library and C135_ambiguous which are left in the library's own messages."
  },
  {
   "property": "C136",
   "status": "proved",
   "theorems": [
    "PO.C136_run",
    "PO.C136_unique",
    "PO.C136_exists",
    "PO.C136_without",
    "PO.C136_refused",
    "PO.C136_tokens",
    "PO.C136_used_up",
    "PO.C136_left",
    "PO.C136_swap",
    "PO.C136_parse_command_line"
   ],
   "note": ""
  },
  {
   "property": "C137",
   "status": "proved",
   "theorems": [
    "PO.C137_command_line",
    "PO.C137_message",
    "PO.C137_config_file",
    "PO.C137_store",
    "PO.C137_end_to_end",
    "PO.C137_needed",
    "PO.C137_help"
   ],
   "note": ""
  },
  {
   "property": "C138",
   "status": "partial",
   "theorems": [
    "PO.C138_value",
    "PO.C138_returns_iff",
    "PO.C138_dangling_iff",
    "PO.C138_endless_iff",
    "PO.C138_enough",
    "PO.C138_untouched",
    "PO.C138_copy",
    "PO.C138_assign",
    "PO.C138_assign_circle",
    "PO.C138_clear",
    "PO.C138_link",
    "PO.C138_create",
    "PO.C138_store",
    "PO.C138_destroy",
    "PO.C138_programs_partial",
    "PO.C138_negation",
    "PO.C138_negation_circle",
    "PO.C138_only_lookup"
   ],
   "note": "False in the code (C138_negation: a linked map that is gone; C138_negation_circle: assignment copies the link and can close a circle). C138_returns_iff, C138_dangling_iff and C138_endless_iff say exactly when vm[name] returns, reads a destroyed map or never returns, C138_value what it returns; C138_programs_partial covers programs that link to and assign from older maps only and keep them all."
  },
  {
   "property": "C139",
   "status": "partial",
   "theorems": [
    "PO.C139_course",
    "PO.C139_performs_iff",
    "PO.C139_settled_iff",
    "PO.C139_given_anew_iff",
    "PO.C139_given_anew_partial",
    "PO.C139_inserted",
    "PO.C139_inserted_default",
    "PO.C139_in_the_way",
    "PO.C139_not_told",
    "PO.C139_required",
    "PO.C139_erased_required",
    "PO.C139_swap_partial",
    "PO.C139_swap_heard",
    "PO.C139_negation",
    "PO.C139_swap_negation"
   ],
   "note": "False in the code (C139_negation: erase does not touch m_final). C139_given_anew_iff says exactly which erased names are given anew and what the others hold, C139_settled_iff which names are settled after any program; C139_given_anew_partial covers the names no source settled since the last clear."
  },
  {
   "property": "C140",
   "status": "partial",
   "theorems": [
    "PO.C140_readable_iff",
    "PO.C140_stay_partial",
    "PO.C140_again",
    "PO.C140_copy",
    "PO.C140_negation"
   ],
   "note": "False in the code (C140_negation: a second what() invalidates the pointer of the first). C140_readable_iff says exactly which pointers still show their text after any program; C140_stay_partial covers exceptions that are not asked again meanwhile."
  },
  {
   "property": "C141",
   "status": "partial",
   "theorems": [
    "PO.C141_throws",
    "PO.C141_written",
    "PO.C141_not_good",
    "PO.C141_same_iff",
    "PO.C141_same_partial",
    "PO.C141_room",
    "PO.C141_thrown",
    "PO.C141_negation"
   ],
   "note": "False in the code (C141_negation: a field width of the stream pads the first thing written). C141_written says exactly what any stream gets, C141_same_iff when this is the text of the help; C141_same_partial covers streams without a field width."
  },
  {
   "property": "C142",
   "status": "partial",
   "theorems": [
    "PO.C142_grammar",
    "PO.C142_refusal",
    "PO.C142_undefined_iff",
    "PO.C142_tokens_conserved",
    "PO.C142_canonical_key",
    "PO.C142_flag",
    "PO.C142_counts",
    "PO.C142_counts_partial",
    "PO.C142_no_ub_partial",
    "PO.C142_throws",
    "PO.C142_first",
    "PO.C142_idle",
    "PO.C142_negation",
    "PO.C142_ub_negation"
   ],
   "note": "Two parts are false in the code (C142_negation: too many values from a style parser are accepted; C142_ub_negation: an assertion about its positional arguments fails). C142_counts says exactly which options may have too many values, C142_undefined_iff exactly when there is undefined behaviour; C142_counts_partial and C142_no_ub_partial cover style parsers that return none of these. C142_grammar and C142_refusal give all outcomes exactly. The other parts are proved."
  },
  {
   "property": "C143",
   "status": "partial",
   "theorems": [
    "PO.C143_fails_iff",
    "PO.C143_names",
    "PO.C143_limit",
    "PO.C143_arguments",
    "PO.C143_kept_iff",
    "PO.C143_negation",
    "PO.C143_kept_partial",
    "PO.C143_after_endless"
   ],
   "note": "One part is false in the code (C143_negation: a count below -1 takes earlier names away). C143_kept_iff says exactly when a position keeps its name, C143_kept_partial covers calls with counts of -1 or more. The other parts are proved for all counts."
  },
  {
   "property": "C144",
   "status": "proved",
   "theorems": [
    "PO.C144_longer",
    "PO.C144_lookup",
    "PO.C144_shortest",
    "PO.C144_lookup_shortest",
    "PO.C144_command_line"
   ],
   "note": ""
  },
  {
   "property": "C145",
   "status": "proved",
   "theorems": [
    "PO.C145_joined",
    "PO.C145_refused",
    "PO.C145_parts",
    "PO.C145_order",
    "PO.C145_one_or_two",
    "PO.C145_in_full",
    "PO.C145_writable",
    "PO.C145_same_section",
    "PO.C145_needs_header",
    "PO.C145_given_twice"
   ],
   "note": ""
  },
  {
   "property": "C146",
   "status": "partial",
   "theorems": [
    "PO.C146_apart_partial",
    "PO.C146_iff",
    "PO.C146_alone",
    "PO.C146_negation",
    "PO.C146_ends"
   ],
   "note": "False in the code (C146_negation, C146_ends): what() writes the text that other threads read. C146_iff says exactly when it holds, C146_apart_partial covers calls that do not overlap, C146_alone a thread alone."
  },
  {
   "property": "C147",
   "status": "partial",
   "theorems": [
    "PO.C147_places",
    "PO.C147_equal_iff",
    "PO.C147_equal_partial",
    "PO.C147_negation"
   ],
   "note": "Comparing is false in the code (C147_negation): iterators at the same variable are not equal. C147_equal_iff says exactly when two are, C147_equal_partial covers the comparison with the end; the rest holds (C147_places)."
  },
  {
   "property": "C148",
   "status": "proved",
   "theorems": [
    "PO.C148_counts",
    "PO.C148_switch",
    "PO.C148_typed",
    "PO.C148_untyped",
    "PO.C148_bool_switch"
   ],
   "note": ""
  },
  {
   "property": "C149",
   "status": "partial",
   "theorems": [
    "PO.C149_negation",
    "PO.C149_case_partial",
    "PO.C149_names_partial",
    "PO.C149_without_dashes"
   ],
   "note": "False in the code for groups of short options in capitals (C149_negation). C149_case_partial and C149_names_partial need tokens with one dash to agree or to have two characters and not to be ambiguous; C149_without_dashes is the whole claim for styles without such tokens."
  },
  {
   "property": "C150",
   "status": "partial",
   "theorems": [
    "PO.C150_negation",
    "PO.C150_sticky_partial"
   ],
   "note": "False in the code if a value looks like a group with an ambiguous letter (C150_negation). C150_sticky_partial holds if no letter of the command line is ambiguous; it also leaves out long names that begin with a dash or are a mere asterisk, and long_case_insensitive without short_case_insensitive (C04)."
  },
  {
   "property": "C151",
   "status": "proved",
   "theorems": [
    "PO.C151_forms",
    "PO.C151_forms_long",
    "PO.C151_no_options"
   ],
   "note": ""
  },
  {
   "property": "C152",
   "status": "proved",
   "theorems": [
    "PO.C152_letters",
    "PO.C152_letters_iff"
   ],
   "note": ""
  },
  {
   "property": "C153",
   "status": "proved",
   "theorems": [
    "PO.C153_letters",
    "PO.C153_letters_iff",
    "PO.C153_environment",
    "PO.C153_environment_iff",
    "PO.C153_prefix"
   ],
   "note": ""
  },
  {
   "property": "C154",
   "status": "proved",
   "theorems": [
    "PO.C154_store",
    "PO.C154_strings"
   ],
   "note": ""
  },
  {
   "property": "C155",
   "status": "proved",
   "theorems": [
    "PO.C155_help",
    "PO.C155_help_iff"
   ],
   "note": ""
  },
  {
   "property": "C156",
   "status": "proved",
   "theorems": [
    "PO.C156_unix",
    "PO.C156_unix_iff",
    "PO.C156_winmain",
    "PO.C156_winmain_iff"
   ],
   "note": ""
  },
  {
   "property": "C157",
   "status": "proved",
   "theorems": [
    "PO.C157_parse_file",
    "PO.C157_checks",
    "PO.C157_own_file",
    "PO.C157_left_out"
   ],
   "note": ""
  },
  {
   "property": "C158",
   "status": "proved",
   "theorems": [
    "PO.C158_command_line",
    "PO.C158_exit_code"
   ],
   "note": ""
  },
  {
   "property": "C159",
   "status": "proved",
   "theorems": [
    "PO.C159_notify",
    "PO.C159_program",
    "PO.C159_order_iff"
   ],
   "note": ""
  },
  {
   "property": "C160",
   "status": "proved",
   "theorems": [
    "PO.C160_prefix",
    "PO.C160_refused",
    "PO.C160_same_exception"
   ],
   "note": ""
  },
  {
   "property": "C161",
   "status": "proved",
   "theorems": [
    "PO.C161_lines",
    "PO.C161_refused",
    "PO.C161_cut",
    "PO.C161_bracket",
    "PO.C161_wide_refused",
    "PO.C161_wide"
   ],
   "note": ""
  },
  {
   "property": "C162",
   "status": "proved",
   "theorems": [
    "PO.C162_stored",
    "PO.C162_failed",
    "PO.C162_file",
    "PO.C162_file_failed"
   ],
   "note": ""
  },
  {
   "property": "C163",
   "status": "proved",
   "theorems": [
    "PO.C163_prefix",
    "PO.C163_stored",
    "PO.C163_failed",
    "PO.C163_needed"
   ],
   "note": ""
  },
  {
   "property": "C164",
   "status": "proved",
   "theorems": [
    "PO.C164_arguments",
    "PO.C164_stored",
    "PO.C164_file",
    "PO.C164_environment",
    "PO.C164_variable"
   ],
   "note": ""
  }
 ]
}