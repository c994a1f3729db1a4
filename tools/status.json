{
 "C04": {
  "status": "partial",
  "note": "False in the code (C04_negation, witness: option 'foo,F' and '-F'); C04_short_icase_partial covers the options and names for which it holds. C04_lost_iff says exactly when a match is lost."
 },
 "C27": {
  "status": "partial",
  "note": "False in the code (C27_negation, witness: a line '[]'); C27_no_ub_partial covers every file without such a line, C27_undefined_iff says exactly which files have undefined behaviour."
 },
 "C30": {
  "status": "partial",
  "note": "False in the code (C30_negation, witness: '0*', 'a!*', 'a*'); C30_overlap_message_partial: the first name is right, the second one is right when only two wildcards are declared. C30_message says exactly which two names are shown."
 },
 "C31": {
  "status": "partial",
  "note": "False in the code (C31_negation, witness: the second long name of 'alias,other'); C31_first_name_partial covers the first long name. C31_accepted_iff says exactly which names are accepted."
 },
 "C37": {
  "status": "partial",
  "note": "False in the code (C37_negation: a failed store leaves an empty entry; C37_lost_default: which hides a later default). C37_failed_store_partial says what a failed store can change, C37_unchanged_iff exactly when it changes no entry, C65_failed_state what each entry then is."
 },
 "C44": {
  "status": "partial",
  "note": "False in the code (C44_negation, C44_overwritten: with an implicit value a repeated scalar option is accepted); C44_implicit_repetition_partial covers the repetitions that are reported. C44_exact says exactly which repetitions are accepted and with what value, C44_stored the same of a store."
 },
 "C47": {
  "status": "partial",
  "note": "False in the code (C47_negation, C47_hangs, C47_reachable: a typed token containing '%canonical_option%' makes what() loop for ever). C47_returns_partial: what() returns when no text contains a placeholder. Exactly: C47_value_iff (an offending value makes what() loop iff it contains '%value%'; C47_value_hangs: whatever the names), C47_name_hangs (every class with a displayed name), C47_unknown_iff (unknown options: iff the token has '%canonical_option%' or '%original_token%', for tokens without '%option%')."
 },
 "C48": {
  "status": "partial",
  "note": "False in the code in general (C48_negation: an option name containing '%prefix%' is displayed wrongly); C48_verbatim_partial gives the exact message of every exception class but ambiguous_option when names, tokens and lines contain no placeholder and the value does not contain '%value%'. C48_unknown_iff: exactly which tokens (without '%option%') of unknown options are quoted as typed."
 },
 "C59": {
  "status": "partial",
  "note": "False in the code (C59_negation: an occurrence without a value replaces everything accumulated by the implicit value); C59_accumulates_partial covers occurrences that carry a value. C59_exact says exactly what the option gets from any sequence of occurrences."
 },
 "C55": {
  "status": "partial",
  "note": "False in the code (C55_negation: minimum description length 1; C55_negation_nested: an added group with a smaller line length; both pass the constructor's check and fail an assertion in print); C55_print_partial and C55_default_sizes give simple conditions under which printing succeeds, and C55_printable_iff says exactly when it does."
 },
 "C21": {
  "status": "partial",
  "note": "False in the code (C21_negation, witness: 'foo,f' and 'foo,g' with '-fg' reads original_tokens[0] of an empty vector; C21_negation_empty: an option named ',foo' trips the assertion of the second pass); C21_no_ub_partial and C21_identified_partial give conditions under which every outcome is a result or a library exception. C21_undefined_iff says exactly when there is undefined behaviour, C21_tokens_partial that it takes an option without original tokens. C21_undefined_all_iff and C21_all_partial do so for all option sets, also those with empty reported names."
 },
 "C16": {
  "status": "partial",
  "note": "False in the code (C16_negation, C16_negation_adjacent: '--foo bar' is accepted without long_allow_next, '--foo=bar' without long_allow_adjacent; C16_placement_ignored: the four bits never influence parsing); C16_placement_partial: a style with neither is refused."
 },
 "C22": {
  "status": "partial",
  "note": "False in the code (C22_negation: '--foo 3' gives the implicit-value option the value '3'); C22_implicit_partial: an adjacent value is kept as is, and otherwise at most one token is taken, which on its own would be positional. C22_exact: exactly when the option takes the next token, and what it gets."
 },
 "C23": {
  "status": "partial",
  "note": "False in the code (C23_negation: '--=x' becomes the positional argument 'x'). C23_positional_exact and C23_token_iff say exactly which arguments are positional: of the tokens spelled like long options those of the form '--=v' and no others."
 },
 "C69": {
  "status": "partial",
  "note": "False in the code (C69_negation and C69_notify_negation, witness: wvalue<std::string>, whose validator stores a std::wstring); C69_type_partial and C69_notify_partial cover every other declaration. C69_exact and C69_notify_exact: exactly which values have another type and for which of them notify dereferences null; C69_iff: exactly which declarations."
 },
 "C72": {
  "status": "partial",
  "note": "False in the code (C72_negation, witness: '-é' with allow_unregistered is cut between the two octets of 'é', and decoding the second throws logic_error); C72_wide_partial covers command lines whose short options are ASCII, or where no declared option has a letter outside ASCII and unregistered options are refused. C72_iff says exactly which wide command lines fail: those where some value begins inside a character; otherwise the result is as C72 says."
 },
 "C75": {
  "status": "partial",
  "note": "False in the code (C75_negation, witness: with the options foo* and foobar the argument --foob=1 is foo* without guessing and ambiguous with it); C75_guessing_partial covers long names without a star or a leading dash or slash, when unregistered options are refused, without additional parser and without long options behind a single dash. C75_iff says exactly which accepted command lines guessing changes, also with families and with unregistered options allowed: those with an option reported under a name that is no declared name but the beginning of one."
 },
 "C89": {
  "status": "partial",
  "note": "False in the code: the terminator is not passed on, and a group of short options with an unknown one is passed on together with the known ones (C89_negation, C89_negation_group). C89_forwarded_partial, C89_recognised_partial: proved for command lines without terminator and without such groups. C89_iff, C89_recognised_iff, C89_forwarded_iff: it holds exactly if no group of short options has known and unknown ones in it and no argument behind the terminator looks like an option or terminator."
 },
 "C92": {
  "status": "partial",
  "note": "False in the code: the overload for streams takes a failure for the end of the file (C92_negation). Proved: the contents are read exactly line by line and option by option; the overload with a file name reports a failure; after the other one the stream is bad."
 },
 "C93": {
  "status": "partial",
  "note": "False in the code: copies share the stream (C93_negation) but not the current section (C93_negation_section). Proved: without sections the copies together hand out every option once, in order. C93_copies: exactly what any copies are handed out in any order of increments, with sections; C93_values: the values always come in order, each once; C93_alone: a single iterator gets the options of the file."
 },
 "C94": {
  "status": "partial",
  "note": "False in the code for an implicit value with empty text (C94_negation) and for zero_tokens with multitoken (C94_negation_zero). Proved for all other declarations whose value_name does not start with a bracket, for the long name and the short name. C94_iff, C94_short_iff: for value<T>(), exactly when it holds for the long and for the short name."
 },
 "C95": {
  "status": "partial",
  "note": "False in the code for lines that contain placeholders (C95_negation: what() loops forever). Proved exactly: for which lines and names of a file the message is made and for which it quotes them; only names that contain %option% are left out. For required options only names without percent signs."
 },
 "C97": {
  "status": "partial",
  "note": "False in the code for wildcard names with guessing or case-insensitive names (C97_negation, C97_store_refuses: --fo=1 is accepted for foo* and then unknown to the store). C97_command_line_partial covers options without wildcards, and all options when neither is on; C97_config_file covers configuration files completely. C97_iff: exactly which accepted command lines the store knows all options of."
 },
 "C99": {
  "status": "partial",
  "note": "False in the code (C99_negation, C99_accepted_later). C99_again_partial: a success is followed by an empty success, a failure that takes no token away by the same failure; C99_left says exactly what is left, C99_settles that repeated runs settle."
 },
 "C100": {
  "status": "partial",
  "note": "False in the code (C100_negation, C100_environment_alias, C100_positional_alias, C100_family_alias: a second name of an option used in the environment or in a positional description). C100_found_iff says exactly when it holds; C100_command_line_partial, C100_config_file_partial, C100_environment_partial give conditions for each source."
 },
 "C101": {
  "status": "partial",
  "note": "False in the code for names with upper-case letters (C101_negation, C101_unreachable). C101_reachable_partial covers all other names; C101_accepted_iff, C101_value and C101_stranger have no such condition."
 },
 "C102": {
  "status": "partial",
  "note": "False if both are the same object and it has options (C102_negation, C102_itself). C102_group_partial and C102_individually_partial cover all other cases."
 },
 "C103": {
  "status": "partial",
  "note": "False in the code (C103_negation). C103_command_line_partial and C103_store_partial: the name can then not be used; C103_silent: unused, nothing is reported."
 },
 "C115": {
  "status": "partial",
  "note": "False in the code (C115_negation). C115_partial: it holds for texts whose last unit completes a character; C115_iff and C115_failure: exactly what is converted."
 },
 "C124": {
  "status": "partial",
  "note": "False in the code (C124_not). C124_partial: it holds for the narrow functions where char is unsigned or no byte is between 0x80 and 0xfe; C124_lookup_exact: always for lookups that regard case; C124_winmain: always for split_winmain; C124_lookup_iff, C124_bool, C124_wide_bool, C124_prefix: exactly when not."
 },
 "C127": {
  "status": "partial",
  "note": "False in the code (C127_not). C127_partial: it holds for a tab on the first line before its last position; C127_release_iff, C127_debug_iff: exactly when it holds; C127_removed, C127_one_tab: the other two sentences hold always."
 },
 "C129": {
  "status": "partial",
  "note": "False in the code for the tokens behind a terminator (C129_not). C129_partial: without a terminator it holds; C129_parsed, C129_calls: exactly the tokens it is called on, always."
 },
 "C130": {
  "status": "partial",
  "note": "False in the code (C130_not). C130_partial: it holds if no declared option needs a value of its own; C130_iff: exactly when it holds; C130_reported: exactly what is reported, always; C130_token: a token after a beginning that can be read by itself is reported."
 },
 "C131": {
  "status": "partial",
  "note": "False in the code (C131_not). C131_partial: it holds if each notifier leaves the records up to its own name as they are; C131_iff: exactly when it holds; order, undefined behaviour and termination are proved in full (C131_order, C131_dangling_iff, C131_ends, C131_endless, C131_recursion)."
 },
 "C132": {
  "status": "partial",
  "note": "The part about texts is false in the code after a call that throws (C132_negation, witness: a second default value that cannot be printed); C132_texts_partial covers chains without exception, C132_stale says exactly what is left after one. The other parts are proved in full (C132_declares, C132_order, C132_throws)."
 },
 "C135": {
  "status": "partial",
  "note": "False in the code (C135_negation, witness: a template with %value% in other words than the default's and no value told). C135_left_partial says exactly which placeholders are left, defaults included, in templates whose words have at most one placeholder each; C135_library and C135_ambiguous which are left in the library's own messages."
 },
 "C138": {
  "status": "partial",
  "note": "False in the code (C138_negation: a linked map that is gone; C138_negation_circle: assignment copies the link and can close a circle). C138_returns_iff, C138_dangling_iff and C138_endless_iff say exactly when vm[name] returns, reads a destroyed map or never returns, C138_value what it returns; C138_programs_partial covers programs that link to and assign from older maps only and keep them all."
 },
 "C139": {
  "status": "partial",
  "note": "False in the code (C139_negation: erase does not touch m_final). C139_given_anew_iff says exactly which erased names are given anew and what the others hold, C139_settled_iff which names are settled after any program; C139_given_anew_partial covers the names no source settled since the last clear."
 },
 "C140": {
  "status": "partial",
  "note": "False in the code (C140_negation: a second what() invalidates the pointer of the first). C140_readable_iff says exactly which pointers still show their text after any program; C140_stay_partial covers exceptions that are not asked again meanwhile."
 },
 "C141": {
  "status": "partial",
  "note": "False in the code (C141_negation: a field width of the stream pads the first thing written). C141_written says exactly what any stream gets, C141_same_iff when this is the text of the help; C141_same_partial covers streams without a field width."
 },
 "C142": {
  "status": "partial",
  "note": "Two parts are false in the code (C142_negation: too many values from a style parser are accepted; C142_ub_negation: an assertion about its positional arguments fails). C142_counts says exactly which options may have too many values, C142_undefined_iff exactly when there is undefined behaviour; C142_counts_partial and C142_no_ub_partial cover style parsers that return none of these. C142_grammar and C142_refusal give all outcomes exactly. The other parts are proved."
 },
 "C143": {
  "status": "partial",
  "note": "One part is false in the code (C143_negation: a count below -1 takes earlier names away). C143_kept_iff says exactly when a position keeps its name, C143_kept_partial covers calls with counts of -1 or more. The other parts are proved for all counts."
 },
 "C146": {
  "status": "partial",
  "note": "False in the code (C146_negation, C146_ends): what() writes the text that other threads read. C146_iff says exactly when it holds, C146_apart_partial covers calls that do not overlap, C146_alone a thread alone."
 },
 "C147": {
  "status": "partial",
  "note": "Comparing is false in the code (C147_negation): iterators at the same variable are not equal. C147_equal_iff says exactly when two are, C147_equal_partial covers the comparison with the end; the rest holds (C147_places)."
 },
 "C149": {
  "status": "partial",
  "note": "False in the code for groups of short options in capitals (C149_negation). C149_case_partial and C149_names_partial need tokens with one dash to agree or to have two characters and not to be ambiguous; C149_without_dashes is the whole claim for styles without such tokens."
 },
 "C150": {
  "status": "partial",
  "note": "False in the code if a value looks like a group with an ambiguous letter (C150_negation). C150_sticky_partial holds if no letter of the command line is ambiguous; it also leaves out long names that begin with a dash or are a mere asterisk, and long_case_insensitive without short_case_insensitive (C04)."
 }
}