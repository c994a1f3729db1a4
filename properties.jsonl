{"id": "C01", "title": "Option lookup decision: exact beats approximate, ambiguity is reported, nothing else", "statement": "Looking a name up in a set of declared options returns: the option itself when exactly one declared option has that name exactly (however many others match only as an abbreviation or wildcard); an 'ambiguous option' error listing exactly the keys of the candidates when two or more match exactly, or none exactly and two or more approximately; the only approximate candidate when there is one; and 'not found' when nothing matches.", "quantifier": "every list of declared options, every looked-up name, every combination of the abbreviation and case flags", "why_tests_cant": "The outcome depends on the interaction of all declared names with the query; tests try a handful of option sets.", "anchors": ["src/options_description.cpp:options_description::find_nothrow", "src/options_description.cpp:option_description::match"]}
{"id": "C02", "title": "Option lookup does not depend on declaration order", "statement": "Reordering the declared options never changes which option a name resolves to, whether the lookup is ambiguous, or whether it fails; only the order of the listed alternatives may change.", "quantifier": "all permutations of all option lists and all names", "why_tests_cant": "A test fixes one order per option set; order bugs need particular permutations.", "anchors": ["src/options_description.cpp:options_description::find_nothrow"]}
{"id": "C03", "title": "Case-insensitive matching ignores case", "statement": "When case-insensitive matching is requested (for long names and short names alike) two spellings of a name that differ only in ASCII letter case match exactly the same options, with the same strength.", "quantifier": "all options, all pairs of names equal up to letter case, both abbreviation settings", "why_tests_cant": "Universally quantified over pairs of strings.", "anchors": ["src/options_description.cpp:option_description::match", "src/options_description.cpp:tolower_"]}
{"id": "C04", "title": "Requesting case-insensitivity for short names never loses a match", "statement": "Turning on case-insensitive matching of short names never makes an option unreachable that was reachable with the same spelling in case-sensitive mode.", "quantifier": "all options and all spellings", "why_tests_cant": "Needs a relation between two runs with different flags over all names.", "anchors": ["src/options_description.cpp:option_description::match", "src/cmdline.cpp:cmdline::parse_short_option"]}
{"id": "C05", "title": "A name specification declares exactly the names written in it", "statement": "Declaring an option with the text n1,n2,...,nk,c (k>=1 comma-free names, c one character other than comma) makes it known under exactly the long names n1..nk and the short name -c; without a trailing one-character name it has no short name; ',c' declares only the short name.", "quantifier": "all lists of comma-free names and all characters", "why_tests_cant": "Round-trip over arbitrary name lists; tests use two or three literals.", "anchors": ["src/options_description.cpp:option_description::set_names"]}
{"id": "C06", "title": "Every spelling of an option is reported under one canonical name", "statement": "On a successful command-line parse, every option that came from option syntax and is not flagged unregistered carries as its key the first declared long name of some declared option (or its short name if it has no long name), unless that first name is a wildcard, in which case the key is the name as spelled.", "quantifier": "all command lines, option sets, styles", "why_tests_cant": "Relates arbitrary spellings (abbreviated, case-changed, short, alias) over all inputs.", "anchors": ["src/options_description.cpp:option_description::key", "src/cmdline.cpp:cmdline::finish_option"]}
{"id": "C07", "title": "Positional names follow the declared run lengths", "statement": "After add(n1,c1), add(n2,c2), ... the k-th positional argument is named n1 for the first c1 positions, n2 for the next c2, and so on; with a final add(n,-1) every later position is named n and the count is unlimited; otherwise the maximum is c1+c2+....", "quantifier": "all sequences of add calls and all positions", "why_tests_cant": "Arbitrary sequences and positions.", "anchors": ["src/positional_options.cpp:positional_options_description::add", "src/positional_options.cpp:positional_options_description::name_for_position", "src/positional_options.cpp:positional_options_description::max_total_count"]}
{"id": "C08", "title": "Positional arguments are numbered and named in order, and surplus ones are rejected", "statement": "In a successful parse the arguments that came without an option name carry the positions 0,1,2,... in command-line order; when a positional description is given, the i-th one carries the name declared for position i, and the parse fails with 'too many positional options' exactly when there are more of them than the description allows.", "quantifier": "all command lines and positional descriptions", "why_tests_cant": "Depends on the number and interleaving of arguments, unbounded.", "anchors": ["src/cmdline.cpp:cmdline::run"]}
{"id": "C09", "title": "Style validation accepts exactly the coherent styles", "statement": "A style value is accepted iff: long (or disguised long) options imply that some way of giving them a value is enabled; short options imply that some way of giving them a value is enabled; short options imply that dash or slash is enabled. Style 0 means the default style, which is accepted.", "quantifier": "all style bit sets", "why_tests_cant": "2^13 flag combinations, tests try three.", "anchors": ["src/cmdline.cpp:cmdline::check_style", "src/cmdline.cpp:cmdline::style"]}
{"id": "C10", "title": "Command-line parsing always terminates", "statement": "Parsing finishes after at most as many rounds as there are tokens, for every command line, option set and style, with any additional (token) parser, as long as a user-supplied style parser never lengthens the token list.", "quantifier": "all command lines and configurations", "why_tests_cant": "Termination is a liveness statement over all inputs.", "anchors": ["src/cmdline.cpp:cmdline::run"]}
{"id": "C11", "title": "No command-line token is lost, duplicated or reordered", "statement": "On a successful parse (no additional parser, no style parser, no disguised long options) the recorded original tokens of the resulting options, concatenated in order, are exactly the input tokens, except that one '--' terminator may be missing, and then everything after it was recorded as positional.", "quantifier": "all command lines, all option sets, all such styles", "why_tests_cant": "An invariant over all token sequences, including groups, multi-token options and terminators.", "anchors": ["src/cmdline.cpp:cmdline::run", "src/cmdline.cpp:cmdline::finish_option", "src/cmdline.cpp:cmdline::parse_short_option"]}
{"id": "C12", "title": "The '--' terminator protects everything after it", "statement": "If a command line without '--' parses, then appending '--' and any further tokens parses to the same options followed by one positional argument per further token, in order and verbatim: none of them is interpreted as an option or swallowed by a multi-token option.", "quantifier": "all prefixes, all suffixes, all option sets and styles", "why_tests_cant": "Quantifies over arbitrary suffixes, including ones that look like options.", "anchors": ["src/cmdline.cpp:cmdline::parse_terminator", "src/cmdline.cpp:cmdline::run"]}
{"id": "C13", "title": "Adjacent and separate long-option values mean the same", "statement": "For a declared option that takes exactly one token, '--name=value' and '--name value' give the same key and value (value non-empty, name without '=', and value not itself spelled like a declared short option).", "quantifier": "all option sets, names, values, and all remaining command lines", "why_tests_cant": "Equivalence of two parses for all contexts.", "anchors": ["src/cmdline.cpp:cmdline::parse_long_option", "src/cmdline.cpp:cmdline::finish_option"]}
{"id": "C14", "title": "Adjacent and separate short-option values mean the same", "statement": "For a declared option that takes exactly one token, '-cvalue' and '-c value' give the same key and value (value non-empty and not itself spelled like a declared short option).", "quantifier": "all option sets, values, remaining command lines", "why_tests_cant": "Equivalence of two parses for all contexts.", "anchors": ["src/cmdline.cpp:cmdline::parse_short_option", "src/cmdline.cpp:cmdline::finish_option"]}
{"id": "C15", "title": "Grouped short switches equal separate ones", "statement": "With sticky short options enabled, '-abc...z' where all but the last letter name declared switches that take no value parses to the same sequence of (key, value) pairs as '-a' '-b' ... '-z'.", "quantifier": "all groups of any length, all option sets, all remaining command lines", "why_tests_cant": "Unbounded group length.", "anchors": ["src/cmdline.cpp:cmdline::parse_short_option"]}
{"id": "C16", "title": "The value-placement style bits are honoured", "statement": "A value given in the next token is rejected when the style does not enable next-token values for that kind of option, and an adjacent value is rejected when the style does not enable adjacent values.", "quantifier": "all command lines and styles", "why_tests_cant": "Relates style bits and results over all inputs; a test can only sample command lines.", "anchors": ["src/cmdline.cpp:cmdline::parse_long_option", "src/cmdline.cpp:cmdline::parse_short_option", "src/cmdline.cpp:cmdline::finish_option"]}
{"id": "C17", "title": "Unknown options are rejected unless unregistered options are allowed", "statement": "If parsing succeeds without allow_unregistered, no resulting option is flagged unregistered and every named (non-positional) one resolves to a declared option; with allow_unregistered, parsing never fails with 'unknown option', and an option is flagged unregistered only if its name resolves to no declared option.", "quantifier": "all command lines, option sets, styles", "why_tests_cant": "Soundness of success for all inputs.", "anchors": ["src/cmdline.cpp:cmdline::finish_option"]}
{"id": "C18", "title": "Every parsed option has an admissible number of value tokens", "statement": "On success every registered option that came from option syntax has at least its minimum number of value tokens and at most its maximum, provided canonical names of declared options identify them uniquely.", "quantifier": "all command lines, option sets (with arbitrary min<=max token counts), styles", "why_tests_cant": "Interaction of the two consumption passes on arbitrary inputs.", "anchors": ["src/cmdline.cpp:cmdline::finish_option", "src/cmdline.cpp:cmdline::run"]}
{"id": "C19", "title": "collect_unrecognized forwards a subsequence of the command line", "statement": "The tokens returned by collect_unrecognized after a parse with allow_unregistered form, in order, a subsequence of the original command line; with include_positional every input token is either returned or recorded as an original token of a recognised named option (or is the terminator).", "quantifier": "all command lines and option sets", "why_tests_cant": "Needs token conservation over arbitrary inputs.", "anchors": ["include/boost/program_options/detail/parsers.hpp:collect_unrecognized", "src/cmdline.cpp:cmdline::run"]}
{"id": "C20", "title": "Parsing depends only on names and token counts", "statement": "The result of parsing a command line depends only on the declared names and on the minimum and maximum token counts; defaults, implicit value contents, required/composing flags, notifiers, descriptions and value types have no influence.", "quantifier": "all pairs of option sets agreeing on names and token counts, all command lines", "why_tests_cant": "A noninterference statement over pairs of configurations.", "anchors": ["src/cmdline.cpp:cmdline::run", "include/boost/program_options/options_description.hpp:options_description"]}
{"id": "C21", "title": "Command-line parsing has no undefined behaviour or failed assertion", "statement": "For every command line, accepted style and option set, parsing either returns options or throws a documented exception; it never indexes an empty token vector nor trips an internal assertion.", "quantifier": "all command lines, option sets, accepted styles, any additional parser", "why_tests_cant": "Absence of UB over all inputs.", "anchors": ["src/cmdline.cpp:cmdline::run", "src/cmdline.cpp:cmdline::finish_option"]}
{"id": "C22", "title": "An implicit-value option only takes an adjacent value", "statement": "For an option with an implicit value, an explicit value must be strictly adjacent; a following separate token is never taken as its value.", "quantifier": "all command lines with an implicit-value option", "why_tests_cant": "The claim ranges over all following tokens.", "anchors": ["include/boost/program_options/value_semantic.hpp:typed_value::implicit_value", "src/cmdline.cpp:cmdline::run"]}
{"id": "C23", "title": "A token starting with '--' is never silently a positional argument", "statement": "Under a style with long options, a token of three or more characters starting with '--' and occurring before any terminator is either parsed as an option, taken as an option's value, or rejected.", "quantifier": "all command lines", "why_tests_cant": "All tokens.", "anchors": ["src/cmdline.cpp:cmdline::parse_long_option", "src/cmdline.cpp:cmdline::finish_option"]}
{"id": "C24", "title": "Config-file comments, blank lines, indentation and CR characters are irrelevant", "statement": "Parsing a configuration file gives the same result after appending '#...' comments to lines, inserting blank or comment-only lines, adding blanks or tabs around lines, or switching between LF and CRLF line ends.", "quantifier": "all configuration files and all such edits", "why_tests_cant": "Edits of arbitrary files.", "anchors": ["src/config_file.cpp:common_config_file_iterator::get", "src/config_file.cpp:trim_ws"]}
{"id": "C25", "title": "Config-file round trip", "statement": "Writing a list of sections, each with name=value lines, and reading it back yields exactly the options section.name -> value in the same order, for names and values that are representable (trimmed, no newline or '#', no '=' in names, not bracketed).", "quantifier": "all lists of sections and pairs", "why_tests_cant": "Round trip over arbitrary contents.", "anchors": ["src/config_file.cpp:common_config_file_iterator::get"]}
{"id": "C26", "title": "A section header fully determines the prefix of the following names", "statement": "After a header [s] (s non-empty) each following name is prefixed with s and exactly one separating dot (none is added if s already ends with a dot), independently of any earlier headers; before the first header there is no prefix.", "quantifier": "all histories of lines", "why_tests_cant": "History independence over arbitrary files.", "anchors": ["src/config_file.cpp:common_config_file_iterator::get"]}
{"id": "C27", "title": "Config-file reading has no undefined behaviour", "statement": "Reading any text as a configuration file either yields options or throws a documented exception.", "quantifier": "all texts", "why_tests_cant": "Absence of UB over all inputs.", "anchors": ["src/config_file.cpp:common_config_file_iterator::get"]}
{"id": "C28", "title": "Config-file name acceptance is exactly the declared names and wildcard families", "statement": "Without allow_unregistered a name is accepted iff it is a declared first long name without wildcard, or it properly extends the stem of a declared wildcard name stem*; otherwise an 'unknown option' error is raised at the first offending line.", "quantifier": "all sets of declared names and all file names", "why_tests_cant": "The check uses a neighbour search in an ordered set; correctness is an invariant of all insert sequences.", "anchors": ["src/config_file.cpp:common_config_file_iterator::allowed_option", "src/config_file.cpp:common_config_file_iterator::add_option"]}
{"id": "C29", "title": "Overlapping wildcard families are rejected up front", "statement": "Creating a configuration-file reader fails iff the stem of one declared wildcard is a prefix of the stem of another one, whatever the other declared names and their order.", "quantifier": "all sets of declared names", "why_tests_cant": "Completeness of a neighbour-only check over all sets.", "anchors": ["src/config_file.cpp:common_config_file_iterator::add_option"]}
{"id": "C30", "title": "The overlap error names two overlapping wildcards", "statement": "When a reader is rejected because of overlapping wildcards, the two names in the error message really overlap.", "quantifier": "all sets of declared names", "why_tests_cant": "All sets.", "anchors": ["src/config_file.cpp:common_config_file_iterator::add_option"]}
{"id": "C31", "title": "Every declared long name is accepted in a configuration file", "statement": "Each long name under which an option can be given on the command line, aliases included, is accepted in a configuration file.", "quantifier": "all option sets", "why_tests_cant": "All option sets.", "anchors": ["src/parsers.cpp:parse_config_file", "src/config_file.cpp:common_config_file_iterator::allowed_option"]}
{"id": "C32", "title": "Environment parsing selects exactly the prefixed variables and keeps values verbatim", "statement": "With a prefix, the result lists, in environment order, exactly the variables whose name starts with the prefix and is longer than it, named by the lower-cased rest of the name, with the value being everything after the first '=' unchanged.", "quantifier": "all environments and prefixes", "why_tests_cant": "All environments.", "anchors": ["src/parsers.cpp:parse_environment", "src/parsers.cpp:detail::prefix_name_mapper::operator()", "include/boost/program_options/environment_iterator.hpp:environment_iterator::get"]}
{"id": "C33", "title": "First source wins for non-composing options", "statement": "Once a store call that succeeded has given a non-composing option an explicit value, no later store call changes that value, whatever it contains.", "quantifier": "all histories of store calls with arbitrary parsed options and descriptions", "why_tests_cant": "Invariant over unbounded histories.", "anchors": ["src/variables_map.cpp:store"]}
{"id": "C34", "title": "Composing vector options accumulate in order across sources", "statement": "After a sequence of successful stores the value of a composing vector option without an implicit value is the concatenation, in order, of the values converted from each occurrence in each source.", "quantifier": "all histories of stores", "why_tests_cant": "Unbounded histories.", "anchors": ["src/variables_map.cpp:store", "include/boost/program_options/detail/value_semantic.hpp:validate"]}
{"id": "C35", "title": "Defaults fill exactly the gaps and give way to explicit values", "statement": "After a successful store every declared option with a default has an entry; the entry is flagged defaulted and equals the default iff no successful store gave it explicitly; a later explicit value replaces a default.", "quantifier": "all histories of stores", "why_tests_cant": "Unbounded histories.", "anchors": ["src/variables_map.cpp:store"]}
{"id": "C36", "title": "A store touches only the options it is about", "statement": "A store never changes or creates the entry of a name that is neither among the given options nor a declared option with a default; unregistered and unnamed options are ignored.", "quantifier": "all maps, all parsed options, all descriptions", "why_tests_cant": "Frame condition over all states.", "anchors": ["src/variables_map.cpp:store"]}
{"id": "C37", "title": "A failed store leaves the map unchanged", "statement": "If store throws, the variables map is as it was before the call.", "quantifier": "all maps, all parsed options", "why_tests_cant": "Strong exception guarantee over all states and failure points.", "anchors": ["src/variables_map.cpp:store"]}
{"id": "C38", "title": "Required options are enforced before any notification", "statement": "notify throws 'required option' iff some option declared required by a description that was stored has no value, and in that case no notifier has run and no bound variable was written; the error names the option in its most specific displayed form.", "quantifier": "all histories of stores followed by notify", "why_tests_cant": "Unbounded histories.", "anchors": ["src/variables_map.cpp:variables_map::notify", "src/variables_map.cpp:store"]}
{"id": "C39", "title": "notify delivers each final value exactly once in name order", "statement": "A successful notify writes, for each stored option in increasing name order, the final value to its bound variable and then passes the same value to its notifier, and does nothing else.", "quantifier": "all maps", "why_tests_cant": "All maps.", "anchors": ["src/variables_map.cpp:variables_map::notify", "include/boost/program_options/detail/value_semantic.hpp:typed_value::notify"]}
{"id": "C40", "title": "Chained maps: explicit values win over defaults along the chain", "statement": "Looking a name up in a chain of maps gives the first explicit (non-default) value in chain order if there is one, else the first default, else an empty value.", "quantifier": "all chains of maps of any length, all names", "why_tests_cant": "Unbounded chains.", "anchors": ["src/variables_map.cpp:abstract_variables_map::operator[]"]}
{"id": "C41", "title": "clear forgets everything", "statement": "After clear, every later sequence of stores, lookups and notifies behaves as on a fresh map (with the same chain successor).", "quantifier": "all histories before and after clear", "why_tests_cant": "History independence.", "anchors": ["src/variables_map.cpp:variables_map::clear"]}
{"id": "C42", "title": "Boolean values: exactly eight words (and the empty string), any letter case", "statement": "A single value token is accepted for a bool option iff, ignoring ASCII case, it is empty or one of on/yes/1/true (giving true) or off/no/0/false (giving false); anything else is an 'invalid bool value' error. The same holds for options of wide characters.", "quantifier": "all strings", "why_tests_cant": "All strings.", "anchors": ["src/value_semantic.cpp:validate(any&, vector<string>, bool*, int)"]}
{"id": "C43", "title": "A scalar option may be given once per source", "statement": "Storing a source in which a non-vector option (without implicit value) occurs twice fails with 'multiple occurrences', wherever the occurrences are and whatever else the source contains, unless an earlier error is reported or the option is already final.", "quantifier": "all sources", "why_tests_cant": "All sources.", "anchors": ["src/value_semantic.cpp:validators::check_first_occurrence", "src/variables_map.cpp:store"]}
{"id": "C44", "title": "Repeating an option with an implicit value is reported like any other repetition", "statement": "An option with an implicit value that occurs twice in a source is rejected with 'multiple occurrences'.", "quantifier": "all sources with two occurrences", "why_tests_cant": "All sources.", "anchors": ["include/boost/program_options/detail/value_semantic.hpp:typed_value::xparse"]}
{"id": "C45", "title": "Token counts are consistent for every option declared through value()", "statement": "Whatever sequence of modifiers is applied to value<T>() or bool_switch(), the minimum token count is at most the maximum, and the pair is (0,0), (1,1), (0,1), (1,unlimited) or (0,unlimited).", "quantifier": "all sequences of modifier calls", "why_tests_cant": "All modifier sequences.", "anchors": ["include/boost/program_options/value_semantic.hpp:typed_value::min_tokens", "include/boost/program_options/value_semantic.hpp:typed_value::max_tokens"]}
{"id": "C46", "title": "A bool switch is false when absent and true when present", "statement": "After parsing any command line and storing it, a bool_switch option is true iff it was present on the command line, otherwise false (and flagged defaulted); giving it a value is an error.", "quantifier": "all command lines", "why_tests_cant": "All command lines, end to end through parse and store.", "anchors": ["src/value_semantic.cpp:bool_switch", "src/cmdline.cpp:cmdline::finish_option", "src/variables_map.cpp:store"]}
{"id": "C47", "title": "Producing an error message always terminates", "statement": "Calling what() on any exception of the library returns, whatever option names and values the user typed.", "quantifier": "all messages, option names and values", "why_tests_cant": "Termination over all strings.", "anchors": ["src/value_semantic.cpp:error_with_option_name::replace_token", "src/value_semantic.cpp:error_with_option_name::substitute_placeholders"]}
{"id": "C48", "title": "Error messages quote the offending text verbatim", "statement": "The message of an 'invalid value' error contains the offending value exactly as typed and the displayed option name, and no placeholder remains.", "quantifier": "all option names and values", "why_tests_cant": "All strings.", "anchors": ["src/value_semantic.cpp:error_with_option_name::substitute_placeholders"]}
{"id": "C49", "title": "An ambiguity message lists each distinct alternative once, in order", "statement": "The message of an ambiguous-option error names every distinct alternative exactly once in sorted order.", "quantifier": "all alternative lists", "why_tests_cant": "All lists.", "anchors": ["src/value_semantic.cpp:ambiguous_option::substitute_placeholders"]}
{"id": "C50", "title": "Quoting then splitting a Unix-style command line is the identity", "statement": "For any list of non-empty arguments, escaping every separator, quote and escape character, joining with a separator and calling split_unix returns the list.", "quantifier": "all lists of non-empty strings", "why_tests_cant": "Round trip over all strings.", "anchors": ["src/split.cpp:split_unix"]}
{"id": "C51", "title": "Quoting then splitting a Windows command line is the identity", "statement": "For any list of arguments, quoting each by the documented Windows rules (double backslashes before a quote or at the end, escape quotes), joining with spaces and calling split_winmain returns the list.", "quantifier": "all lists of strings, empty ones included", "why_tests_cant": "Round trip over all strings.", "anchors": ["src/winmain.cpp:split_winmain"]}
{"id": "C52", "title": "Help shows every declared option exactly once", "statement": "The printed help consists of the caption, then one entry per option added directly in order of declaration, then each added group in order; each declared option occurs in exactly one place.", "quantifier": "all trees of option groups", "why_tests_cant": "All trees.", "anchors": ["src/options_description.cpp:options_description::print", "src/options_description.cpp:options_description::add"]}
{"id": "C53", "title": "Description text is wrapped without loss", "statement": "Wrapping a paragraph for help output changes nothing but line breaks, indentation and the tab marker: removing the inserted breaks and indentation gives back the text, up to the single blank dropped at a break.", "quantifier": "all paragraphs, widths and indents", "why_tests_cant": "All texts and widths.", "anchors": ["src/options_description.cpp:format_paragraph"]}
{"id": "C54", "title": "Wrapped lines fit", "statement": "No line of a wrapped paragraph is longer than the line length.", "quantifier": "all paragraphs, widths and indents meeting the documented precondition", "why_tests_cant": "All texts and widths.", "anchors": ["src/options_description.cpp:format_paragraph"]}
{"id": "C55", "title": "Printing help has no failed assertion", "statement": "Printing any option group tree whose groups satisfy the constructor precondition (minimum description length less than line length minus one) never violates an internal precondition.", "quantifier": "all group trees", "why_tests_cant": "All trees and widths.", "anchors": ["src/options_description.cpp:options_description::print", "src/options_description.cpp:format_description", "src/options_description.cpp:options_description::get_option_column_width"]}
{"id": "C56", "title": "Character-set conversion is independent of the internal buffer", "statement": "Converting a string in 32-unit chunks gives the same result as converting it character by character: all characters are converted in order, and the conversion fails iff some character is not convertible or the input ends in the middle of a character. The library's conversions to and from UTF-8 never write more than the buffer holds.", "quantifier": "all strings and all per-character codecs", "why_tests_cant": "All strings and lengths, in particular ones straddling the buffer boundary.", "anchors": ["src/convert.cpp:detail::convert"]}
{"id": "C57", "title": "Wide strings survive the UTF-8 round trip", "statement": "from_utf8(to_utf8(w)) = w for every wide string the encoder accepts.", "quantifier": "all wide strings", "why_tests_cant": "All strings.", "anchors": ["src/convert.cpp:to_utf8", "src/convert.cpp:from_utf8"]}
{"id": "C58", "title": "Command line beats config file beats default, end to end", "statement": "Parsing and storing a command line and then a configuration file gives a scalar option the command-line value if the command line mentions it, else the file's value if the file mentions it, else the default.", "quantifier": "all command lines, files and option sets", "why_tests_cant": "Composition of parser and store over all inputs.", "anchors": ["src/variables_map.cpp:store", "src/cmdline.cpp:cmdline::run", "src/parsers.cpp:parse_config_file"]}
{"id": "C59", "title": "Composing vector options with an implicit value never lose earlier elements", "statement": "A composing vector option that has an implicit value also accumulates: storing another source only appends elements to the ones already stored, also when an occurrence carries no value.", "quantifier": "all maps, sources and composing vector options", "why_tests_cant": "Needs the interaction of an implicit value with two sources or two occurrences over all inputs.", "anchors": ["include/boost/program_options/detail/value_semantic.hpp:typed_value::xparse", "src/variables_map.cpp:store"]}
{"id": "C60", "title": "Wrapping chops only long words", "statement": "A line of a wrapped paragraph ends next to a blank, or it is full and its second half contains no blank.", "quantifier": "all paragraphs, widths and indents", "why_tests_cant": "All texts and widths.", "anchors": ["src/options_description.cpp:format_paragraph"]}
{"id": "C61", "title": "The parser accepts exactly the documented grammar", "statement": "A command line parses to a result iff a left-to-right reading derives it: each token is an option spelling enabled by the style, the terminator, or a positional argument; an option takes as many following tokens as its minimum requires, each of which must not be a declared option; options with room take the positional arguments that follow; positional arguments are numbered and named. The grammar reads each token in only one way and yields at most one result.", "quantifier": "all command lines, option sets, styles, additional parsers and positional descriptions, without a user style parser", "why_tests_cant": "An exact characterisation of success and of the result over all inputs.", "anchors": ["src/cmdline.cpp:cmdline::run", "src/cmdline.cpp:cmdline::finish_option", "src/cmdline.cpp:cmdline::parse_long_option", "src/cmdline.cpp:cmdline::parse_short_option", "src/cmdline.cpp:cmdline::parse_dos_option", "src/cmdline.cpp:cmdline::parse_disguised_long_option"]}
{"id": "C62", "title": "Options take as many values as they can", "statement": "On a command line without the terminator, an option that may take a variable number of values and is directly followed by a positional argument in the result has all the values it may have. After a multitoken option no positional argument is left.", "quantifier": "all command lines and option sets", "why_tests_cant": "Maximality over all inputs.", "anchors": ["src/cmdline.cpp:cmdline::run"]}
{"id": "C63", "title": "Which command lines are refused, and with which exception", "statement": "A command line is refused iff the grammar does not derive it, and then with one definite exception: its class, the option and token it names and the displayed prefix are those of the first token at fault from left to right (malformed token, unknown or ambiguous option, missing or extra value, option in place of a value), or of the first ambiguous reported name after reading, or too many positional arguments. The only undefined behaviour is an ambiguous reported name of an option without original tokens.", "quantifier": "all command lines, option sets, styles, additional parsers and positional descriptions, without a user style parser", "why_tests_cant": "An exact characterisation of every failure over all inputs.", "anchors": ["src/cmdline.cpp:cmdline::run", "src/cmdline.cpp:cmdline::finish_option", "src/cmdline.cpp:cmdline::parse_short_option", "src/cmdline.cpp:cmdline::parse_disguised_long_option", "src/value_semantic.cpp:error_with_option_name"]}
{"id": "C64", "title": "Which configuration files are read, and how the others are refused", "statement": "A configuration file is read iff every declared option has a long name, declared wildcards do not overlap, and each line - comment and surrounding white space removed - is blank, a non-empty header, or a name, the first equals sign and a value whose section-prefixed name is declared or unregistered names are allowed; the options are those of the lines in order, with names and values stripped of white space. Otherwise it is refused with one definite exception: an option without long name, the first overlapping wildcard with its neighbour, or the first line at fault; a header without name is the only undefined behaviour.", "quantifier": "all texts, option sets and both settings of allow_unregistered", "why_tests_cant": "An exact characterisation of success, result and failure over all texts.", "anchors": ["src/config_file.cpp:common_config_file_iterator::get", "src/config_file.cpp:common_config_file_iterator::add_option", "src/config_file.cpp:common_config_file_iterator::allowed_option", "src/parsers.cpp:parse_config_file"]}
{"id": "C65", "title": "What a store does, name by name", "statement": "A store succeeds iff every name with occurrences that is not final yet stands for exactly one declared option (by exact name, or else by wildcard family) whose value semantic accepts all its occurrences in order, starting from the explicit value the name has so far. Then each such name has the value so obtained and is final unless its option is composing; any other name keeps its value or gets the first declared default. Otherwise the exception is that of the first option that cannot be stored, with its name and first token added, and the map holds exactly what was stored before it.", "quantifier": "all parsed options, maps and value semantics", "why_tests_cant": "An exact characterisation of success, result, exception and state after failure over all inputs.", "anchors": ["src/variables_map.cpp:store"]}
{"id": "C66", "title": "Order of different options does not matter to a store", "statement": "Two sources with the same declared options whose occurrences of each name, in order, are the same have the same effect when stored: both succeed with the same map or both fail.", "quantifier": "all sources and maps", "why_tests_cant": "All interleavings of options.", "anchors": ["src/variables_map.cpp:store"]}
{"id": "C67", "title": "Sources that share no name may be stored in either order", "statement": "If two sources were read with the same option descriptions and no name has occurrences in both, storing one after the other succeeds in one order iff in the other, with the same values and final names; the maps are identical if the sources display names alike.", "quantifier": "all pairs of sources and all maps", "why_tests_cant": "All pairs of sources.", "anchors": ["src/variables_map.cpp:store"]}
{"id": "C68", "title": "Storing a source twice is storing it once", "statement": "If no composing option has an occurrence in a source, then storing it again after a successful store succeeds and changes nothing.", "quantifier": "all sources and maps", "why_tests_cant": "Idempotence for all inputs.", "anchors": ["src/variables_map.cpp:store"]}
{"id": "C69", "title": "Stored values have the declared type", "statement": "After any sequence of stores, successful or not, the value of a name that is declared with type T in every source is empty or holds a T, so that as<T>() does not throw; and notify never dereferences a null pointer.", "quantifier": "all sequences of sources, all declarations by value<T>, wvalue<T> or without type", "why_tests_cant": "All histories of stores, including failed ones, and all types.", "anchors": ["include/boost/program_options/variables_map.hpp:variable_value::as", "src/value_semantic.cpp:validate", "include/boost/program_options/detail/value_semantic.hpp:typed_value::notify", "src/variables_map.cpp:variables_map::notify"]}
{"id": "C70", "title": "An option that is not mentioned does not matter", "statement": "Declaring one more option, anywhere among the others, changes neither the result nor the exception of parsing a command line whose tokens bring up no name that the new option has, or nearly has where nothing else has it exactly; and a store of a source that does not give the option is unchanged if the option has no default and is not required.", "quantifier": "all option sets, positions of the new option, command lines, styles and additional parsers", "why_tests_cant": "All pairs of option sets and all command lines; regressions by adding an option are found in tests only for the sampled names.", "anchors": ["src/cmdline.cpp:cmdline::run", "src/options_description.cpp:options_description::find_nothrow", "src/variables_map.cpp:store"]}
{"id": "C71", "title": "Values are text of the command line", "statement": "Every value of a parsed option is a token of the command line, the part of a token after the equal sign of a long option, the part of a token after the letters of short options, or what an additional parser made of a token; every original token is a token, or one with the dashes of a disguised long option completed.", "quantifier": "all command lines, option sets, styles, additional parsers and positional descriptions, without a user style parser", "why_tests_cant": "All inputs; that no part of a value is lost, merged or invented.", "anchors": ["src/cmdline.cpp:cmdline::run", "src/cmdline.cpp:cmdline::finish_option", "src/cmdline.cpp:cmdline::parse_long_option", "src/cmdline.cpp:cmdline::parse_short_option"]}
{"id": "C72", "title": "A wide command line is read as its UTF-8 text", "statement": "Parsing a wide command line with a UTF-8 conversion never fails in the conversion: it gives the exceptions that parsing its UTF-8 text gives, or the same options with every value and original token decoded, and each wide value is text of the wide command line.", "quantifier": "all wide command lines, option sets and styles", "why_tests_cant": "All wide texts and all ways of cutting them.", "anchors": ["src/parsers.cpp:basic_parsed_options<wchar_t>", "include/boost/program_options/detail/parsers.hpp:basic_command_line_parser", "src/parsers.cpp:woption_from_option"]}
{"id": "C73", "title": "A wide configuration file is read as its UTF-8 text", "statement": "Reading a wide configuration file with a UTF-8 conversion never fails in the conversion: it gives the exceptions that reading its UTF-8 text gives, or the same options with every value and original token decoded.", "quantifier": "all wide texts, option sets and both settings of allow_unregistered", "why_tests_cant": "All wide texts and all ways of cutting them.", "anchors": ["include/boost/program_options/detail/config_file.hpp:basic_config_file_iterator<wchar_t>::getline", "src/parsers.cpp:parse_config_file", "src/config_file.cpp:common_config_file_iterator::get"]}
{"id": "C74", "title": "Refusing unregistered options, in terms of allowing them", "statement": "Whether unregistered options are allowed matters only for them: the command line gives, when they are refused, what it gives when they are allowed if nothing in that result is marked unregistered; unknown_option if something is; and if it fails when they are allowed, then the same exception or unknown_option.", "quantifier": "all command lines, option sets, styles, additional parsers and positional descriptions, without a user style parser", "why_tests_cant": "A relation between two runs of the parser on every input.", "anchors": ["src/cmdline.cpp:cmdline::allow_unregistered", "src/cmdline.cpp:cmdline::finish_option", "src/cmdline.cpp:cmdline::parse_short_option"]}
{"id": "C75", "title": "Guessing only adds", "statement": "Turning allow_guessing on changes no result: a command line that is accepted without guessing gives the same options with guessing.", "quantifier": "all command lines, option sets and styles", "why_tests_cant": "A relation between two runs of the parser on every input; tests of guessing only try names that are not accepted without it.", "anchors": ["src/options_description.cpp:option_description::match", "src/options_description.cpp:options_description::find_nothrow", "src/cmdline.cpp:cmdline::finish_option"]}
{"id": "C76", "title": "Command lines compose", "statement": "If two command lines are accepted, the first without the terminator and not ending in an option that could take a positional argument at the start of the second, then the two in a row are accepted and give the options of the first followed by those of the second, with the positional arguments numbered through (and named by their new numbers, if there is a positional description; they are refused exactly if there are too many of them together). Storing the two one after the other is then storing them as one, if every option given in both is composing and no positional argument changes its name.", "quantifier": "all pairs of command lines, option sets, styles and additional parsers, without a user style parser", "why_tests_cant": "All pairs of command lines; a state carried from one option to the next would show only for some pairs.", "anchors": ["src/cmdline.cpp:cmdline::run", "src/cmdline.cpp:cmdline::finish_option"]}
{"id": "C77", "title": "Exactly how split_unix splits a line", "statement": "A line is split at the separators outside quotes; quotes of every kind begin and end quoting; an escaped n is a newline, and any other escaped special character is itself; empty fields are dropped; the only failure is an escape character that escapes nothing.", "quantifier": "all lines and all sets of separators, quotes and escapes", "why_tests_cant": "An exact description for all inputs, including unbalanced quotes and overlapping character sets.", "anchors": ["src/split.cpp:split_unix"]}
{"id": "C78", "title": "Exactly how split_winmain splits a line", "statement": "A line is split at white space outside quotes; a quote after 2n backslashes is n backslashes and begins or ends quoting; a quote after 2n+1 backslashes is n backslashes and a quote; all other backslashes are themselves; an argument consisting of quotes only is the empty argument; quotes that are not closed end with the line.", "quantifier": "all lines", "why_tests_cant": "An exact description for all inputs; the flag empty_quote and the postponed backslashes interact over unbounded distances.", "anchors": ["src/winmain.cpp:split_winmain"]}
{"id": "C79", "title": "Wide lines are split like narrow ones", "statement": "split_unix of a wide line, with ASCII separators, quotes and escapes, fails exactly if that of its UTF-8 text fails and otherwise gives arguments with the same UTF-8 text; split_winmain of a wide line follows the same rules as that of a narrow line and never fails in the conversions.", "quantifier": "all wide lines", "why_tests_cant": "All wide texts; octets of one character must not be taken apart or be mistaken for special characters.", "anchors": ["src/split.cpp:split_unix", "src/winmain.cpp:split_winmain", "src/convert.cpp:to_internal"]}
{"id": "C80", "title": "What the message of a refused command line says", "statement": "If the parser refuses a command line with an exception about an option, what() of that exception terminates with a text that is determined by the class of the exception, the style, the option and the token: unknown and ambiguous options are displayed as typed; other options by their name with the dashes of the enabled long options, or, if there are no long options, by the letter that was typed; the alternatives of an ambiguous name are listed in order and once each.", "quantifier": "all option sets, styles and command lines without percent signs", "why_tests_cant": "Connects the parser, the handlers that add context and the substitution of placeholders for all command lines; tests compare a few messages.", "anchors": ["src/cmdline.cpp:get_canonical_option_prefix", "src/value_semantic.cpp:error_with_option_name::get_canonical_option_name", "src/value_semantic.cpp:ambiguous_option::substitute_placeholders"]}
{"id": "C81", "title": "The text of the help, character by character", "statement": "The help of a tree of option groups is exactly: caption and colon; for each option added directly a line with two blanks, the name, and the value's name if values are allowed, then the description from the description column, beside or below, wrapped greedily at the line length less one; then the groups inside after a blank line each. The description column is one more than the longest left column or inner group's column, at least 24, at most the line length less the minimal description length. A value's name is shown with its implicit and default value.", "quantifier": "all trees of option groups, descriptions and line lengths", "why_tests_cant": "An exact description for all texts and widths; wrapping has many boundary cases (blank at the end, word longer than half a line, tab).", "anchors": ["src/options_description.cpp:options_description::print", "src/options_description.cpp:get_option_column_width", "src/options_description.cpp:format_paragraph", "include/boost/program_options/detail/value_semantic.hpp:typed_value::name"]}
{"id": "C82", "title": "What value tokens are converted to, and how they are refused", "statement": "For every option declared through value(), wvalue(), or without type: which value the option gets for which tokens (given the value it has already), or which exception is thrown, quoting which text, and with which value the option is left. No tokens give the implicit value, or true for booleans; scalars and optionals take one token once; vectors append, and keep the elements before a wrong one.", "quantifier": "all types, modifiers, token lists, previous values, and character-set conversions", "why_tests_cant": "The result depends on type, modifiers, previous value, number of tokens and character set together; tests cover few of these combinations.", "anchors": ["src/value_semantic.cpp:validate", "include/boost/program_options/detail/value_semantic.hpp:validate", "include/boost/program_options/detail/value_semantic.hpp:typed_value::xparse", "src/value_semantic.cpp:value_semantic_codecvt_helper<char>::parse"]}
{"id": "C83", "title": "What the message of a refused store says", "statement": "If a store is refused with an exception about an option, its message is the documented text for the first option that cannot be stored: it quotes the wrong value, and displays the option with the dashes of the command line it came from, or by its plain name.", "quantifier": "all parsed options, variables maps and declarations by value()/wvalue()/untyped, without percent signs in names and tokens", "why_tests_cant": "The text is assembled from three places (validator, store, template) at run time; tests check a few complete messages.", "anchors": ["src/variables_map.cpp:store", "src/value_semantic.cpp:error_with_option_name::substitute_placeholders", "include/boost/program_options/errors.hpp:add_context"]}
{"id": "C84", "title": "Command lines are expressive: settings and arguments round-trip", "statement": "Settings of declared options, written as --name=value or --name, followed by -- and any tokens, are read back as exactly these settings in this order, and the tokens as positional arguments, numbered and named; values may be any non-empty texts, including those that look like options. The same through split_winmain in a single string.", "quantifier": "all option sets, styles with allow_long, lists of settings and of argument tokens (below the range of int)", "why_tests_cant": "Any pair of settings might interfere (optional values, multitoken, guessing, disguise); a test only tries a few lists.", "anchors": ["src/cmdline.cpp:cmdline::run", "src/cmdline.cpp:cmdline::parse_long_option", "src/cmdline.cpp:cmdline::parse_terminator"]}
{"id": "C85", "title": "It does not matter where a value comes from", "statement": "Two sources that give every name the same values in the same order have the same effect on every variables map: same success, values, defaulted flags and finished names. In particular the same settings from the command line, a configuration file, or the environment.", "quantifier": "all option sets, settings, variables maps reached before, name mappers", "why_tests_cant": "It relates three parsers and store over all inputs; tests compare single results with constants.", "anchors": ["src/variables_map.cpp:store", "src/parsers.cpp:parse_environment", "src/parsers.cpp:parse_config_file"]}
{"id": "C86", "title": "Exactly which octets are read as which characters", "statement": "from_utf8 reads octets as a text exactly if they are the codes of its characters one after the other, each a lead octet with up to five continuation octets; all other octet sequences raise the conversion error. to_utf8 writes every text of characters below 2^31 with the shortest codes. (Overlong codes and surrogates are accepted on reading.)", "quantifier": "all octet sequences of any length, all wide texts of characters below 2^31", "why_tests_cant": "There are infinitely many octet sequences, and conversion happens in chunks of 32, so characters straddle the boundary in many ways.", "anchors": ["src/convert.cpp:from_utf8", "src/convert.cpp:to_utf8", "src/convert.cpp:detail::convert"]}
{"id": "C87", "title": "The value stored for a name, from the texts given, narrow or wide", "statement": "If all declared options have types, a source is stored without exception exactly if every name in it that is not final yet stands for one option, the texts of all its occurrences arrive in the character set of that option, and the option gets a value from them in order by the documented rules; that value is stored. From wide command lines and wide configuration files, an option declared by wvalue sees exactly the wide texts, and one declared by value sees them in the local character set; a wide string option has exactly the wide text.", "quantifier": "all sources, option sets, types, variables maps, wide command lines and wide configuration texts, character set conversions", "why_tests_cant": "The claim spans parsing, re-encoding to UTF-8 and back, and conversion, for all texts and types.", "anchors": ["src/variables_map.cpp:store", "include/boost/program_options/detail/value_semantic.hpp:xparse", "src/value_semantic.cpp:value_semantic_codecvt_helper<wchar_t>::parse", "src/value_semantic.cpp:value_semantic_codecvt_helper<char>::parse"]}
{"id": "C88", "title": "From the command line to the variables of the program", "statement": "A variable bound to exactly one option is assigned exactly once by notify, namely the value stored for the name of that option, given or default; without a value it is not touched. Settings of different options written on a command line, each acceptable to its option, are parsed and stored without exception, and if notify throws nothing then each bound variable has been assigned exactly the value of its setting.", "quantifier": "all option sets, settings and bindings of variables", "why_tests_cant": "It is the whole pipeline of parsing, storing and notifying, for all option sets and values.", "anchors": ["src/cmdline.cpp:cmdline::run", "src/variables_map.cpp:store", "src/variables_map.cpp:variables_map::notify", "include/boost/program_options/detail/value_semantic.hpp:notify"]}
{"id": "C89", "title": "A command line falls into what is recognised and what is passed on", "statement": "If a command line is read with unregistered options allowed, then reading the tokens returned by collect_unrecognized with include_positional yields the same unknown options and positional arguments, with the same names and numbers, and no option that was recognised; and the tokens of the recognised options alone are read as the same recognised options.", "quantifier": "all option sets, styles and command lines", "why_tests_cant": "What can follow or precede an option is unbounded; the claim is about all command lines.", "anchors": ["include/boost/program_options/detail/parsers.hpp:collect_unrecognized", "src/cmdline.cpp:cmdline::run", "src/cmdline.cpp:cmdline::finish_option"]}
{"id": "C90", "title": "One command line for two programs", "statement": "For every command line made of settings for one program, settings for another one that the first does not know, and arguments, in any order, each setting written in one token and complete: the first program with unregistered options allowed recognises exactly its settings; the tokens returned by collect_unrecognized are read by the second program as exactly its settings and the arguments, in order and named by its positional description. Each stores what it would store if it had been given its own settings only.", "quantifier": "all pairs of option sets, settings, arguments and their orders", "why_tests_cant": "It is about all interleavings of settings for all pairs of option sets.", "anchors": ["include/boost/program_options/detail/parsers.hpp:collect_unrecognized", "src/cmdline.cpp:cmdline::run", "src/variables_map.cpp:store"]}
{"id": "C91", "title": "Indices, positions and iterators stay in range", "statement": "Written statement by statement, with every element access, substring position, iterator step, dereference and unsigned subtraction checked, the parsers, the configuration file reader, split_winmain, the environment reader, the composition of messages and the printing of the help compute what they compute without the checks. A check fails exactly in these cases: an option whose name is ambiguous at the end of the command line has no original tokens; a configuration file has a line that says []; an ambiguous_option with no alternatives is shown. While the help is printed it can fail only if an option has no name at all.", "quantifier": "all command lines, option sets, styles, configuration files, entries of the environment, exceptions and descriptions", "why_tests_cant": "An access out of range usually goes unnoticed in a run, and the indices depend on all of the input.", "anchors": ["src/cmdline.cpp:cmdline::run", "src/cmdline.cpp:cmdline::finish_option", "src/cmdline.cpp:cmdline::parse_short_option", "src/config_file.cpp:common_config_file_iterator::get", "src/winmain.cpp:split_winmain", "src/options_description.cpp:format_paragraph", "src/value_semantic.cpp:error_with_option_name::get_canonical_option_name"]}
{"id": "C92", "title": "A configuration file that cannot be read to its end is not taken for a shorter one", "statement": "Reading line by line with std::getline and option by option with the iterator yields exactly the options of the whole contents of the stream. If reading from the stream or file fails before its end, parse_config_file reports that (unless the complete lines before are refused already); it never returns the options before the failure as if they were all.", "quantifier": "all contents, all positions of the failure, all option sets", "why_tests_cant": "Failures of the underlying device are hard to provoke in a test, and they can happen at every position.", "anchors": ["src/parsers.cpp:parse_config_file", "include/boost/program_options/detail/config_file.hpp:basic_config_file_iterator::getline", "src/config_file.cpp:common_config_file_iterator::get", "include/boost/program_options/eof_iterator.hpp:eof_iterator", "include/boost/program_options/environment_iterator.hpp:environment_iterator"]}
{"id": "C93", "title": "A copy of a configuration file iterator visits the same options", "statement": "A copy of a config_file_iterator, which is declared a forward iterator, visits the options that the original visits, with the same names.", "quantifier": "all configuration files, all copies and orders of increments", "why_tests_cant": "Tests advance one iterator from begin to end; what other copies then see depends on the whole rest of the file.", "anchors": ["include/boost/program_options/detail/config_file.hpp:basic_config_file_iterator", "include/boost/program_options/eof_iterator.hpp:eof_iterator", "src/config_file.cpp:common_config_file_iterator::get"]}
{"id": "C94", "title": "What the help says about an option is how the command line is read", "statement": "The names and the argument that the help shows for an option (format_name, format_parameter) tell how it is used: if no argument is shown, the option is accepted without and refused with an adjacent value; if an argument in brackets is shown, it is accepted both without and with an adjacent value; if an argument without brackets is shown, it is refused without a value and accepted with an adjacent one or one in the next token. This holds for the long and the short name shown.", "quantifier": "all option sets, all declarations of the value, all values", "why_tests_cant": "The help text and the parser compute from the declaration along different paths; a test compares them for the declarations it happens to use.", "anchors": ["src/options_description.cpp:option_description::format_name", "src/options_description.cpp:option_description::format_parameter", "include/boost/program_options/detail/value_semantic.hpp:typed_value<T, charT>::name", "include/boost/program_options/value_semantic.hpp:typed_value::min_tokens", "include/boost/program_options/value_semantic.hpp:typed_value::max_tokens", "src/cmdline.cpp:cmdline::finish_option"]}
{"id": "C95", "title": "What the message of a refused configuration file, or of a missing required option, says", "statement": "If a configuration file is refused because of a line, what() of the exception returns and quotes the first line at fault, without comment and surrounding white space, or names the unknown option with its section in front. If notify refuses because a required option is missing, the message displays the first missing one in name order, in the longest of the forms in which the sources display it.", "quantifier": "all texts, all option sets, all histories of stores", "why_tests_cant": "The text of the message is composed by repeated replacement of placeholders in what the user has written; tests quote a few harmless lines.", "anchors": ["src/config_file.cpp:common_config_file_iterator::get", "include/boost/program_options/errors.hpp:invalid_config_file_syntax", "include/boost/program_options/errors.hpp:unknown_option", "include/boost/program_options/errors.hpp:required_option", "src/variables_map.cpp:variables_map::notify", "src/value_semantic.cpp:error_with_option_name::substitute_placeholders"]}
{"id": "C96", "title": "Every accepted command line has a normal form", "statement": "If the first long names identify the options and contain neither '=' nor '*', options need at most one value, positional arguments are named for options that take a value, and no value is empty, then every accepted command line - with abbreviations, short options and groups, adjacent and separate values, several values for one option, the terminator and positional arguments - has the same effect on a store into any variables map as the command line consisting of --name=value for each of its values and --name for each option without; and this command line is accepted too, and is its own normal form.", "quantifier": "all command lines, styles, option sets as described, all variables maps", "why_tests_cant": "It relates every way to write a command line with one of them; tests compare the parse of single tokens.", "anchors": ["src/cmdline.cpp:cmdline::run", "src/cmdline.cpp:cmdline::finish_option", "src/cmdline.cpp:cmdline::parse_long_option", "src/variables_map.cpp:store", "include/boost/program_options/detail/value_semantic.hpp:validate", "src/value_semantic.cpp:untyped_value::xparse"]}
{"id": "C97", "title": "What a parser accepts, a store knows", "statement": "If no two options share a name and the names of positional arguments are declared, then every registered option that the command line or the configuration file parser lets pass stands for exactly one declared option when it is stored; so the only exceptions a store of it can throw are about values.", "quantifier": "all command lines, styles, configuration files, option sets as described, all variables maps", "why_tests_cant": "The two lookups use different flags: the parser folds case and guesses as the style says, the store never does. Tests use plain names, for which it does not matter.", "anchors": ["src/cmdline.cpp:cmdline::finish_option", "src/options_description.cpp:options_description::find_nothrow", "src/options_description.cpp:option_description::key", "src/variables_map.cpp:store", "src/config_file.cpp:common_config_file_iterator::allowed_option"]}
{"id": "C98", "title": "Names of one option are interchangeable", "statement": "On any command line, a token giving a declared option under one of its names (a long name, an abbreviation, a name in another letter case, the short name) can be replaced by one giving the same option under another, with the same attached value: the command line is accepted or refused as before and the parsed options are the same. With case-insensitive long names and without wildcards, letter case never matters, not even for which names are refused.", "quantifier": "all command lines, option sets, styles, names, positions of the token, values following it", "why_tests_cant": "Names, forms, neighbours and numbers of values combine; tests try one form at a time.", "anchors": ["src/cmdline.cpp:cmdline::finish_option", "src/cmdline.cpp:cmdline::parse_long_option", "src/cmdline.cpp:cmdline::parse_short_option", "src/options_description.cpp:option_description::match", "src/options_description.cpp:option_description::key"]}
{"id": "C99", "title": "Running a parser again", "statement": "Running a command line parser object a second time gives the same outcome as the first time; at least, a program that runs it again after an exception comes to an end or sees the same exception again, and an exception is not followed by accepting what was refused.", "quantifier": "all parser objects without custom style parser, all command lines, any number of runs", "why_tests_cant": "run() works on the member m_args, so what is left after an exception depends on whether the throw comes before or after an erase in each of seven functions; tests run a parser once.", "anchors": ["src/cmdline.cpp:cmdline::run", "src/cmdline.cpp:cmdline::finish_option", "src/cmdline.cpp:cmdline::parse_long_option", "src/cmdline.cpp:cmdline::parse_short_option", "src/cmdline.cpp:cmdline::parse_disguised_long_option"]}
{"id": "C100", "title": "A setting is found under the own name of its option", "statement": "Whatever source an option is set in (command line, positional argument, configuration file, environment) and whichever of its names is used there, after a successful store the variables map has an explicit value under the option's own name (first long name, or the short name without one); in particular a required option that was set is not reported as missing.", "quantifier": "all sources, all option descriptions, all command lines, files and environments", "why_tests_cant": "The parsers canonicalise names to different degrees and store takes the name as it comes; the combination of source, alias and lookup is not exercised by tests of the single parsers.", "anchors": ["src/variables_map.cpp:store", "src/parsers.cpp:parse_environment", "src/positional_options.cpp:positional_options_description::name_for_position", "src/options_description.cpp:option_description::key"]}
{"id": "C101", "title": "Which environment variables set which options", "statement": "With a prefix, every declared option can be set by an environment variable; the variables of a name are handed to the option in the order of the environment; a store of the environment fails only if a variable with the prefix names no option or the option refuses its values.", "quantifier": "all environments, prefixes and option descriptions, all maps stored into", "why_tests_cant": "The prefix mapper folds letter case, the store's lookup does not; which names can be reached is a statement about all names.", "anchors": ["src/parsers.cpp:prefix_name_mapper", "src/parsers.cpp:parse_environment", "include/boost/program_options/environment_iterator.hpp:environment_iterator::get", "src/variables_map.cpp:store"]}
{"id": "C102", "title": "Adding a group is adding its options", "statement": "For all option descriptions o and g (also if they are the same object), o.add(g) returns, and afterwards o has its own options followed by those of g: every lookup, parser and store behaves as if the options of g had been added one by one.", "quantifier": "all option descriptions, all command lines, files and environments", "why_tests_cant": "The loop reads the vector it may be writing to; termination for all descriptions and aliasing cases is not a matter of samples.", "anchors": ["src/options_description.cpp:options_description::add", "src/options_description.cpp:options_description::find_nothrow"]}
{"id": "C103", "title": "Two options of the same name are noticed", "statement": "add throws if the short or long name of the new option is the name of one already present, so no description contains two options of the same name.", "quantifier": "all option descriptions built by add, all names", "why_tests_cant": "The documentation promises it of every declaration; that code never compares the names, and what then happens to each later use, quantifies over all descriptions and inputs.", "anchors": ["include/boost/program_options/options_description.hpp:options_description::add", "src/options_description.cpp:options_description::add", "src/options_description.cpp:options_description::find_nothrow"]}
{"id": "C104", "title": "Any number of sources, name by name", "statement": "For every sequence of sources stored one after the other (each with its own description and encoding), all stores succeed exactly if each name taken alone comes to a value: composing options collect the values of all sources that mention them, other options have the value of the first such source, and names mentioned nowhere have the default of the first description with one. Sources with one description of which no two mention the same name may be stored in any order. A source that has the values of two others may be stored in their place, anywhere in the sequence, if every name in both belongs to a composing option. notify assigns exactly these values to the variables of the program, once each.", "quantifier": "all sequences of sources of any length, all names, all option descriptions", "why_tests_cant": "Tests store one or two sources; the statement is by induction over the sequence, with the set of settled names as invariant.", "anchors": ["src/variables_map.cpp:store", "src/variables_map.cpp:variables_map::notify"]}
{"id": "C105", "title": "Tokens of an extra parser mean the long option they stand for", "statement": "For every extra parser, description and style with long options on and no style parser: a token that the extra parser reads as option name and value v (name not empty and without '=') can be replaced by '--name=v' ('--name' if v is empty), provided the extra parser does not claim that token too, at any place after an accepted beginning of the command line without '--': the command line is accepted or refused as before, and means the same. In particular '@x' is '--response-file=x' with the parser of example/response_file.cpp, and '-fbar', '-fno-bar' are '--bar=true', '--bar=false' with that of example/custom_syntax.cpp. The tokens of a response file are its words, and what the command line says of an option that does not compose stands whatever the response file contains.", "quantifier": "all extra parsers, tokens, command lines before and after, descriptions; all response files", "why_tests_cant": "Tests try a few tokens with one extra parser; the statement is about every parser and every context, including what follows the token.", "anchors": ["src/cmdline.cpp:cmdline::handle_additional_parser", "example/response_file.cpp:at_option_parser", "example/custom_syntax.cpp:reg_foo"]}
{"id": "C106", "title": "Exactly the options that were given count as given", "statement": "After any sources were stored successfully into an empty map, 'vm.count(name) && !vm[name].defaulted()' holds exactly if some source mentions the name. So conflicting_options of example/real.cpp throws exactly if both options were given, and option_dependency exactly if the first was given and the second was not. After a failed store this no longer holds: the entry left behind counts as given.", "quantifier": "all sequences of sources, all names, all descriptions", "why_tests_cant": "Tests look at single maps; the equivalence has to hold for every name, with or without default, over any number of sources.", "anchors": ["example/real.cpp:conflicting_options", "example/real.cpp:option_dependency", "src/variables_map.cpp:store"]}
{"id": "C107", "title": "How an option is written does not matter", "statement": "For every description, style and extra parser (no style parser): two tokens that give the same declared option under the same reported name -- written '--name', '-name' or '/name' (disguised), '-n', '/n', or as the extra parser has it, with or without a value in the token -- can be exchanged anywhere after an accepted beginning of the command line without '--': it is accepted or refused as before and means the same. And a value in the token can be moved to the next token: for options that need a value, if it does not name a declared option there; for options that may have one, if it does not look like an option and is not '--'.", "quantifier": "all descriptions, styles, tokens and surrounding command lines", "why_tests_cant": "Tests try single tokens in one style; the statement ranges over all pairs of spellings in every context.", "anchors": ["src/cmdline.cpp:cmdline::parse_disguised_long_option", "src/cmdline.cpp:cmdline::parse_dos_option", "src/cmdline.cpp:cmdline::finish_option", "src/cmdline.cpp:cmdline::run"]}
{"id": "C108", "title": "The order of precedence in the hierarchy example", "statement": "For every command line, environment and set of files: if the program of example/options_heirarchy.cpp gets past parsing, each of its string, number and switch options has the value that the first source mentioning it gives -- command line, environment, the files named by --config in their order, default.cfg -- and the declared default if none mentions it; the include path has all values of all sources in this order; master-file, file and config come from the command line only; and the program stops after the command line exactly when help or version is on it, whatever environment and files say.", "quantifier": "all command lines, environments and file contents", "why_tests_cant": "The comments of the example show a dozen runs; the statement covers all sources with all contents.", "anchors": ["example/options_heirarchy.cpp:OptionsHeirarchy::ParseOptions", "example/options_heirarchy.cpp:OptionsHeirarchy::LoadAConfigFile", "src/variables_map.cpp:store"]}
{"id": "C109", "title": "Catching program_options::error is enough", "statement": "For every program that declares its options with value<T> or without value, reads any command lines, configuration files and environments, stores them in any order and notifies: if something is thrown, it is derived from program_options::error. A name has the same type in all sources; inputs that lead to undefined behaviour are excluded: reported names are neither empty nor ambiguous, no line of a configuration file is [], every environment entry has a '='.", "quantifier": "all programs of this form, all arguments, file contents and environments", "why_tests_cant": "A test sees the exceptions of the inputs it tries; that no other exception type is left needs all inputs and all orders of sources.", "anchors": ["include/boost/program_options/errors.hpp:error", "src/variables_map.cpp:store", "src/variables_map.cpp:variables_map::notify", "include/boost/program_options/detail/value_semantic.hpp:validate"]}
{"id": "C110", "title": "A style is a set of flags, and which of them matter", "statement": "A style joined from flags of command_line_style with '|' has exactly these flags; unix_style, default_style and case_insensitive have exactly the documented ones. Styles (not 0) with the same flags are accepted or refused alike and read every command line alike. Switching one flag changes the reading of no command line, for any description, extra parser and positional description, exactly if the flag is one of the four on where values are written, or is allow_sticky without short options written with '-', allow_dash_for_short without allow_short, allow_slash_for_short without allow_short and allow_long_disguise, or allow_short with neither dash nor slash; every other flag matters in every style.", "quantifier": "all sets of flags, all style values, all descriptions, all argument lists", "why_tests_cant": "There are 8192 sets of flags and unboundedly many command lines; that a flag has no effect can only be shown for all of them.", "anchors": ["include/boost/program_options/cmdline.hpp:style_t", "src/cmdline.cpp:cmdline::run", "src/cmdline.cpp:cmdline::style"]}
{"id": "C111", "title": "What the program with two sources prints", "statement": "example/multiple_sources.cpp returns 0 exactly if the command line is accepted, --version, --help, --config and --optimization are given at most once, the level is a number, and the named (or default) file cannot be opened, or is accepted and, unless the command line has a level, has at most one, which is a number. It then prints that the file cannot be opened, or else the help, or else the version, or else the include paths of command line and file in this order, the input files of the command line (or, if it has none, of the file), and the level of the command line, or else of the file, or else 10. Otherwise an exception of the library gets to its handler; the variable of the level is never read before it has a value.", "quantifier": "all argument lists, all file contents, all conversions of numbers", "why_tests_cant": "The claim is an equivalence over all command lines and files at once, across parsing, storing twice, notifying twice and printing; tests run single combinations.", "anchors": ["example/multiple_sources.cpp:main", "src/variables_map.cpp:store", "src/variables_map.cpp:notify"]}
{"id": "C112", "title": "What the program that reads the environment prints", "statement": "For every environment, example/env_options.cpp returns 0 exactly if at most one variable is called PATH and at most one EXAMPLE_VERBOSE, in any letter case. It then prints the first 75 characters of the path, if there is such a variable, and the verbosity of its variable, or else INFO. Otherwise an uncaught exception ends it, which says that an option given by several variables cannot be specified more than once.", "quantifier": "all environments whose entries have an equal sign", "why_tests_cant": "All environments, with any number of variables that differ in letter case only; tests run with one environment.", "anchors": ["example/env_options.cpp:main", "src/parsers.cpp:parse_environment", "src/variables_map.cpp:store"]}
{"id": "C113", "title": "Options that can be given once", "statement": "For every description in which each option has one long name (and maybe a letter), no name is used twice, and each option is a switch, a bool_switch or a value<T> of one value, with or without a default: after parse_command_line, store into an empty map succeeds exactly if no option is given twice and every value converts. The map then has, for each option that is given, the value that its token stands for; for each other one its default, marked as such, if it has one; and nothing else. If the program gets no map, the exception is one of the library.", "quantifier": "all such descriptions, styles and command lines (without custom style parser and positional names)", "why_tests_cant": "Every description and command line of this kind, with abbreviations, sticky letters and values in any position; tests have a few.", "anchors": ["src/cmdline.cpp:run", "src/variables_map.cpp:store", "include/boost/program_options/detail/value_semantic.hpp:xparse"]}
{"id": "C114", "title": "What the three small example programs print", "statement": "For every program name and every command line: example/first.cpp and example/option_groups.cpp end without an exception exactly if the command line is accepted, no option is given twice and the number is a number; they then print the help text if help is given, else the text of the module, else the number, else nothing (or that none was set). example/real.cpp then prints the help text, or else complains about the first of its rules on conflicting and missing options that is broken, or else says whether two was given. All they catch apart from that are exceptions of the library.", "quantifier": "all command lines of fewer than 2^31 tokens", "why_tests_cant": "All command lines; the programs have no tests of their own.", "anchors": ["example/first.cpp:main", "example/option_groups.cpp:main", "example/real.cpp:main", "src/variables_map.cpp:store"]}
{"id": "C115", "title": "Conversion with a character set that has a state", "statement": "With a facet that keeps a conversion state (shift states as in ISO 2022, or the first octets of a character, as the facets of glibc's locales do): detail::convert gives exactly the characters that the text stands for, unit by unit, and fails exactly if a unit cannot stand where it is or the text ends in the middle of a character. The size of the buffer does not matter.", "quantifier": "all character sets that are read unit by unit, all facets that serve them, all texts", "why_tests_cant": "All texts and lengths, in particular 32 characters followed by a shift sequence or by half a character, and locales that the tests do not have.", "anchors": ["src/convert.cpp:detail::convert", "src/convert.cpp:from_8_bit"]}
{"id": "C116", "title": "Notifiers that throw, and what they see", "statement": "In a program whose notifiers may throw: if a required option is missing, notify changes nothing and throws. Otherwise it tells the program the value of each option, in the order of the names - first the variable is assigned, then the notifier called - until a notifier throws; it then ends with that exception, and the values of options with larger names are neither stored nor told. A notifier that is called finds the variables of its own option and of those with smaller names with their final values, and those of options with larger names as they were.", "quantifier": "all programs (states, notifiers), all maps filled by stores", "why_tests_cant": "Every set of options, values and notifiers, in particular which notifier is the first to throw.", "anchors": ["src/variables_map.cpp:notify", "include/boost/program_options/detail/value_semantic.hpp:notify"]}
{"id": "C117", "title": "Usual command lines, from the arguments to the variables", "statement": "For a parser whose options have distinct names and are declared without type or with value<T> and any modifiers, and whose positional names are names of options: an accepted command line is stored exactly if every option can make something of the tokens of its occurrences; the map then has exactly these values, and the defaults of options that are not given. notify goes through exactly if every required option is given or has a default; otherwise it throws required_option for the first one by name that lacks, and does nothing. If it goes through, a variable of one option has been assigned once, with the value or the default, or not at all if there is neither. Only exceptions of the library are thrown, whatever the arguments.", "quantifier": "all such parsers, all command lines", "why_tests_cant": "Every set of options, every combination of modifiers, every command line.", "anchors": ["src/cmdline.cpp:run", "src/variables_map.cpp:store", "src/variables_map.cpp:notify"]}
{"id": "C118", "title": "What the program options_description prints", "statement": "The example program options_description.cpp returns 0 exactly if the command line is accepted, --help and --optimization are given at most once, --verbose and --listen have a value at most the first time they are given, and all the values are numbers. It then prints the help, or the lists, the verbosity (if given; 1 if the last time without value), the optimization level (10 if not given) and the port (0 if not given, 1001 if the last time without value). Otherwise an exception of the library gets to the handler; opt and portnum are never read without a value.", "quantifier": "all command lines", "why_tests_cant": "Every command line, in particular repeated options with and without values.", "anchors": ["example/options_description.cpp:main"]}
{"id": "C119", "title": "validate functions of the program", "statement": "If the program supplies validate for a class T, an option of type T gets what the function makes of the tokens of its occurrences, one call for each occurrence, given what the one before left; vector<T> gets one element for each string, each read by the function alone and in order; optional<T> takes one string, once. An occurrence without tokens is the implicit value and no call. store succeeds exactly if no call is refused, and otherwise throws for the first refusal, with the name of the option added to exceptions of the library. bad_lexical_cast becomes invalid_option_value for elements of vectors, and leaves store as it is otherwise; an object of another class is bad_any_cast. If each function leaves an object of its class or throws and leaves what was there, notify goes through exactly if no required option lacks a value. The functions of the library are such functions: with them the outcome is as without overloads.", "quantifier": "all functions validate on narrow strings, all declarations with them, all command lines", "why_tests_cant": "The functions are the program's own; every function and every command line.", "anchors": ["include/boost/program_options/detail/value_semantic.hpp:validate", "include/boost/program_options/detail/value_semantic.hpp:xparse", "src/variables_map.cpp:store"]}
{"id": "C120", "title": "What the program regex prints", "statement": "The example program regex.cpp returns 0 exactly if the command line is accepted and --magic is given at most once with three digits, a dash and three digits (and --help and --version without value). It then prints the help if it is asked for, else the version if asked for, else the number after the dash if --magic is given, else nothing. Otherwise an exception of the library gets to the handler; a wrong number is refused with \"the argument for option '--magic' is invalid\", whatever it is and however the option was written.", "quantifier": "all command lines", "why_tests_cant": "Every command line and every string for --magic.", "anchors": ["example/regex.cpp:validate", "example/regex.cpp:main"]}
{"id": "C121", "title": "Options from several sources, up to the variables", "statement": "A program stores several sources one after the other: command lines, configuration files, environments, each with a description that has some of the program's options, all declared with value<T> or without type and each with a name of its own. The tokens of an option that count are those of all sources in order if it is composing, otherwise those of the first source that has it. All sources can be stored exactly if every option can be read from the tokens that count. Then an option that some source has is in the map with what is read from those tokens, not defaulted; one that none has is there with its default, defaulted, if a source knows it and it has a default; nothing else is in the map. notify succeeds exactly if no option is required, known to a source, in none of them and without default, otherwise it throws required_option for the first such option in alphabetical order. A variable that belongs to one option is assigned once, what is in the map, or not at all. If a source cannot be stored, the exception is one of the library.", "quantifier": "all lists of sources, all declarations, all texts", "why_tests_cant": "Any number of sources with overlapping descriptions, every text in each.", "anchors": ["src/variables_map.cpp:store", "src/variables_map.cpp:notify"]}
{"id": "C122", "title": "What the programs custom_syntax and response_file print", "statement": "custom_syntax.cpp prints something else than the text of an exception exactly if the command line is accepted and neither --help nor foo is given twice, whether as --foo=x, -ffoo or -fno-foo: the help if asked for, then a line with the value of foo if there is one. response_file.cpp ends normally exactly if the command line can be read and stored and either names no response file, or names one (as --response-file or @name, at most once) that can be opened and whose words can be read and stored on top of it; options other than --include-path that the command line has are not looked at in the file. It prints the help if the command line asks for it, the include paths of the command line followed by those of the file, and the magic value of the command line, or else of the file. It ends with 1 exactly if the response file cannot be opened. Otherwise the handler gets an exception of the library, and at most the help has been printed.", "quantifier": "all command lines, all contents of files, fewer than 2^31 words each", "why_tests_cant": "Every command line with every response file.", "anchors": ["example/custom_syntax.cpp:main", "example/response_file.cpp:main"]}
{"id": "C123", "title": "Configuration files with entries the program does not know", "statement": "The entries of a configuration file, full names and values, are the same whoever reads it. Reading succeeds exactly if the declared names can be declared, the lines are well-formed and, unless unregistered entries are allowed, every entry is declared; exactly the entries that are not declared are marked as unregistered. To refuse unregistered entries is to allow them and find none. collect_unrecognized returns the names and values of the entries that are not declared, in order. If two programs with different options read one file, allowing unregistered entries, and store what they read into one map, the outcome is that of a program that knows the options of both, provided every entry belongs to one of them; otherwise the latter refuses the file. For an entry of the file it makes no difference whether it is declared with bool_switch or value<bool>.", "quantifier": "all texts, all descriptions, all ways to split the options between two programs", "why_tests_cant": "Every text of a file, every pair of descriptions.", "anchors": ["src/parsers.cpp:parse_config_file", "src/config_file.cpp:common_config_file_iterator::get", "src/variables_map.cpp:store"]}
{"id": "C124", "title": "C character functions are called within their domain", "statement": "tolower and isspace are only called with EOF or the value of an unsigned char, whatever the bytes of option names, tokens, values and environment variables: looking up an option without regard to case, reading a boolean from a narrow or a wide string, mapping an environment variable by prefix and splitting a Windows command line are always defined.", "quantifier": "all byte strings, all descriptions, all styles, signed and unsigned char", "why_tests_cant": "It takes names and values outside ASCII, and undefined behaviour often shows no symptom.", "anchors": ["src/options_description.cpp:tolower_", "src/options_description.cpp:option_description::match", "src/value_semantic.cpp:validate", "src/parsers.cpp:prefix_name_mapper", "src/winmain.cpp:split_winmain"]}
{"id": "C125", "title": "Options, groups and value semantics live exactly as long as they are owned", "statement": "Whatever a program does with descriptions, groups, positional options, parsers, parse results and variable maps, including copying and destroying them in any order: the use count of every option, group and semantic is the number of shared pointers to it, so it is destroyed once, when the last description or map that owns it goes, and nothing is left behind. notify, printing, copying and clearing never touch a destroyed object. The only calls that can are those that follow a plain pointer: running a parser or storing a result whose description (or positional options) the program has destroyed, and looking up a name through a map that the program has destroyed.", "quantifier": "all sequences of operations on any number of objects", "why_tests_cant": "Lifetimes depend on the order of destruction, and using a destroyed object often shows no symptom.", "anchors": ["include/boost/program_options/variables_map.hpp:variable_value", "src/variables_map.cpp:store", "src/variables_map.cpp:abstract_variables_map::operator[]", "src/options_description.cpp:options_description::add", "include/boost/program_options/detail/parsers.hpp:basic_command_line_parser"]}
{"id": "C126", "title": "The help in a build without assertions", "statement": "Compiled with NDEBUG, the help is determined for every description, line length, minimal description length and column: wherever a build with assertions prints a text, the same text is printed. A tab beyond the first line is ignored. If the descriptions would begin beyond the usable part of the line, each paragraph is printed in one line. The two-tabs error is reported only if some paragraph has two tabs. It is undefined only if an option has no name or if there is text at a column that is exactly the end of the usable part of the line.", "quantifier": "all trees of groups and options, all sizes in unsigned, all columns", "why_tests_cant": "Which sizes wrap around or read in front of a string depends on a combination of line length, minimal description length, nesting and the longest option.", "anchors": ["src/options_description.cpp:format_paragraph", "src/options_description.cpp:format_description", "src/options_description.cpp:options_description::print", "src/options_description.cpp:options_description::get_option_column_width"]}
{"id": "C127", "title": "A tab in a description works as documented", "statement": "A tab in a paragraph of a description is not written; the lines after the first begin at the column where it stands; two tabs in one paragraph are a program_options::error; and the tab is ignored if it is not on the first line of the paragraph or is on the last possible position of the first line.", "quantifier": "all paragraphs, columns and line lengths, with and without assertions", "why_tests_cant": "The documented exceptions depend on where the word wrap happens to end the first line.", "anchors": ["src/options_description.cpp:format_paragraph"]}
{"id": "C128", "title": "Parsing in a build without assertions", "statement": "Compiled with NDEBUG, a command line gives what it gives with assertions unless an assertion fails there. Any sequence of calls of positional add is accepted: positions are named by the runs, then by the last name given with count -1. An environment entry without '=' is the variable of that name with its own name as value. A nameless option that loses its value to the option in front of it loses exactly its first value and its first token; if it has none, the access is undefined. An option declared with the empty name has no name: no token matches it.", "quantifier": "all parsers, arguments, sequences of add, environments and names", "why_tests_cant": "Release builds behave differently from the tested builds only for inputs on which the tested build stops.", "anchors": ["src/cmdline.cpp:cmdline::run", "src/positional_options.cpp:positional_options_description::add", "src/positional_options.cpp:positional_options_description::name_for_position", "src/options_description.cpp:option_description::set_names", "include/boost/program_options/environment_iterator.hpp:environment_iterator"]}
{"id": "C129", "title": "The extra parser is called once on each command line element", "statement": "The extra parser is called once on each element of the command line, in their order; a parser that keeps a state or throws is treated the same way: after a call that throws there is no other and its exception comes out of the parser. For a parser that answers as a function does, the outcome is the one for that function.", "quantifier": "all command lines, option descriptions, styles, and all extra parsers whose answers depend on the calls before and may be exceptions; no custom style parser", "why_tests_cant": "Whether a token is shown twice (once looking ahead, once in its turn) depends on what the options before it take; with a stateless parser in the tests this cannot be seen.", "anchors": ["src/cmdline.cpp:handle_additional_parser", "src/cmdline.cpp:finish_option"]}
{"id": "C130", "title": "Unknown options are reported as documented", "statement": "With allow_unregistered, for each token that looks like an option but does not have a known name one option is added to the result, with the name and value as written, the unregistered flag, and the token as it appeared on the command line as its original token.", "quantifier": "all command lines, option descriptions and styles without custom style parser, fewer than 2^31 tokens", "why_tests_cant": "Whether a token counts depends on which options before it still need values, and on the letters before it in a group.", "anchors": ["src/cmdline.cpp:finish_option", "src/cmdline.cpp:parse_short_option"]}
{"id": "C131", "title": "Notifiers may work on the map that is being notified", "statement": "While notify runs, notifiers may store further sources in the same map: each option is told at most once, in the order of the names, and when notify returns every option has been told the value it has in the map then. Only a notifier that removes the record of its own option makes the behaviour undefined.", "quantifier": "all programs whose notifiers compute, store, clear, erase or call notify again, depending on everything there is when they are called; all variables maps", "why_tests_cant": "The loop holds an iterator while it runs code of the program; what it meets next depends on the names that this code has added or removed meanwhile.", "anchors": ["src/variables_map.cpp:variables_map::notify", "include/boost/program_options/detail/value_semantic.hpp:notify"]}
{"id": "C132", "title": "A chain of calls declares what its last calls of each kind say", "statement": "Whatever calls configure a typed value, in whatever order: of each kind (default value, implicit value, value name, notifier) the last one counts, and composing, multitoken, zero_tokens and required count if they are there. After any calls, successful or not, the text that the help shows for a default or implicit value belongs to the value that will be used.", "quantifier": "all chains of calls of default_value, implicit_value (with and without text), value_name, notifier, composing, multitoken, zero_tokens and required, of any length and in any order; all value types; all ways lexical_cast may print values or fail", "why_tests_cant": "The number of chains is unbounded, and what is left after a value that cannot be printed shows only in the combination of a failing operator<< with a later use of the object.", "anchors": ["include/boost/program_options/value_semantic.hpp:typed_value", "include/boost/program_options/detail/value_semantic.hpp:name", "src/value_semantic.cpp:bool_switch"]}
{"id": "C133", "title": "An option that a command line does not use may be removed", "statement": "If a command line is accepted and none of the options in the result is a given declared option, the same command line is accepted without that option being declared, with the same result. Hence declaring a new option changes what an accepted command line means only if the command line is refused from then on, or if the result names the new option: no command line is ever silently read in another way. The same for configuration files, where the option may be a wildcard. Storing what was read then has the same outcome without the option, with the same exception if there is one; every other name has the same record, and the whole map is the same if the option has no default and is not required.", "quantifier": "all command lines below the range of int, all option sets in which no letter is shared, all styles without long options behind a single dash in which long and short names are folded alike, with or without guessing, unregistered options and extra parser; removed options without wildcard", "why_tests_cant": "The new option takes part in every lookup, of names, abbreviations, letters and possible values; an effect on another option would show only for particular combinations of names and tokens.", "anchors": ["src/cmdline.cpp:finish_option", "src/options_description.cpp:find_nothrow"]}
{"id": "C134", "title": "An exception says what it was last told", "statement": "What an exception's what() returns depends only on its class and on what it was told last: the last template, the last text and the last default for each parameter, and the last prefix. Earlier texts, the order in which different things were told, and earlier calls of what() (which keeps its text in the object) have no effect.", "quantifier": "all objects of error_with_option_name and its derived classes; all sequences, of any length, of set_substitute, set_substitute_default, set_prefix, set_option_name, set_original_token, add_context, assignments to m_error_template and what()", "why_tests_cant": "The kept text and the maps are rewritten by every call; a stale text would show only after a particular interleaving of calls, and there are unboundedly many.", "anchors": ["src/value_semantic.cpp:error_with_option_name::what", "src/value_semantic.cpp:error_with_option_name::substitute_placeholders", "include/boost/program_options/errors.hpp:error_with_option_name"]}
{"id": "C135", "title": "No placeholder is left in a message", "statement": "The message of an exception has no placeholder left in place: the placeholders in its template are replaced by the texts for their parameters, or by defaults if a text is missing.", "quantifier": "all exceptions of the library and all exceptions with templates, parameters, texts and defaults of the program's own; texts and parameter names without per cent signs", "why_tests_cant": "Templates and parameters are arbitrary strings; tests try the library's own templates with their usual parameters.", "anchors": ["include/boost/program_options/errors.hpp:error_with_option_name", "src/value_semantic.cpp:error_with_option_name::substitute_placeholders", "src/value_semantic.cpp:error_with_option_name::replace_token"]}
{"id": "C136", "title": "A command line parser does what it was last told", "statement": "Whatever calls configured a command_line_parser, in whatever order, with runs and changes of the descriptions in between: run parses with the last description, positional description, accepted style, extra parser and extra style parser it was given, allows unregistered options if that was ever said, and takes the descriptions as they are at that moment, not as they were when named. A refused style changes nothing, and style is the only call that can be refused. After a run that returned, later runs find nothing. run is undefined exactly if no description was ever named: after construction from a vector it reads a pointer that no constructor set.", "quantifier": "all sequences of the calls options, positional, style, extra_parser, allow_unregistered, extra_style_parser and run, with any changes of the descriptions between them; all styles, parsers and tokens; both constructors", "why_tests_cant": "The number of call sequences is unbounded, and an uninitialised pointer usually happens to be harmless in a test.", "anchors": ["include/boost/program_options/detail/parsers.hpp:basic_command_line_parser", "src/cmdline.cpp:init", "src/cmdline.cpp:style", "src/cmdline.cpp:run"]}
{"id": "C137", "title": "The order of declarations only shows in the help", "statement": "With the options declared in another order, the same command lines and configuration files are accepted, with the same options, and the others are refused with the same exceptions; an ambiguity lists the same alternatives and its message is the same character by character. Storing has the same effect, up to the defaults and the required options, provided no two options share the name under which defaults are kept. The help consists of the same entries, character by character, in the order of declaration.", "quantifier": "all descriptions and all permutations of them; all styles, extra parsers and style parsers, positional descriptions and tokens; all configuration files; all maps; all widths of the help", "why_tests_cant": "The number of permutations is factorial, and what may depend on them (first match, last match, maxima, default of the first option) shows only for particular combinations of names.", "anchors": ["src/options_description.cpp:find_nothrow", "src/cmdline.cpp:run", "src/parsers.cpp:parse_config_file", "src/variables_map.cpp:store", "src/options_description.cpp:print"]}
{"id": "C138", "title": "Linked maps answer as documented, whatever is done with them", "statement": "Whatever a program has done with its maps (created, linked with next, copied, assigned, cleared, stored into, destroyed), vm[name] on a living map returns the first explicit value among the maps its links lead through, else the first default, else an empty value.", "quantifier": "all programs: all sequences, of any length, of constructions, links, copies, assignments, clears, stores and destructions of any number of maps; all names", "why_tests_cant": "Tests link two maps that stay as they are; circles and dangling links come about by combinations of copying, assigning, linking and scope, and whether a recursion ends cannot be seen from the calls that returned.", "anchors": ["src/variables_map.cpp:abstract_variables_map::operator[]", "src/variables_map.cpp:abstract_variables_map::next", "include/boost/program_options/variables_map.hpp:abstract_variables_map"]}
{"id": "C139", "title": "A name the program erases from its map can be given anew", "statement": "A variables_map is a std::map: whatever a program has done with it (stores, inserting values of its own, erasing names, changing values, clearing), a name that it erases takes its value from the next source stored that mentions it.", "quantifier": "all programs: all sequences, of any length, of stores of any sources, insertions, erasures, changes and clears; all names", "why_tests_cant": "Tests only store; what erasing and inserting do to later stores depends on what was stored before (the set of settled names is not visible), on whether the option composes, and on what the later sources mention.", "anchors": ["include/boost/program_options/variables_map.hpp:variables_map", "src/variables_map.cpp:store", "src/variables_map.cpp:variables_map::notify", "src/variables_map.cpp:variables_map::clear"]}
{"id": "C140", "title": "The text what() returned stays where it is", "statement": "As for the standard exceptions: the pointer that what() of an exception returns shows the text until the exception is changed by a non-const member function, assigned or destroyed, whatever const member functions (what() among them) are called meanwhile, by whichever part of the program holds a reference to it.", "quantifier": "all programs: all sequences, of any length, of constructions, calls of member functions, copies, assignments and destructions of any number of exceptions; all classes of exceptions with an option name, all templates and texts", "why_tests_cant": "A pointer into a string that was assigned to often still shows the old or the same text, so a test sees nothing; which calls invalidate it depends on everything done to the same object between the call and the use.", "anchors": ["src/value_semantic.cpp:error_with_option_name::what", "include/boost/program_options/errors.hpp:error_with_option_name"]}
{"id": "C141", "title": "The help looks the same on any stream", "statement": "Whatever formatting the stream had, std::ostream << description appends the text of the help. A stream whose buffer runs out of room gets as much of it as there is room for and is bad afterwards, a stream that is bad already is left alone, and if printing throws, the same is thrown whatever the stream, after the help up to the option with the wrong description was written.", "quantifier": "all trees of descriptions, all widths, all streams: any field width, fill character, adjustment and room", "why_tests_cant": "Tests print to a fresh stringstream; a field width left over from an earlier setw, a full disk, or a description with two tabs show only in the program that has them.", "anchors": ["src/options_description.cpp:options_description::print", "src/options_description.cpp:operator<<", "src/options_description.cpp:format_paragraph"]}
{"id": "C142", "title": "Options from the program's own style parser are treated like any others", "statement": "With an extra_style_parser that takes tokens from the front and records them, on a successful parse no token is lost, every registered option is reported under the canonical name of the declared option its name stands for, has as many values as that allows, names that match no declared option are refused or marked, and there is no undefined behaviour; tokens the style parser takes never reach the built-in syntax, what it throws is thrown, and if it returns nothing it changes nothing.", "quantifier": "all such style parsers, command lines, option sets, styles", "why_tests_cant": "The style parser is code of the program; the one test has one that returns two well-formed options for one token.", "anchors": ["src/cmdline.cpp:cmdline::run", "src/cmdline.cpp:cmdline::finish_option", "src/cmdline.cpp:cmdline::extra_style_parser"]}
{"id": "C143", "title": "Calls of positional_options_description::add only add names, whatever the counts", "statement": "After any calls of add(name, count), also with negative counts, the calls fail only for a second name for all further positions or a negative sum of counts; the i-th positional argument gets the name of the call whose run of positions i is in, or of the call with -1 after all runs; the maximum number is the sum of the counts unless a call had -1; and names given stay as they are when add is called again.", "quantifier": "all sequences of calls with any names and counts, all positions, all command lines", "why_tests_cant": "The tests add three names with counts 1, 1 and -1.", "anchors": ["src/positional_options.cpp:positional_options_description::add", "src/positional_options.cpp:positional_options_description::name_for_position", "src/positional_options.cpp:positional_options_description::max_total_count"]}
{"id": "C144", "title": "A longer abbreviation means the same option", "statement": "With allow_guessing: if a text that is not itself a name of an option is accepted as an abbreviation of one of its long names, every longer beginning of that name, up to the whole name, gives the same option. So there is a shortest abbreviation of a name (if no other name of the same option is a beginning of it): the beginnings of the name that give its option are exactly those that are as long or longer. On a command line an abbreviation can be replaced by a longer one: the command line is accepted or refused as before and means the same. Where letter case does not matter for names it does not matter for abbreviations.", "quantifier": "all descriptions (wildcards included) whose long names do not begin with a dash, all styles with guessing, all names and abbreviations, all surrounding command lines", "why_tests_cant": "Whether a beginning of a name is exact, unique or ambiguous depends on all the other names; wildcards and letter case multiply the combinations.", "anchors": ["src/options_description.cpp:match", "src/options_description.cpp:find_nothrow", "src/cmdline.cpp:finish_option"]}
{"id": "C145", "title": "Configuration files may be put together from parts", "statement": "If a text of whole lines is followed by a text that begins with a section header, the joined file is read exactly if both texts can be read on their own, with the options of the first and then those of the second; otherwise it is refused like the first of them that is refused. The same holds for any number of parts that begin with headers. Parts of which no two set the same name may be put in any order without changing what a store does. Storing the parts one after the other is storing the joined file, if every name that both set belongs to a composing option. A section may be written without its header, with full names, as the documentation says. A header that names the open section may be left out.", "quantifier": "all texts, parts and numbers of parts, all descriptions (wildcards included), both settings of allow_unregistered, all maps", "why_tests_cant": "The prefix is state that is carried from line to line; only an argument over all histories of lines shows that a header makes what follows independent of what came before.", "anchors": ["src/config_file.cpp:get", "src/parsers.cpp:parse_config_file", "src/variables_map.cpp:store"]}
{"id": "C146", "title": "Several threads may ask one exception for its message", "statement": "what() is const: when any number of threads call what() of one exception object, each as often as it likes and in any order of their steps, the program goes on and every text a thread reads through the returned pointer is the message of the exception.", "quantifier": "all exception objects whose what() comes to an end, all numbers of threads and calls, all interleavings of the single reads and writes of the text", "why_tests_cant": "The tests have one thread; they call what() once or twice and compare the text at once.", "anchors": ["src/value_semantic.cpp:error_with_option_name::what", "src/value_semantic.cpp:error_with_option_name::replace_token", "src/value_semantic.cpp:error_with_option_name::substitute_placeholders"]}
{"id": "C147", "title": "Iterators on the environment are forward iterators", "statement": "environment_iterator is a forward iterator, as it is declared: in any program that makes, copies, assigns, advances and compares such iterators, every iterator gives the variables of the environment one after the other from where it was made or copied, name and value split at the first '=', undisturbed by the others; behind the last one it stays at the end; no entry behind the terminating null pointer is touched; and two iterators compare equal exactly if they are at the same variable or both at the end, so an iterator is equal to itself and to its copies.", "quantifier": "all environments, all programs with any number of iterators", "why_tests_cant": "The tests only loop once over the environment through parse_environment; iterators are never copied or compared with anything but the end.", "anchors": ["include/boost/program_options/environment_iterator.hpp:environment_iterator", "include/boost/program_options/eof_iterator.hpp:eof_iterator::equal"]}
{"id": "C148", "title": "Token counts only matter on command lines", "statement": "multitoken(), zero_tokens(), implicit_value(), value_name(), the description, and whether an option without a type takes a value do not matter to configuration files and the environment: two programs whose options differ only in these read any sequence of files, wide files and environments with the same exception or none, the same value under each name, the same final and required options, and the same notifications. A bool_switch() is for these sources a value<bool>() with a default: the same exceptions and the same values, except that false, marked as defaulted, stands where there would be no value.", "quantifier": "all descriptions and pairs of them, all types (with every implicit value), all texts, environments and name mappers, all sequences of sources, all earlier maps", "why_tests_cant": "A program is written with one description; no run of it shows what another one would have done, and the settings can be combined in as many ways as there are options.", "anchors": ["src/parsers.cpp:parse_config_file", "src/parsers.cpp:parse_environment", "src/variables_map.cpp:store", "src/value_semantic.cpp:bool_switch", "example/config_file_types.cpp:set_options"]}
{"id": "C149", "title": "Letter case of a command line does not matter if it is disregarded", "statement": "If the style disregards letter case for long and short options, command lines that differ in letter case only are both accepted or both refused, with exceptions of the same class. The results have the same options in the same order, under the same names (as typed, up to letter case, for unregistered options and options with an asterisk), with the same positions and flags, and with values that differ in letter case only. If only the names differ in letter case, the values are the same, unless a token that looks like an option was taken for a value.", "quantifier": "all descriptions, positional descriptions, styles with case_insensitive and command lines (no style parser and no extra parser)", "why_tests_cant": "Letter case enters at each lookup, and there are six of them, with different flags; a test shows one spelling of one option.", "anchors": ["src/cmdline.cpp:run", "src/cmdline.cpp:finish_option", "src/cmdline.cpp:parse_short_option", "src/options_description.cpp:match"]}
{"id": "C150", "title": "Allowing grouped letters only adds", "statement": "A command line that is accepted without allow_sticky is accepted with it, and the result is the same.", "quantifier": "all descriptions, positional descriptions, styles, extra parsers and command lines, with unregistered options allowed or not (no style parser)", "why_tests_cant": "A group of letters is read in two places: when it is an option, and when the parser looks ahead whether it may be a value. Tests of sticky options only look at the first.", "anchors": ["src/cmdline.cpp:parse_short_option", "src/cmdline.cpp:finish_option", "include/boost/program_options/cmdline.hpp:allow_sticky"]}
{"id": "C151", "title": "A flag of the style matters only to tokens of its form", "statement": "allow_long matters only to tokens --x, allow_dash_for_short and allow_sticky only to -x, allow_slash_for_short only to /x, allow_short and allow_long_disguise only to -x and /x, and the four flags on where values are written to none: two styles that have the same of the flags about some token of a command line, and the same three flags on looking up names, give the same options, or the same exception up to the prefix put before names of options; if both have long options, the prefix is the same too.", "quantifier": "all pairs of styles, all command lines, all descriptions, positional descriptions and additional parsers (without a parser given with extra_style_parser)", "why_tests_cant": "That a flag has no influence is about all pairs of styles and all command lines without tokens of that form, of which there are infinitely many.", "anchors": ["src/cmdline.cpp:cmdline::run", "src/cmdline.cpp:cmdline::parse_long_option", "src/cmdline.cpp:cmdline::parse_short_option", "src/cmdline.cpp:cmdline::parse_dos_option", "src/cmdline.cpp:cmdline::parse_disguised_long_option", "src/cmdline.cpp:cmdline::finish_option"]}
{"id": "C152", "title": "No letter is special to the command line parser", "statement": "If every character of the names in a description, of a positional description and of a command line is replaced, so that different characters stay different and '-', '/', '=' and '*' stay themselves (and pairs of upper and lower case stay pairs, if the style disregards letter case), the parser returns the same options, or the same exception, with the same replacement made in their names, values, original tokens, alternatives and substitutions; additional parsers and extra style parsers may be given, if they do the same. Where letter case matters, these are the only replacements of which this is true for every program.", "quantifier": "all replacements of characters, all styles, descriptions, positional descriptions, extra parsers and command lines", "why_tests_cant": "A special treatment of one letter, digit or name is only seen by a test that happens to use it.", "anchors": ["src/cmdline.cpp:cmdline::run", "src/cmdline.cpp:cmdline::finish_option", "src/options_description.cpp:option_description::match", "src/options_description.cpp:option_description::key", "src/options_description.cpp:options_description::find_nothrow", "src/positional_options.cpp:positional_options_description::name_for_position"]}
{"id": "C153", "title": "No letter is special to configuration files and the environment", "statement": "If every character of the names in a description and of a configuration file is replaced, so that different characters stay different '#', '=', '[', ']', '.', '*' and the line end stay themselves and each of blank, tab and carriage return becomes one of them, the reader returns the same options, or the same exception, with the same replacement made in their names, values, original tokens and substitutions; if wildcards overlap, both files are refused for that reason (the two names in the text may be others, as they depend on the order of the names). These are the only replacements of which this is true for every file. Of the environment it is true exactly if '=', and nothing else, becomes '=', for name mappers that do the same in other letters; the mapper that takes a prefix away does, if pairs of upper and lower case stay pairs.", "quantifier": "all replacements of characters, all descriptions, configuration files, environments, name mappers and prefixes", "why_tests_cant": "A second comment sign, another separator or a reserved section name is only seen by a test that happens to use it.", "anchors": ["src/config_file.cpp:common_config_file_iterator::get", "src/config_file.cpp:common_config_file_iterator::allowed_option", "src/config_file.cpp:common_config_file_iterator::add_option", "src/parsers.cpp:parse_config_file", "src/parsers.cpp:parse_environment"]}
{"id": "C154", "title": "No letter is special to a store", "statement": "If every character of the names in a description, of the options of a source and of the names in a map is replaced, so that different characters stay different and '-', '/' and '*' stay themselves, a store leaves the same map, with the same replacement made in its names, in the names that are final and in the names that are required and how these are displayed; or it leaves the same map and throws the same exception with the same replacement made. It is assumed of the value semantics that they do the same with the replaced texts; options of strings, of lists of strings and of optional strings do.", "quantifier": "all replacements of characters, all descriptions, value semantics, sources and maps", "why_tests_cant": "A special treatment of one name or one letter, for instance in the names of a map, is only seen by a test that happens to use it.", "anchors": ["src/variables_map.cpp:store", "src/options_description.cpp:options_description::find", "src/options_description.cpp:option_description::canonical_display_name", "include/boost/program_options/detail/value_semantic.hpp:validate"]}
{"id": "C155", "title": "No letter is special to the help", "statement": "If every character of the captions, names, parameter names and texts of a description and its groups is replaced, so that exactly the blank becomes a blank, exactly the line end a line end and exactly the tab a tab, and '-', '[', ']' and ':' stay themselves, the help is the help with the same replacement made, for every width; and it is refused, or an assertion fails, for the one if for the other. These are the only replacements of which this is true for every description.", "quantifier": "all replacements of characters (other characters may also become the same), all descriptions with groups, line lengths and widths", "why_tests_cant": "A special treatment of a character, for instance of a hyphen or comma when a line is broken, is only seen by a test with that character in that place.", "anchors": ["src/options_description.cpp:options_description::print", "src/options_description.cpp:format_paragraph", "src/options_description.cpp:format_description", "src/options_description.cpp:format_one", "src/options_description.cpp:options_description::get_option_column_width"]}
{"id": "C156", "title": "No letter is special to the splitters", "statement": "If every character of a command line string is replaced, split_unix gives the arguments with the same replacement made, or fails for the one string if for the other, when exactly its separators, quotes and escape characters become separators, quotes and escape characters of the splitter used for the other string, exactly 'n' becomes 'n' and the line end stays itself. With the default separators, quotes and escape character no other replacement has this property for every string. split_winmain gives the arguments with the same replacement made for every string if and only if exactly the six blanks of isspace become blanks, exactly the double quote a double quote and exactly the backslash a backslash.", "quantifier": "all replacements of characters (different characters may become the same), all strings, all sets of separators, quotes and escape characters (also overlapping ones)", "why_tests_cant": "A special treatment of a character, for instance of a single quote in split_winmain or of a comment sign in split_unix, is only seen by a test with that character in that place.", "anchors": ["src/split.cpp:split_unix", "src/winmain.cpp:split_winmain"]}
{"id": "C157", "title": "What the example program about the types in configuration files shows", "statement": "In example/config_file_types.cpp, parse_file returns normally for a text if and only if the text is a well-formed configuration file, gives none of the 31 options twice, and every value can be read as the type of its option; and it returns the names and values that are not declared, in their order. The program gets to its end without a failed assertion if and only if in addition the values are those that it asserts, where a switch that is expected to be off may be missing. Run on the file that it makes itself, whether it gets to its end depends only on lexical_cast and the comparison for the fourteen numbers. With any further line that has no '=', '[' or '#' and is not blank it does not get to its end.", "quantifier": "all texts of the file, all lexical_cast functions, all comparisons of numbers with the literals of the program", "why_tests_cant": "The program is itself a test of one file; what it would accept instead, and what its passing says about the library, is a statement about all files.", "anchors": ["example/config_file_types.cpp:parse_file", "example/config_file_types.cpp:check_results", "src/config_file.cpp:getline"]}
{"id": "C158", "title": "Exactly the command lines with which the quick test passes", "statement": "test/quick.cpp, which has one option --path, -p for a text, returns 0 if and only if its command line gives the option exactly once with the value 'initial', and returns 1 for every other command line; no exception gets out of it and nothing is undefined. A command line gives the option a value as --n=v, as --n followed by an argument v, as -pv, or as -p followed by an argument v, where n is a non-empty prefix of 'path' or '-p' with its dash, and a v that is the next argument is neither '-p' nor of the form --x= with no other equal sign. Besides, it may have arguments that do not start with a dash, a single dash, nameless --=v, and anything after --. Every other argument is an error.", "quantifier": "all command lines with fewer than 2^31 arguments, all lexical_cast functions", "why_tests_cant": "The build runs the test program with one command line; which others would pass, abbreviated or with the dashes in odd places, is a statement about infinitely many.", "anchors": ["test/quick.cpp:main", "src/cmdline.cpp:finish_option", "src/cmdline.cpp:parse_long_option"]}
{"id": "C159", "title": "No letter is special to notify, only the order of the letters shows", "statement": "If two maps that stores have left are the same in other letters (every character of the names replaced, different characters staying different), then either notify returns for both and assigns the same variables and calls the same functions the same number of times with the same values in other letters, maybe in another order; or it throws required_option for both, for an option that is required and missing; or it fails for both while values are passed on. If the replacement keeps the order of the characters, the order of the assignments and calls, the exception and the option it names are the same; no other replacement keeps the order for all maps. Hence a program that reads a command line, stores it and calls notify does the same in other letters, up to this order.", "quantifier": "all replacements of characters, all maps that stores leave, all command lines and descriptions", "why_tests_cant": "It relates runs with all names and letters; a test has fixed names.", "anchors": ["src/variables_map.cpp:notify", "src/variables_map.cpp:store"]}
{"id": "C160", "title": "Prefixes of an accepted command line", "statement": "If a command line is accepted, each of its prefixes is accepted too, with the first of the options of the result, the last of which may have fewer values; or the prefix is refused because a value is missing, and then it is accepted with some more tokens of the command line, which are these values. Hence a command line that is refused for any other reason stays refused whatever is appended, and with the same exception if that is about a token and no name is ambiguous.", "quantifier": "all descriptions, styles and additional parsers, all command lines with fewer than 2^31 characters; no extra style parser", "why_tests_cant": "It is about every way to cut or to continue a command line.", "anchors": ["src/cmdline.cpp:run", "src/cmdline.cpp:finish_option"]}
{"id": "C161", "title": "Configuration files that are cut off", "statement": "If a configuration file is accepted, each beginning of it that ends with a line end is accepted, with the first of its options; what makes whole lines refused makes every continuation refused with the same exception. Both hold for wide files in UTF-8, too. If an accepted file is cut off anywhere, in a line that does not begin with a bracket, what is left is accepted with the first of the options, of which the last may lack the end of its value, or its last line has lost its equality sign and it is refused as an unrecognized line. (A line that begins with a bracket may be cut to something else: the first two characters of the file '[]=1', which can be accepted, are undefined behaviour.)", "quantifier": "all descriptions, all texts, all places to cut them, unregistered options allowed or not", "why_tests_cant": "It is about every place at which every text can be cut or continued.", "anchors": ["src/config_file.cpp:get", "src/config_file.cpp:trim_ws", "src/parsers.cpp:parse_config_file"]}
{"id": "C162", "title": "Storing the first options of a source", "statement": "If store accepts a source, it accepts the first options of it alone, however many: every name that the other options do not set gets the same record, no name becomes final that would not with the whole source, and the same options are required. If the first options alone are refused, the whole source is refused with the same exception and leaves the same map. Hence each beginning of a configuration file that can be read and stored, up to a line end, can be read and stored, and a complaint of store about whole lines remains whatever comes after them, if that can be read.", "quantifier": "all sources, descriptions with arbitrary value semantics, maps before; all configuration files and all line ends in them", "why_tests_cant": "It is about all sources and all places to cut them, for arbitrary value semantics.", "anchors": ["src/variables_map.cpp:store", "src/parsers.cpp:parse_config_file"]}
{"id": "C163", "title": "Command lines that are cut off, when options take a fixed number of values", "statement": "If every declared option takes a fixed number of values (one value, or none), each beginning of an accepted command line is accepted with exactly the first of the options of the result, or only values at its end are missing, which are the next tokens. If the command line can also be stored, so can the beginning that is accepted, and names that the rest does not set have the same record. A complaint of store about the beginning remains, with the same map left, however the command line goes on, as long as that is accepted. (With an option for any number of values the options need not be the same.)", "quantifier": "all descriptions with arbitrary value semantics for which max_tokens is at most min_tokens, styles, additional parsers, maps before, all command lines with fewer than 2^31 characters; no extra style parser", "why_tests_cant": "It is about every way to cut or to continue a command line.", "anchors": ["src/cmdline.cpp:run", "src/cmdline.cpp:finish_option", "src/variables_map.cpp:store"]}
{"id": "C164", "title": "Leaving names out of a source", "statement": "If store accepts a source, it accepts what is left when all options of certain names are left out: every other name gets the same record and becomes final or not as before, the names left out keep their record or get a default as if nothing had been said about them, and the same options are required; a variable bound to an option of one of the other names is assigned the same. In a configuration file this may be done by deleting the lines that set these names, in an environment by unsetting the variables that stand for them: the file or environment is still read, and the result is without the options of these names. On a command line without positional options declared, options by name that stand together and occur nowhere else may be deleted with their values, provided that neither they nor the arguments in front of them end in an option that could take more values.", "quantifier": "all sources, descriptions with arbitrary value semantics, maps before and sets of names; all configuration files of whole lines, environments and name mappers", "why_tests_cant": "It is about all sources and all sets of names.", "anchors": ["src/variables_map.cpp:store", "src/config_file.cpp:get", "src/parsers.cpp:parse_environment"]}
