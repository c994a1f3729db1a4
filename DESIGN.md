# Formal model of boost::program_options — design

Source: `/repo` (boostorg/program_options, pinned commit), read as text. Everything in `/verif/lean` is Lean 4 (4.33.0).

## Layout

* `lean/Verif/Model/*.lean` — the model, function by function; every definition cites file and lines.
  * `Str`: the operations of `std::string`, `std::set<string>`, `std::map<string, T>` that the code uses.
  * `Err`: exceptions, their substitutions and messages.
  * `Value`: value semantics, validators, `typed_value`, `bool_switch`, `untyped_value`.
  * `Desc`: option descriptions, name matching, lookup, groups.
  * `Positional`, `Cmdline`: positional descriptions, the command line parser.
  * `Parsers`: the front ends: command line, `collect_unrecognized`, configuration files, environment, wide results.
  * `VarMap`: `store`, `notify`, chained lookup.
  * `Split`: `split_unix`, `split_winmain`. `Convert`: character conversion. `Format`: help output.
* `lean/Verif/Spec/*.lean` — specifications, independent of the model's helper functions.
* `lean/Verif/Lemmas/*.lean` — lemmas.
* `lean/Verif/Props/*.lean` — the theorems `Cnn_...`, each with non-trivial `example`s beside it.
* `lean/Verif/Tests/*.lean` — the project's own unit tests transcribed as `#guard`s on the model. They are evidence that
  the model matches the code. They are tests, not proofs, and are not claimed as such.
* `properties.jsonl` (written by `tools/props.py`), `MANIFEST.json` (by `tools/manifest.py` from the theorem names and
  `tools/status.json`), `AXIOMS.txt` (by `tools/axioms.py`).
* `tools/cites.py` — checks the citations: the files exist, the ranges lie in them, and a range cited for a name lies in the function of that name
  (it reports one table that is not a function; line drift inside a function it does not see).
* `seeded/` — mutation testing: `mutations.json` (the edits), `LOG.jsonl` (what happened), `tools/mutate.py` (how).

## Representation

* `std::string` is `List Char`; a byte b is the character with code b, so that the lexicographic order on codes is the
  order of `std::string::compare` (unsigned bytes). Theorems hold for all `Char`.
* Locale: the "C" locale. `tolower` is ASCII lower-casing; bytes >= 0x80 are unchanged.
* `unsigned`/`size_t` are `Nat` unless wrap-around matters (then it is modelled and said so: `can_take_more`).
* Results are `Except Fail α`. `Fail` distinguishes the library's exceptions, other std exceptions, *undefined behaviour or
  a failed assertion* (`Fail.ub`, with the place) and *not finished within the fuel* (`Fail.fuel`). Neither is ever turned
  into a normal result.
* Functions that leave a state behind when they throw (`store`, validators) return the state and the exception.
* `std::set`/`std::map` are sorted association lists with the real `lower_bound`/`insert` semantics.
* `value_semantic` is a record of functions (the virtual methods), so that parsing and storing theorems hold for *every*
  user-defined semantic; `untyped_value`, `typed_value<T>`, `bool_switch` are instances.
* `boost::any` is `Option AVal`; typed payloads are bool, string, wide string, a `lexical_cast` scalar (the cast itself is
  an arbitrary parameter), vectors and optionals of those.
* User functions (additional parser, style parser, notifiers, name mappers) are arbitrary total functions; a notifier is
  an event in a trace.

## Trusted base

* The Lean 4.33 kernel. Axioms: at most `propext`, `Classical.choice`, `Quot.sound`; `AXIOMS.txt` has them per theorem.
  No own axioms, no `sorry`, no `native_decide`, no `bv_decide`.
* The reading of C++ into the model (checked against the project's unit tests by the `#guard`s in `Verif/Tests`).
* Code outside /repo, modelled from its documentation and from memory: `boost::tokenizer` with `escaped_list_separator`
  (`split_unix`), `boost::detail::utf8_codecvt_facet`, iostreams `getline`, `boost::any`; `boost::lexical_cast` and the
  locale's `codecvt` are arbitrary parameters.

### Modelled

| file | what |
|------|------|
| src/cmdline.cpp | all: style check, the style parsers, what is left in `m_args`, `finish_option`, both passes, positions, names, case flags |
| src/config_file.cpp | constructor, `add_option`, `get`, `allowed_option`, trimming; `getline` as splitting the whole text |
| src/parsers.cpp | `parse_config_file` (stream, wide stream and file name), `parse_environment`, conversion to wide results |
| include/.../detail/parsers.hpp | the command line parser front end, `parse_command_line`, `collect_unrecognized` |
| src/options_description.cpp | names, matching, lookup, groups, all of the help output |
| src/positional_options.cpp | all |
| src/value_semantic.cpp, detail/value_semantic.hpp, value_semantic.hpp | validators, `typed_value`, exceptions, `what()` |
| src/variables_map.cpp, variables_map.hpp | `store`, `notify`, `clear`, chained lookup, `as`, `empty` |
| src/convert.cpp | `convert`, `from_utf8`, `to_utf8` |
| src/split.cpp, src/winmain.cpp | all |
| errors.hpp | exception classes and their templates |

### Not modelled, and simplifications

* Copying of exceptions, thread safety, memory exhaustion. Object lifetime is modelled on its own (`Model/Lifetime`, C125); the main model has
  values in place of pointers.
* Sizes: token counts and string lengths are assumed to fit their C++ types; where an `int` or `unsigned` conversion
  could be reached with a large but possible value the theorem carries a bound (for instance `args.length < 2^31`).
* Style values are non-negative. `m_desc` is not null (the code asserts it). The chain `m_next` is not cyclic.
* A string from `argv` or `environ` has no NUL; the model does not truncate.
* The main model takes `tolower` of a byte >= 0x80 (and of a `wchar_t` above 255 in the wide `bool` validator) to change
  nothing, as it usually does; formally it can be undefined. `Model/Ctype` and C124 say exactly when.
* `parse_config_file` by file name is modelled for narrow files; the wide one reads through the locale of a `std::wifstream`.
* `value<std::wstring, char>`: the model refuses every value (the real one goes through `lexical_cast`).
* `OptErr.what` returns `none` both for non-termination and for a style code unknown to `get_canonical_option_prefix`
  (a `logic_error`); the parser never makes the latter.
* The macro configuration is the usual one: wide strings, `std::optional`, templated iterator constructors.

## Disagreements between property and code

Each of these is proved: the negation with a concrete witness (`_negation`), what does hold (`_partial`).

| id | what the code does |
|----|--------------------|
| C04 | With case-insensitive short names an option with both a long and a short name is found by its short name only if long names are case-insensitive too (`foo,F` and `-F`). Exactly when: `C04_lost_iff`. |
| C16 | `long_allow_adjacent`, `long_allow_next`, `short_allow_adjacent`, `short_allow_next` are only checked for coherence; no parsing function looks at them. |
| C21 | `original_tokens[0]` of an empty vector is read when the reported name of a switch in a group is ambiguous (`foo,f` and `foo,g` with `-fg`). An option declared `,foo` is reported with an empty name and trips an assertion. |
| C22 | An option with an implicit value takes a following token that on its own would be positional. |
| C23 | `--=x` has an empty name and becomes the positional argument `x`; so does `-=x` as a disguised long option. |
| C27 | The line `[]` reads the last character of an empty string. |
| C30 | The error about overlapping wildcards can name the wrong neighbour (`0*`, `a!*`, `a*`). |
| C31 | Only the first long name of an option is accepted in a configuration file. Exactly when: `C31_accepted_iff`. |
| C37 | A failing store leaves earlier options of the same source in the map, and an empty entry for the failing one, which hides a later default. |
| C44 | A repeated option with an implicit value is accepted when the later occurrence has no value; `--v=3 --v` silently loses 3. Exactly when: `C44_exact`, `C44_stored`. |
| C47 | `what()` does not terminate if a substituted text contains its own placeholder (`--x%canonical_option%`). Nor if no text does, but the replacement makes the placeholder anew: with an option `D*` for numbers, `--D%%value%=value%%value` (`C47_negation_growing`). |
| C48 | Placeholders in user text are substituted again (`%prefix%` in an option name). |
| C55 | The precondition checked by the constructor does not exclude a minimum description length of 0 or 1, nor a group with a smaller line length, nor the indentation of nested groups; all fail assertions while printing. |
| C59 | With an implicit value, an occurrence without a value replaces everything accumulated by a composing option. Exactly when: `C59_exact`; in a store: `C59_stored`. |
| C69 | The validator of `wvalue<std::string>` stores a `std::wstring`: `as<std::string>()` throws `bad_any_cast`, and `notify` dereferences a null pointer if a variable or notifier is set. |
| C72 | With `allow_unregistered` the wide command line `-é` is cut between the two octets of `é`; converting the result back throws `std::logic_error` ("character conversion failed"). The same happens for a declared option whose letter is the first octet of a multi-octet character. |
| C75 | With the options `foo*` and `foobar`, `--foob=1` is read as `foo*` without guessing, and is `ambiguous_option` with guessing: a wildcard match is only approximate, and guessing adds a second approximate match. |
| C89 | what `collect_unrecognized` returns can hold options that were recognised: `--` is not in it, so that `-- --verbose` is passed on as `--verbose`; and a group `-vx` with known `-v` and unknown `-x` is passed on as a whole, so that both readers see `-v` |
| C92 | `parse_config_file` for a stream takes a failure of the stream for the end of the file; only the overload with a file name looks at `bad()` |
| C93 | `config_file_iterator` is declared with `forward_traversal_tag`, but copies share the stream: what one has read the other cannot visit, and a section header seen by one is not known to the other |
| C94 | an implicit value with an empty text is not shown (`typed_value::name` tests the text), so the help asks for an argument that may be left out; the same for `zero_tokens()` with `multitoken()` |
| C95 | a line of a configuration file that contains `%invalid_line%` and is refused makes `what()` loop forever |
| C97 | with guessing, which is in the default style, `--fo=1` abbreviates `foo*`; the parser reports it as registered option `fo`, for which `store` throws `unknown_option`. The same for a member of a family written in another case, with case-insensitive long names |
| C99 | `cmdline::run` consumes `m_args`: a second `run()` of the same parser returns no options at all after a success, and after an exception parses only what follows the refused option. A refused disguised option `-name=` stays in `m_args` rewritten to `--name=`, and without `allow_long` the next `run()` accepts that as positional argument |
| C100 | `store` uses the name as the parser reports it, and the environment parser and `positional_options_description` do not translate another name of an option to its first one: with `output,out` declared, `APP_OUT=x` is stored under `out`, `vm["output"]` has the default, and `notify` reports a required `output` as missing. In a configuration file this happens if the other name falls into a declared family |
| C101 | The prefix mapper turns the whole name to lower case and the store looks it up case-sensitively: an option `logLevel` cannot be set by any environment variable |
| C102 | `o.add(o)` copies `o` into `groups` and then reads and extends the same vector: with at least one option the loop never ends (`C102_itself`; in reality until memory is used up; the parameter of the inner `add` is a copy, so the reallocation itself is safe) |
| C103 | options_description.hpp documents `duplicate_variable_error` for a name that is already present; `add` does not compare names and no exception of that name exists (`duplicate_option_error` does and is never thrown). The clash shows only when the name is used, as `ambiguous_option` |
| C115 | `detail::convert` takes a round that completes no character for an incomplete text, and any other end for a complete one. So half a character at the end is dropped without a complaint (`C115_cut_off`), unless the characters before it just fill the buffer of 32; and a complete text that ends with a shift sequence is refused if the characters before it fill the buffer, or if there are none (`C115_only_shifts`). Exactly when: `C115_iff`, `C115_failure`. |
| C124 | Where `char` is signed, `tolower(s[i])` is called with a negative number other than EOF for every byte from 0x80 to 0xfe (`C124_not`): a boolean value, an option looked up without regard to case (token or any declared name reached), an environment variable after its prefix. The wide boolean validator calls the narrow `tolower` with characters above 255. Only `split_winmain` converts to `unsigned char`. Exactly when: `C124_lookup_iff`, `C124_bool`, `C124_wide_bool`, `C124_prefix`. |
| C127 | A tab at the last position of the first line is not ignored: the other lines get one column each. Nor is a tab in a word that the wrap moves to the second line, if it is less than the line length from the beginning of the paragraph (`C127_not`). With assertions, a tab further on is a failed assertion in place of being ignored (`C127_debug_iff`). |
| C129 | doc/howto.xml: the additional parser "will be called on each command line element, before any processing by the library". The tokens behind `--` are not shown to it (`C129_not`). |
| C130 | doc/howto.xml: with allow_unregistered, "for each token that looks like an option, but does not have a known name" an instance is added. `--out --level`, with `--level` unknown, gives `--level` to `--out` as its value (`C130_not`); in `-vx` with a known switch `-v` the option `-x` is reported with the token `-vx`. Exactly when: `C130_iff`. |
| C131 | Expected of `notify` ("runs all notify functions", variables_map.hpp): after it every option in the map has been told its value. If the notifier of `config` stores a configuration file, the options whose names come before `config` are in the map but never told (`C131_not`, `C131_late`); calling `notify` there again never ends (`C131_recursion`). Exactly when: `C131_iff`. |
| C132 | `default_value(v)` and `implicit_value(v)` assign the value before making its text: if `operator<<` fails, `bad_lexical_cast` is thrown, the value is used nevertheless, and the help shows the text of the value before it, or none (`C132_negation`, `C132_stale`). |
| C135 | "ugly placeholders are never left in-place" (errors.hpp:79-80): they are if the exception is not told of a parameter and the template does not have the wording of its default: `error_with_option_name("bad %value%")` says `bad %value%`; so does `invalid_command_line_syntax(unrecognized_line)` with `%invalid_line%` (`C135_negation`, `C135_library`). |
| C138 | `variables_map local(&base); … base = local;` links `base` to itself, since assignment copies `m_next`: `base[name]` then calls itself for ever for each name without an explicit value (`C138_negation_circle`, `C138_assign_circle`). A map others are linked to must outlive them, also copies of them; the documentation does not say so (`C138_negation`). |
| C139 | `vm.erase("name")` leaves the name in `m_final`: a later source that mentions it is not heard (and not checked), and the name stays without a value (`C139_negation`, `C139_given_anew_iff`). `a.swap(b)` is that of `std::map` and leaves `m_final` and `m_required` where they were: a value that came over is in the way of the next source that mentions it (`multiple_occurrences`), while the other map ignores the name (`C139_swap_negation`, `C139_swap_heard`). |
| C140 | `what()` is const but assigns to the mutable `m_message`: `const char* p = e.what(); e.what();` leaves `p` pointing into a string that was assigned to, though the standard's exceptions keep it valid until a non-const member function is called (`C140_negation`); also `f(e.what(), e.what())`, and two handlers or threads that share the exception. |
| C141 | `std::cout << std::setw(10) << desc` pads the caption, or the left column of the first option, and nothing else: the operators `print` calls use the field of the stream it is given (`C141_negation`). |
| C142 | A style parser can give an option more values than it is declared to take: `finish_option` checks the maximum only if that is 0 (`C142_negation`). A style parser that returns a positional argument with two values fails an assertion if that comes after an option that takes many values (`C142_ub_negation`). |
| C143 | `add` with a count below -1 takes names of earlier calls away: `m_names.resize` gets a smaller size (`C143_negation`). A call after the one with -1 is accepted unless it also has -1, although "no calls to 'add' can be made" then (`C143_after_endless`). |
| C146 | `what()` is const but writes `m_message`, without a lock: two threads that ask the same exception (as with `std::exception_ptr`) can read a text in the making (`C146_negation`), and `m_message.replace` can get a position behind the end and throw in a function that must not (`C146_ends`). |
| C147 | `eof_iterator::equal` is true only if both iterators are at the end: an iterator at a variable is not equal to itself nor to its copy, though `eof_iterator` is declared with `forward_traversal_tag`. Algorithms that compare two positions in the middle do not work with it; the loops of the library only compare with the end. The same function is used by `config_file_iterator`. |
| C149 | `parse_short_option` looks up the letter with `short_case_insensitive` but without `long_case_insensitive` (src/cmdline.cpp:571-572), and `match` only folds what was typed if the latter is set (C04). With `case_insensitive`, `-ab` is two switches and `-AB` is refused (`-A` takes `B` for its argument), though `-A` and `-B` alone are accepted. |
| C150 | Options `foo,f` (with a value), `all,a`, `bar,b` and `baz,b`: without `allow_sticky`, `-f -ab` gives `foo` the value `-ab`. With it the command line is refused: before `-ab` is taken for a value, it is read as a group (src/cmdline.cpp:467-489), and `-b` is ambiguous. |
| C136 | Not a disagreement with a statement of the documentation, but a gap: the constructor of `command_line_parser` from a vector does not initialise `m_desc`, so `run` without `options` reads an indeterminate pointer; that from `argc`, `argv` leads to a failed assertion instead (`C136_without`). |

Further quirks that the model keeps, visible in the theorems' hypotheses or in the grammar of C61 and C63:

* `foo*` in a configuration file does not allow `foo` itself (C28).
* The lookahead that protects an option from being taken as a value only knows the raw token, so `--bar --foo` gives `--foo`
  as a value when there is no option *called* `--foo`, `--` can be taken as a value, and a following `--x=` is an error even
  where a value is wanted (C61: `Takeable`, C63: `Stuck`).
* Rewriting a disguised option changes its recorded token, and an additional parser's option has none (C11).
* A style parser that drops a token without returning options makes the lookahead read an empty vector; one that
  lengthens the tokens diverges (C10).
* `positional_options_description::add` after a trailing -1 is refused only for another -1; negative counts are accepted (C07).
* The description column of a group inside another counts like a left column, so each level of nesting moves all descriptions one
  column to the right (C81: `Column`).
* An undeclared option from a source without tokens, such as the environment, is refused with the message `unrecognised option`, which
  does not say which option it is (C83_unknown).
* A wrong boolean is quoted in lower case, not as given (C82: `Rejects`).
* `wvalue<std::string>` stores a `std::wstring`; `woption` conversion drops `case_insensitive`.

## Per property

| id | model | proof |
|----|-------|-------|
| C01 | `findNothrow`, `matchName` | against a Prop-level specification of exact and approximate matches |
| C02 | same | permutation invariance of the candidate filters |
| C03, C04 | `matchName` with case flags | equality of folded names; C04: witness and partial |
| C05 | `setNames` | round trip by induction on the names |
| C06 | `Cmdline.run` | invariant through both passes |
| C07 | `Positional` | induction over runs |
| C08 | end of `run` | induction over the options; also against the declared runs of C07 |
| C09 | `checkStyle` | decision lemma on bits |
| C10 | `run` with fuel | each round shortens the tokens |
| C11 | `run` | tokens are conserved by each parser and both passes |
| C12 | `run` | the first pass composes; what follows the terminator is never absorbed |
| C13–C15 | `run` | both spellings simulate each other, in every context |
| C16 | `run` | false: independence of the bits is proved |
| C17–C20 | `run` | invariants; C20 by congruence |
| C21 | `run` with explicit UB | exactly when there is UB (`C21_undefined_iff`, from C63); for all option sets `C21_undefined_all_iff`, `C21_all_partial` |
| C22, C23 | `run` | witnesses and partials; `C22_exact` (Props/Implicit): exactly when an option with an implicit value takes the next token; `C23_positional_exact`, `C23_token_iff` (Props/Exact2): exactly which tokens spelled like long options become positional |
| C24–C31 | `ConfigIter` | line-wise lemmas, round trip, invariants of the sorted sets |
| C32 | environment | induction over the entries |
| C33–C37, C41 | `store` | invariants over histories of stores |
| C38–C40 | `notify`, chained lookup | induction over the maps |
| C42–C46 | validators, builder methods | decision lemmas; C46 end to end |
| C47–C49 | `what` | fuel semantics of `replace_token`; message texts; Props/MessageLoops: exactly which values (`C47_value_iff`) and tokens (`C47_unknown_iff`, `C48_unknown_iff`) make `what()` loop or are quoted as typed; Props/MessageGrows: messages that grow for ever (`C47_grows`, by induction over the replacements) |
| C50, C51 | `split_unix`, `split_winmain` | round trips by induction |
| C52–C55, C60 | help output | structural induction; wrapping against a specification of lines |
| C56, C57 | `convert`, UTF-8 | independence of the buffer, for any facet that implements a codec (`C56_chunks`, `C56_failure`) and for the UTF-8 facet (`C56_utf8`, `C56_buffer`); arithmetic |
| C58 | composition | from the parser and store theorems |
| C59 | `store`, `xparse` | witness and partial |
| C61 | `run` | equivalence with an inductive grammar (`Spec/Grammar.lean`): `Spells`, `Plain`, `Completes`, `Reads`, `Gathers`, `Labels`; `C61_grammar_all` also for options reported without a name (`Spec/GrammarAll.lean`: what is taken must have one value and one token), for command lines of less than 2^31 characters |
| C62 | `run` | from the grammar |
| C63 | `run` | equivalence of failure with inductive rules (`Spec/Refusal.lean`): `Malformed`, `Stuck`, `Breaks`, `Clashes`, `Refused`; `C63_refused_all`, `C63_all_cases` for all option sets (`ClashesAll` has the two assertions of the second pass) |
| C64 | `parse_config_file`, `get`, `add_option`, `allowed_option` | equivalence of success and failure with an inductive grammar of lines (`Spec/ConfigGrammar.lean`): `FileLines`, `BadLines`, `OverlapReported`, `FileRefused`; gives exact versions of C27 (`C27_undefined_iff`) and C30 (`C30_message`, `C30_reported`) |
| C65 | `store` | equivalences with `AllYield` / `FirstFault` (`Spec/StoreGrammar.lean`), by splitting the loop at the first failing option; `C65_failed_state` also gives the exact version of C37 |
| C66 | `store` | from C65: the result of each name depends on its occurrences only; ordered containers are equal if they agree on every key |
| C67 | `store` | from C65; `C67_display_differs` shows why display names have to be alike for `m_required` |
| C68 | `store` | from C65; all names of the source are final after the first store |
| C69 | `store`, `validate`, `as`, `notify` | invariant of the records (`FitsType`) kept by every store for semantics that keep a type (`Keeps`); false for `wvalue<std::string>`; exactly for it, and for it exactly for values read from words (`C69_iff`, `C69_exact`, `C69_notify_exact`) |
| C70 | `run`, `store` | `Spec/Mention`: the names that tokens can bring up; all lookups agree on these, and every name looked up is one of these (`Agrees`), so the runs are equal |
| C71 | `run` | `Spec/Verbatim`; by induction on the derivations of C61's grammar: every rule quotes the tokens it consumes |
| C72 | `wparse`, `toWide` | `Spec/Wide`; the UTF-8 text of a wide string can be cut only at an ASCII character (`utf8Text_split`), every quotation of C71 is such a cut if the letters are ASCII; false in general; exactly when a value begins inside a character (`C72_iff`, with `C86_decoded`) |
| C73 | `wparseConfigFile` | lines, white space, `=`, `#` and brackets are ASCII, so that everything cut out of an encoded line is encoded (`Encoded`) |
| C74 | `run` with `allowUnregistered` on and off | relation `Stricter` between the two runs, kept up by every pass |
| C75 | `run` with `allow_guessing` on and off | on tame names guessing only adds candidates where there was no candidate; false in general (`foo*` against `foobar`); C75_iff: exactly the command lines with a reported name that is tempting (no declared name, but the beginning of one it is no family member of) are changed |
| C76 | `run` of `a ++ b` | by the grammar C61: `Reads`, `Gathers` and `Labels` of the two are put one after the other; the border condition is what `Gathers.take` needs; `C76_stored` with `C104_one_or_two`, `C76_not_composing` shows that its condition is needed; `C76_positional` (`Spec.Moved`) and `C76_positional_stored` for names by position |
| C77 | `splitUnix` | `Spec/Split.UnixLine`, a grammar of pieces, fields and lines; the tokenizer follows each piece, and every line is in the language or has a bad escape |
| C78 | `splitWinmain` | `Spec/Split.WinReads`; the flag `empty_quote` is right because an argument without text ends in a closing quote |
| C79 | `wsplitUnix`, `wsplitWinmain` | octets of a character outside ASCII are ordinary characters to both splitters |
| C80 | `Cmdline.run`, `OptErr.what` | by the rules of C63 names and tokens in the exception are free of `%`; then C48/C49 give the text, and `canonicalName` is computed by cases of the style (`Tells`) |
| C81 | `OptionsDesc.print`, `columnWidth`, `formatParagraph`, `TypedValue.name` | each function against an inductive relation of its own (`Line`, `Lines`, `Paragraph`, `Entry`, `Column`, `Shown`), both directions |
| C82 | `TypedValue.toSemantic`, `untypedValue` | inductive rules `Takes` and `Refuses` on the texts that arrive (`Arrives`); both directions, once for narrow and wide characters, by cases of the type |
| C83 | `store`, `OptErr.what` | by C65 and C82 every exception is an `objection` with name and token added; then C48/C49 give the text, the displayed name is computed by cases of the style; C83_command_line and C83_other_sources tie that style to the parser the result comes from |
| C84 | `Cmdline.run`, `splitWinmain` | a derivation in the grammar of C61 is built by induction on the settings; nothing after the terminator can be taken by an option before it |
| C85 | `store`, all three parsers | C65 describes the result of a store by the values of each name only; C84, C26 and C32 give these for the three sources. The `required` record may differ, as display names depend on the style (C67) |
| C86 | `fromUtf8`, `toUtf8` (with the facet of Boost.Detail, which is not in /repo; modelled after its documentation) | the coding is specified by arithmetic (`Spec.Coded`: lead bits plus high part, six bits per further octet); the facet's step is shown to read exactly one such code, and C56 lifts this over the chunks. Overlong codes (C0 80) and surrogates are read without complaint, which the examples record |
| C87 | `store`, `wstore`, `Parsed.toWide`, `TypedValue.parse` | C65 reduces a store to the options' parsers, C82 describes these; the wide options and the UTF-8 text that is actually stored are related by the decoding done in `woption_from_option` |
| C88 | `Cmdline.parse`, `store`, `VarMap.notify` | induction over the records of the sorted map; every record belongs to a declared option (C65). Together with C84 and C87 this is a theorem about a whole program |
| C89 | `Cmdline.run`, `collectUnrecognized` | the grammar of C61: a command line is cut into pieces that are read on their own (an option with everything it takes, or one token); the pieces of either kind can be put together again, since what is left out cannot be taken as value. Partial: false for the terminator and for groups of short options. Exactly when (`C89_iff`, with `Spec/Forward`): no group is mixed and no argument behind the terminator needs it; the reading of a command line is unique from its beginning on (`Front.det`), the blocks that end in a known option are all that is read again, and counting options shows that nothing else was recognised |
| C90 | `Cmdline.run`, `collectUnrecognized`, `store` | the grammar of C61 for both programs; a store skips unregistered options and unnamed arguments |
| C91 | the same functions a second time, in Model/Raw.lean and Model/RawText.lean: indices instead of patterns, `operator[]`, `substr`, `erase`, `begin() + n`, `*it` and unsigned `-` each a check that fails if out of range. Not checked there: `--can_take_more` as `int` (needs 2^31 tokens); the column of the help is taken from the list model; a failed assertion is not an access | refinement: each checked function equals the image of the list function, by induction along the loops with the index as invariant; then C21 and C27 say when; `C91_run_out_of_range_all` without the hypothesis that no option is nameless |
| C92 | Model/Stream.lean: `IStream` (characters to come, failure of the stream buffer, eofbit, failbit, badbit), `getline`, the iterator with its members `m_at_eof`, `m_value`, `m_prefix` (`CfIter.get`, overwriting `m_value` in place), `copy`, `readConfigFile`, `readConfigFileNamed`, `EnvIter`. Not modelled: a stream with exceptions enabled, and what an iterator is after an exception | refinement: the lines got from the stream, the loop of `get` and the loop of `copy` by induction on the characters to come; then equal to the batch reader. Partial: the overload for streams reports no failure (`C92_negation`); its caller can ask the stream (`C92_broken_stream`) |
| C93 | `CfIter.get` on a shared stream | false in the code: copies share the stream and do not share `m_prefix` (`C93_negation`, `C93_negation_section`). Exact form: `C93_copies` says what any interleaving of copies is handed out, with sections (`Spec.TakeTurns`: each reader has its own section); `C93_values`: the values come in order, each once; `C93_alone`: a single iterator gets the options of the file. Partial: without section headers each option is handed out exactly once, in order, whichever copy is advanced; induction on the turns |
| C94 | (exactly when: `C94_iff`, `C94_short_iff`) `OptionDesc.formatName`, `OptionDesc.formatParameter`, `TypedValue.name`, `minTokens`, `maxTokens`, `untypedValue`, `Cmdline.run` | from the grammars of accepted and refused command lines (C61, C63): the shown argument is related to the token bounds by cases on the declaration, then one derivation per way of writing. Partial: false for an implicit value whose text is empty (`C94_negation`) and for `zero_tokens` with `multitoken` (`C94_negation_zero`), and a `value_name` may itself start with a bracket; for the short name without disguised long options |
| C95 | `parseConfigFile`, `VarMap.notify`, `OptErr.what` | the refusals of C64 and C38, with the text of C48. Partial: for texts without percent signs. `C95_line_returns` says exactly for which lines `what()` returns: those without `%invalid_line%`; the others make it loop forever (`C95_negation`). `C95_line_iff`: exactly which lines are quoted as they are, `C95_file_iff` and `C95_fault_iff`: the same for whole files, both directions, except names with `%option%` in them |
| C96 | `Cmdline.parse`, `store` | `Spec/NormalForm`. The settings of C84 are read back as they are; stores that agree name by name on what the option makes of the occurrences agree (`store_congr`); several values of one occurrence are like several occurrences with one value each, by induction on `Gets` (for options that keep a single value, both are refused). `C96_normal_form` has expressibility as hypothesis, `C96_regular` derives it from the declarations (C06, C08, C18). An `example` shows that empty values have to be excluded |
| C97 | `Cmdline.parse`, `parseConfigFile`, `store` | `Spec/Known`. The reported name of an option is looked up again by the store, exactly and case-sensitively: for first long names and short names it finds the option itself, for members of a family the same flags have to be used. Partial for command lines (wildcards with guessing or case folding), complete for configuration files. `C97_iff`: exactly which command lines. `C97_clash`, `C97_positional` show that the other conditions are needed |
| C98 | `Cmdline.run` | `Spec/Interchange`. `finish_option` uses the given name only to find the option and for the reported key; the rest follows as for C13. `C98_letter_case` also covers unknown and ambiguous names; `C98_family_case`: members of a wildcard family keep the letter case they are typed in, so there it matters |
| C99 | Model/CmdlineState.lean: the parser as an object with `m_args`; every function also returns what is left of the vector when it throws (`runSt`, `rerun`) | `C99_outcome`: same outcome as `Cmdline.run`, by simulation function by function. `C99_used_up`, `C99_left` (with `Spec.LeftAt`), `C99_progress`, `C99_settles` (a weight that goes down with each run that changes something). Partial: a second run finds nothing after a success, and the rest of the command line after most failures; `C99_accepted_later` |
| C100 | `store`, `Cmdline.parse`, `parseConfigFile`, `parseEnvironmentPrefix`, `VarMap.notify` | `Spec/OwnName`. `C100_explicit_iff`, `C100_found_iff`: exactly which names have an explicit value after a store (from C65), so exactly when all settings are found. Partial: for command lines whose positional arguments are called by own names, for files unless an alias falls into a declared family, for the environment if options have one name. `C100_default_instead`, `C100_required_missing`: what happens otherwise |
| C101 | `parseEnvironmentPrefix`, `store` | `Spec/Variables`. `C101_accepted_iff`, `C101_value` (C32 and C87 put together, in terms of the variables only), `C101_stranger`. Partial: false for names with upper-case letters (`C101_unreachable`), true for all others (`C101_reachable_partial`) |
| C102 | `OptionsDesc.addDesc` (Model/Declare: the loop, with aliasing), `addGroup` | `C102_group_partial`: the loop on another object ends and gives the model's `addGroup`; `C102_individually_partial`: parsers and lookups as with options added one by one. `C102_itself`: on the same object it ends iff there are no options |
| C103 | `OptionsDesc.addOption`, `addGroup`, `findOrThrow`, `store` | false as documented (`C103_negation`). What holds instead: the name cannot be used on an accepted command line (`C103_command_line_partial`, via C06) and no store takes it (`C103_store_partial`, via C65); unused it goes unnoticed (`C103_silent`) |
| C104 | `store`, `VarMap.notify` | `Spec/Several` (`Settled`: one name through the sources). `C104_succeeds`, `C104_value` by induction over the sources from C65; `C104_only_source`, `C104_any_order` (permutations, generalises C67), `C104_variable` (generalises C88 to several sources); `C104_one_or_two` (`Spec.ValuesOfBoth`): one name through the source or through its two parts, in any context |
| C105 | `parseAdditional`, `run`; `Model/Example` (functions of example/response_file.cpp and custom_syntax.cpp) | `C105_extra_parser` via the likeness of first passes used for C98; `C105_response_file`, `C105_gcc_style` are the parsers of the examples; `C105_words` by induction over the words; `C105_command_line_stands` from C104. Meaning leaves out the recorded tokens and the reason of a refusal: an extra parser records no tokens, so a refusal may be the undefined behaviour of C21 instead of an exception. The message output of `main` is not modelled |
| C106 | `Example.isGiven`, `conflicting`, `dependencyMissing` (example/real.cpp) | `C106_given_iff` from C104 by induction over `Settled`; `C106_conflicting`, `C106_dependency`; `C106_failed_store` is the witness for failed stores |
| C107 | `run` and the style parsers of `Model/Cmdline` | `C107_written` from the grammar of tokens (C61) and the likeness of first passes (C98). `C107_value`: for needed values by the loop that takes tokens, for optional ones by following the second pass through the options before (`regroup_value`). Options whose `max_tokens` is exactly 2^31 are left out of the latter: the `int` counter of src/cmdline.cpp:329 is negative, and the option unlimited, before the first value but not after it |
| C108 | `Model/Hierarchy`: the program of example/options_heirarchy.cpp on top of the models of parsers, `store` and `notify` | `ran`: a run that goes on is a sequence of `store` calls; then C104 for each name. Sources are given by their parsed options (`SourcesSay`), which determine them. Output is not modelled; `toupper` of a negative `char`, which is undefined, is taken to change nothing. `C108_switch_off`: the comment at lines 671-674 says `bool_switch` can only be turned true; in a configuration file `run-gui=no` is accepted and keeps later files from turning it on What the environment says is stated by the variables (`C108_environment`) |
| C109 | `Spec.program`: parse and `store` each source, then `notify`; every exception a constructor of `Fail` | command line: `run_kind` of C21; configuration file: C64 and C27; values: the type invariant of C69 (`settled_typed`) excludes `bad_any_cast` and a vector of another type; `notify`: C65. Functions of the user (notifiers, style parsers) are taken not to throw. `C109_wide`: with `wvalue` a `std::logic_error` of the character conversion and `boost::bad_any_cast` escape |
| C110 | styles as numbers with `&`, `\|`; `Spec.flags`, `Spec.Idle` | `active` distributes over `\|`; parsers that try the same style parsers, look up alike and have the same prefix agree (`Agree.run`, by induction over the passes); for the other direction one command line per flag, evaluated for all 512 settings of the flags that are ever tested (`Lemmas/FlagProbes`), to which every style reduces (`run_shortened`) |
| C111 | `Model/MultipleSources`: the program of example/multiple_sources.cpp; how `<<` writes an `int` and the help text are parameters; `opt` read without a value is the outcome `uninitialised`; a file is its text or cannot be opened | `stores_commandLine`, `stores_file`: when the `store` calls succeed, name by name (C104); `notify_ok`: nothing is required and the types fit, so `notify` cannot fail; `C104_variable` gives `config_file` after the first and `opt` after the second `notify`; `prints_det`: what is specified is determined, so that the equivalence follows from running the program. Noted: `--help` prints nothing but a complaint if there is no configuration file |
| C112 | `Model/EnvOptions`: the program of example/env_options.cpp; `toupper` in the classic locale | `occ_path`, `occ_verbosity`: the occurrences of the two names are the variables, from C32; C104 for the values, C65 for the exception (`fails`), `what_mono` for its text |
| C113 | `Spec/OnceOnly`: options that want nothing, or one value, once | `parse_all`: what such an option makes of its occurrences; C06, C18 for the names and the numbers of values, C104 for the map; C109 for the exceptions |
| C114 | `Model/Programs`: example/first.cpp, example/option_groups.cpp, example/real.cpp; the texts of the descriptions and of numbers are parameters | C113 with a table of the options (`Table`); C106 for the rules of real.cpp (`checks_eq`) |
| C115 | `convertState`: `detail::convert` with the conversion state; `Spec/CharSet`: character sets unit by unit, the contract of `codecvt` for facets with a state | induction on the rounds; a quiet round (nothing completed) is the last one, and all rounds before it fill the buffer. `convert_stateless` ties it to the `convert` of C56 |
| C116 | `Model/Notify`: `notify` on the state of a program (`Host`: what assignments and notifiers do to it) | `Spec/Notify`: telling values one by one; induction on the records; sortedness of the map (C39) for the order; the variables are followed through the state (`told_memory`) |
| C117 | the functions of C61, C65, C38 together | `Spec/Usual` (`Gains`: what an option gets from the tokens of its occurrences, by `Gets` of C87); every name in an accepted command line is one of the parser's own (C06, C08), so C104 applies name by name; `notify` by C38 and C104_variable |
| C118 | `Model/DescProgram`: `main` of example/options_description.cpp; the texts of help and numbers are parameters | `Spec/DescProgram`; from C117, with C44 (exact) for the options with implicit values |
| C119 | `Model/Custom`: `Validator` (any function), `lift` for `vector<T>` and `optional<T>`, `xparseWith`, `parseWith`; exceptions of other classes are `Fail.foreign`, `bad_lexical_cast` is `Fail.badLexicalCast` | `Spec/Custom` (`Step`, `Objection`, `Hands`); `C119_library` ties it to the functions without overloads; `C119_stored`, `_given`, `_not_given`, `_refused`, `_refuses`, `_notify`, `_otherwise`, `_cast_escapes`. The `catch` for `bad_lexical_cast` is only around the elements of a vector (detail/value_semantic.hpp:155-157): for `T` and `optional<T>` it leaves `store` without the name of the option. An overload that leaves something else than a `T` goes unnoticed for `T` until `notify` dereferences a null pointer (example in Props/Custom) |
| C120 | `Model/RegexProgram`: `validate` and `main` of example/regex.cpp; the one pattern is written out, Boost.Regex is not modelled | `Spec/RegexProgram`; from C119; the exception has no value in it, so the text does not quote it (`C120_message`) |
| C121 | `store`, `notify` and the parsers as before; the sources are what the parsers return | `Spec/Joined` (`heardOf`, `LackingIn`); from C104 and C38 via the record of each option over a sequence of stores; `C121_command_line`, `_config_file`, `_environment` show that what these parsers return is such a source. Generalises C117 to several sources |
| C122 | `Model/ExtraPrograms`: `main` of example/custom_syntax.cpp and example/response_file.cpp; the file system is a function from names to texts; what `<<` prints for the description and for an `int` is a parameter | `Spec/ExtraPrograms`; from C117 and C121. The words of the response file are read without the extra parser, so `@name` in it is a positional argument, which `store` ignores |
| C123 | `parseConfigFile` with `allow_unregistered`, `collectUnrecognized`, `store` | `Spec/SharedFile` (`FileEntries` does not mention the description); from the grammar of C64 and from C121; `C123_same` is about options with names of their own, no families |
| C124 | `Model/Ctype`: `match`, `find_nothrow`, both boolean `validate`s, `prefix_name_mapper`, `split_winmain` again, with every call of `tolower`/`isspace` checked against its domain | `Spec/Ctype` in terms of bytes; where defined equal to the functions of the main model, undefined exactly as stated (`C124_lookup_iff`, `C124_bool`, `C124_wide_bool`, `C124_prefix`); `split_winmain` is always defined (`C124_winmain`). Partial: see Disagreements |
| C125 | `Model/Lifetime`: a heap with use counts; descriptions, groups, positional options, parsers, parse results, maps; every operation of the library on them, as far as pointers are concerned | `Spec/Lifetime` says which objects are owned and which calls follow a plain pointer to a destroyed object. Invariant (`Fine`): use count = number of shared pointers (`C125_counts`), hence alive iff owned (`C125_alive`), nothing left at the end (`C125_no_leak`), `notify` always possible (`C125_notify`), undefined exactly for `Outlived` (`C125_undefined_iff`), without end exactly for `Endless` (`C125_endless_iff`), and what a state calls destroyed is what the program has destroyed (`C125_destroyed_iff`); so running a parser and storing are undefined exactly for certain histories (`C125_run_iff`, `C125_store_iff`), and a map refers to what the program gave it last (`C125_links`, `C125_lookup_gone`); descriptions have as many options and groups as were put into them (`C125_sizes`, hence `C125_self_iff`); destroying last is always safe (`C125_destroy_last`) |
| C126 | `Model/Release`: the help once more without assertions, `unsigned` modulo 2^32 (strings and columns shorter than 2^31) | `Spec/Release`: `LooseText` (as `Text` of C81, with the cases that assertions exclude), `LooseColumn`. Printed exactly if derived (`C126_help`); the same as with assertions (`C126_same`: `Text` implies `LooseText`, `Column` implies `LooseColumn`); exactly when, and which error otherwise (`C126_outcome`), from the outcome of one paragraph (`paragraph_outcome`) |
| C127 | the paragraphs of C81 (with assertions) and C126 (without) | `Spec/Tabs.DocumentedParagraph` is the text of doc/overview.xml. False in the code (`C127_not`); `C127_partial`: a tab on the first line before the last position; exactly when (`C127_release_iff`, `C127_debug_iff`: if the code indents where the documentation does not, the outputs differ, by counting lines and characters); tab removed (`C127_removed`), two tabs (`C127_one_tab`) |
| C128 | `Model/ReleaseParse`: the other functions with assertions, without them | `Spec/ReleaseParse`: `withEquals`, `Swallowed`. `C128_parse` (same result unless undefined with assertions), `C128_positional` (any list of calls), `C128_add`, `C128_environment` (as with `name=name`), `C128_absorb` with `C128_swallowed` (which options, exactly one such run), `C128_names`, `C128_nameless` |
| C129 | `Model/ExtraCalls.lean`: the first pass with the list of the calls made, the parser a function of it | `C129_calls`: the calls are a beginning of the command line, nothing after one that throws, the exception comes out; `C129_parsed`: in case of success all tokens or those up to a terminator; `C129_function`: consistency with the parser as a function (Model/Cmdline). False as documented (`C129_not`: not behind `--`); `C129_partial`: without `--` exactly the tokens. By induction on every loop (`Lemmas/ExtraCalls.Heard`) |
| C130 | the grammar of C61 | `Spec/Unregistered`: `DocumentedUnknown` is the sentence of doc/howto.xml, `UnknownOptions` what is reported by the grammar. `C130_reported`: exactly what is reported (with terminators, groups, extra parser); false as documented (`C130_not`); `C130_iff`: exactly when it is as documented (no such token taken as a value, no unknown option in a group after others), by comparing the two lists; `C130_token`: after a beginning that can be read by itself; `C130_partial`: if no option needs a value of its own |
| C131 | `Model/Reentrant.lean`: `notify` with notifiers as lists of operations on the map, the iterator as the name it is at, `dangling` as an outcome, a bound on rounds and nesting (more of them do not change an outcome: `ends_unique`) | `C131_order`, `C131_dangling_iff`, `C131_ends` (finitely many names), `C131_same` (agrees with C116 if notifiers leave the map alone). False as stated (`C131_not`: a notifier of `config` stores a file that sets `alpha`); `C131_iff`: exactly when; `C131_partial`: if each notifier leaves what is up to its own name; `C131_late`. `C131_endless`, `C131_recursion`: a growing family, and `notify` called again, never end. By induction on the rounds (`Rounds`) |
| C132 | `Model/Builder.lean`: the members of `typed_value`, each configuring member function (`perform`), chains of them with `bad_lexical_cast` (`performAll`), `typed_value::name` from the members (equal to the one of the model: `C132_name`), `bool_switch` as the calls it makes (`C132_switch`) | `C132_declares` (a member that each call sets or leaves alone has the value of the last call that sets it, by induction on the calls), `C132_order`, `C132_throws`. The part about texts is false after an exception (`C132_negation`); `C132_texts_partial`: without exception; `C132_stale`: exactly what is left after one |
| C133 | `Cmdline.run` with and without the option | from the grammar (C61): a derivation in which the option does not show is one without it: a name that denotes another option still does (`Unused.denotes`), what is unknown stays unknown, letters likewise (`Unused.group`). `C133_disguise` shows that the condition on long options behind a single dash is needed. `C133_stored` and `C133_same_map`: if the option is no candidate for any name in the source, the candidates are the same without it, so the store is (C65); `C133_program` puts parser and store together, `C133_shared_name` shows why no other option may have the same name |
| C134 | `Model/Exception.lean`: the exception as an object with all its members (also `m_error_template`, `m_substitution_defaults` and the mutable `m_message`), every member function, `replace_token` and the two loops of `substitute_placeholders` on `m_message`, sequences of calls (`Runs`) | `C134_last` (each call sets a part of the object or leaves it alone; sorted maps with the same texts are equal; by induction on the calls), `C134_unique`, `C134_asking`, `C134_library` (refinement: the exceptions of `Model/Err.lean`, in which no text is kept, say the same) |
| C135 | as C134; templates as words with at most one placeholder each (`Spec.Sentence`) | False (`C135_negation`). `C135_filled_partial`: the message is the template, reworded by the defaults of the parameters without text (`Spec.Reworded`; `C135_reworded`: there is such a rewording whenever `what()` returns), with the placeholders filled in (by induction on the substitutions and the words); `C135_left_partial`: one is left exactly if the exception was never told of its parameter; `C135_library`: in the library's messages exactly if a line is to be quoted and there is none; `C135_ambiguous` |
| C136 | `Model/ParserCalls.lean`: the members of `cmdline` and `basic_command_line_parser`, the latter's own `m_desc` (which may be indeterminate), both constructors, every call (`perform`), `run` through the pointers, and sequences of all these (`Trace`; what a throwing run leaves with a custom style parser is arbitrary) | `Spec/ParserCalls`: `AskedFor`, the last call of each kind. Invariant over traces (`Inv`): `C136_run`, `C136_exists`, `C136_unique`, `C136_without` (undefined), `C136_refused`, `C136_tokens`, `C136_used_up`, `C136_left` (joins C99), `C136_swap`; `parse_command_line` is one such sequence (`C136_parse_command_line`) |
| C137 | `Cmdline.run`, `parseConfigFile`, `store`, `print` with a permuted description | `Lemmas/DeclOrder`: outcomes equal up to the order of alternatives (`SameButOrder`), through every function of the parser, from C02: `C137_command_line`, `C137_message` (the alternatives go through a set), `C137_config_file` (the names go through a set), `C137_store` (name by name; sorted maps are determined by their entries), `C137_end_to_end`, `C137_help` (a maximum and a concatenation), `C137_needed`: two options of one name with different defaults |
| C138 | `Model/Links.lean`: `variables_map` objects in memory with `m_next` (C40 has the maps behind in a list), constructors, implicit copy and assignment, `next`, `clear`, `store`, destruction; `operator[]` with a bound on the nested calls | False (`C138_negation`, `C138_negation_circle`). Exactly: `C138_value`, `C138_returns_iff`, `C138_dangling_iff`, `C138_endless_iff` (a lookup still running after more calls than objects has been at one twice, by counting), `C138_enough`. What statements do to lookups: `C138_untouched`, `C138_copy`, `C138_assign`, `C138_assign_circle`, `C138_clear`, `C138_link`, `C138_create`, `C138_store`, `C138_destroy`. `C138_programs_partial`: programs that link and assign from older maps only and keep them all (links going backwards are an invariant) |
| C139 | `Model/Edit.lean`: the functions `variables_map` inherits from `std::map` (`insert`, `erase`, `at`, `swap`) and `variable_value::value()`, between stores | False (`C139_negation`). Exactly: `C139_course` (a relation that follows one name through the program), `C139_performs_iff` (nothing throws iff each name has a course), `C139_settled_iff`, `C139_given_anew_iff`; `C139_given_anew_partial`. Inserted values: `C139_inserted`, `C139_inserted_default`, `C139_in_the_way` (an explicit single value makes the next source that mentions the name throw), `C139_not_told`, `C139_required`, `C139_erased_required`. `swap`: `C139_swap_partial`, `C139_swap_heard`, `C139_swap_negation` |
| C140 | `Model/Pointer.lean`: exception objects of C134 in memory, each with the buffer of its mutable `m_message`; the pointers `what()` returned; copies, assignment, destruction. Statements of several threads in any order are such programs, with whole calls of `what()` (two at the same time are a data race) | False (`C140_negation`). Exactly: `C140_readable_iff`; `C140_stay_partial` (not asked again), `C140_again` (asking again gives the same text elsewhere), `C140_copy`. Invariant: the buffers in use were handed out before |
| C141 | `Model/HelpStream.lean`: `print`, `format_one`, `format_description`, `format_paragraph` as the sequence of `os << s` and `os.put(c)` they perform, up to the exception; a stream with width, fill, adjustment, room and state | False (`C141_negation`: the field is used for what is written first). Exactly: `C141_written`, `C141_same_iff`; `C141_same_partial` (no field), `C141_room`, `C141_not_good`, `C141_throws`, `C141_thrown`. By induction over the layout of C52; the operations give the text of the model of C52–C55 |
| C142 | `Cmdline.styleParser` (`Model/Cmdline.lean`): an arbitrary function from tokens to options and the tokens left, or a failure; `Orderly` and `Records` say what the comment in `run` asks of it | Numbers of values and absence of undefined behaviour are false (`C142_negation`, `C142_ub_negation`); `C142_counts` says exactly what may be wrong; `C142_counts_partial`, `C142_no_ub_partial`. The rest holds: `C142_tokens_conserved`, `C142_canonical_key`, `C142_flag`, `C142_throws`, `C142_first`, `C142_idle`. By induction over the first pass with the style parser (`PassBy`). `C142_grammar` and `C142_refusal`: exactly which command lines are accepted with which result, and which are refused with which exception, by rules in which the style parser is an arbitrary function (`ReadsBy`, `RefusedBy` in `Spec/StyleGrammar.lean`); `C142_undefined_iff`: exactly when there is undefined behaviour. The bound on the number of positional arguments stands for that of `int` |
| C143 | `Positional.add`, `nameForPosition`, `maxTotalCount` (`Model/Positional.lean`) with any counts; `summed`, `Covered`, `ForTheRest` speak of the calls only | Failures, names and limit exactly: `C143_fails_iff`, `C143_names`, `C143_limit`, `C143_arguments`. That names stay is false for counts below -1 (`C143_negation`); `C143_kept_iff`, `C143_kept_partial`. `C143_after_endless`: calls after the one with -1, which the documentation forbids, insert names before it. By induction over the calls from the end, with the invariant `Holds` |
| C144 | `findNothrow`, `Cmdline.run` (`Spec.Denotes`, `Spec.meaning`) | whoever matches the longer abbreviation, exactly, as abbreviation or as family, matches the shorter one as abbreviation (`abbreviates`); so the candidates are among the one candidate (`C144_lookup`, `C144_longer`), `C144_shortest` and `C144_lookup_shortest` by the least such length, `C144_command_line` with C107. The example after it shows why other names of the option must not be beginnings of the name |
| C145 | `parseConfigFile`, `store` (`Spec.StartsSection`, `Spec.FilePart`, `Spec.InFull`) | lines that begin with a header are read alike in every section (`scan_headerFirst`), hence `C145_joined`, `C145_refused`, `C145_parts`; `C145_order` with C66, `C145_one_or_two` name by name with C104; `C145_in_full` line by line, and `C145_writable` says which sections can be written so. `C145_needs_header` and `C145_given_twice` show that the conditions are needed |
| C146 | `plan`, `Place`, `step`, `run` (`Model/Threads.lean`): the reads and writes of `m_message` in `what()` one by one, taken by threads in any order; a `replace` behind the end is the end of the program. That each read and write is whole is a simplification in favour of the code | False (`C146_negation`: the bare template is read; `C146_ends`: the program ends). `C146_iff`: it holds exactly if nothing in the template is replaced. `C146_apart_partial`: it holds for all calls that do not overlap, by an invariant on the place of the one thread in a call; `C146_alone`: a call that is left alone ends and gives the message of `what` |
| C147 | `Iter`, `get`, `first`, `past`, `equal`, `step`, `run` (`Model/EnvIters.lean`): the pointer of an iterator is an index into the environment, or not set; statements about iterators in any order. `places` (`Spec/EnvIters.lean`) only counts | `C147_places`, by an invariant between object and place: values, end, and what is undefined, for all programs. Comparing is false in the code (`C147_negation`): `C147_equal_iff` says exactly when iterators compare equal, `C147_equal_partial` covers the comparison with the end. Environments whose entries have a `=` (without one an assertion fails, see C128) |
| C148 | `parseConfigFile`, `wparseConfigFile`, `parseEnvironment`, `store`, `notify` (`FileSources.loadAll`, `FileSources.SameButCounts`, `FileSources.GainsDefault`) | each option of these sources has one token (`lines_value`, `wlines_value`, `environment_value`), so the two runs are related step by step (`storeOne_pairs` to `loadAll_pairs`): `C148_counts`, `C148_switch`; `C148_typed`, `C148_untyped` and `C148_bool_switch` say which settings these are. The comment of example/config_file_types.cpp:119-120, that `value<bool>` and `bool_switch` do not differ in files, holds for what the file has, not for what it lacks |
| C149 | `Cmdline.run` (`CaseLines.Token`, `CaseLines.SameOption`, `CaseLines.kind`) | both runs are related step by step, from the style parsers to the positions (`run_rel`), with C03 for each lookup. It is false in the code for groups of short options and short options with a value in the token (`C149_negation`); `C149_case_partial` and `C149_names_partial` hold if such tokens agree, `C149_without_dashes` is all of it for styles without short options after a dash |
| C150 | `Cmdline.run` with `allow_sticky` on and off | over the grammar of C61: a switch with text attached is refused without grouping, so no accepted token is read in another way. It is false in the code for a value that looks like a group with an ambiguous letter (`C150_negation`); `C150_sticky_partial` needs the letters of the command line to be clear |
| C151 | `run` with all style parsers (`Forms.About`, `Forms.Same`) | a style parser that the style does not ask for is put back as one that reads nothing (`slots`, `tryParsers_thinned`); then the two runs are related parser by parser (`long_does`, `disguised_does`, `short_does`, `dos_does`) and step by step (`tryParsers_same` to `run_same`): `C151_forms`, `C151_forms_long`, `C151_no_options`. A parser given with `extra_style_parser` is left out: it may put in tokens of any form |
| C152 | `run` with all style parsers, `findNothrow`, `match`, `key` (`Letters.Renamed`, `Letters.renWith`) | each function commutes with the replacement (`match_ren`, `findNothrow_ren`, `parsers_ren`, `grab_ren`, `loop_ren`, `regroup_ren`, `name_ren`): `C152_letters`; `C152_letters_iff` shows with small programs (`naming_two`, `bare_dash`, `bare_eq`, `bare_star`, `bare_slash`) that no further replacement could be allowed |
| C153 | `parseConfigFile`, `parseEnvironment`, `parseEnvironmentPrefix` (`Letters.HarmlessFile`, `Letters.renWith`) | which names are accepted and whether wildcards overlap does not depend on the letters (`accepts_ren`, `overlap_ren`, through the exact description of the reader in `reader_spec`); each function on a line commutes with the replacement (`stripLine_ren`, `line_ren`, `lines_ren`): `C153_letters`; `C153_letters_iff` shows with small files (`read_one`, `read_two`, `read_three`, `read_section`, `read_dot`, `read_named`) that no further replacement could be allowed; `C153_environment`, `C153_environment_iff`, `C153_prefix` for the environment |
| C154 | `store` with any value semantics (`Letters.SameReading`, `Letters.SameMap`) | the first loop and the second keep two maps the same in other letters (`storeLoop_ren`, `applyAll_ren`, `findOrThrow_typed`, `displayName_ren`); maps are compared name by name, as another order of names gives another order of entries: `C154_store`; `C154_strings` shows that options of strings satisfy the hypothesis |
| C155 | `OptionsDesc.print` with all of Format (`Letters.HarmlessHelp`, `Letters.renTree`) | every function commutes with the replacement (`lineEnd_ren`, `wrapRest_ren`, `parIndent_ren`, `formatOne_ren`, `columnWidth_ren`, `printWidth_ren`): `C155_help`; `C155_help_iff` shows with texts of one and three characters (`format_one`, `format_three`) that no further replacement could be allowed |
| C156 | `splitUnix`, `splitWinmain` (`Letters.HarmlessUnix`, `Letters.HarmlessWinmain`) | induction on the string (`tokenize_ren`, `winLoop_ren`): `C156_unix`, `C156_winmain`; strings of one to three characters show that no further replacement could be allowed: `C156_unix_iff`, `C156_winmain_iff` |
| C157 | `FileTypes.parseFile`, `FileTypes.checkResults`, `FileTypes.main`, `FileTypes.makeFile` (`FileTypes.Expected`; assertions are taken as enabled, the comparison of numbers is a parameter. `check_float` in the code compares `expected * (1 + epsilon) / expected`, about 1, with the difference, so it accepts numbers that differ by almost 1) | from C121 and C123 with the options of the program: `C157_parse_file`, `C157_checks`; by evaluation of the reader on the one file, for all `lexical_cast`: `C157_own_file`; `C157_left_out` |
| C158 | `Quick.main` (`Quick.Line`: the command lines, as an inductive definition that does not mention the library) | from the grammar C61 for this one option: `C158_command_line`; with C113 and the table of options: `C158_exit_code` |
| C159 | `VarMap.notify` (`Letters.SameNotice`, `Letters.KeepsOrder`, `Letters.SameEvents`; it is assumed of the value semantics that they do the same with the replaced texts, as in C154, whose `SameReading` now includes `notify`) | the entries of the second map are a permutation of those of the first, and the same list if the order of characters is kept: `C159_notify`; with C152 and C154 from the command line on: `C159_program`; two options in the other order: `C159_order_iff` |
| C160 | `Cmdline.run` (`Prefixes.Begins`, `Prefixes.MissingValue`) | with the grammar for all option sets (C61, C63), cut at a token: `C160_prefix`; hence `C160_refused`; the refusals go on: `C160_same_exception` |
| C161 | `parseConfigFile`, `ConfigIter.lines`, `ConfigIter.line`, `stripLine`, `trimWs` (`FileCut.Begins`) | what a line says is a prefix of what its continuations say: `C161_cut`; at line ends `C161_lines`, `C161_refused`, for wide files with C73 `C161_wide`, `C161_wide_refused`; why brackets are left out: `C161_bracket` |
| C162 | `store`, `storeLoop`, `applyAll`, `parseConfigFile` | the loop over a source that is continued; records name by name (C65): `C162_stored`, `C162_failed`; with C161: `C162_file`, `C162_file_failed` |
| C163 | `Cmdline.parse`, `store` | the cut of C160 when nothing is gathered afterwards: `C163_prefix`; with C162: `C163_stored`, `C163_failed`; the condition is needed: `C163_needed` |
| C164 | `store`, `parseConfigFile`, `parseEnvironment` (`LeaveOut.FewerLines`, `LeaveOut.FewerVariables`) | name by name (C65): `C164_stored`; up to `notify` with C104: `C164_variable`; with the grammar of files (C64), line by line: `C164_file`; entry by entry: `C164_environment`; on a command line with C76: `C164_arguments`, for options by name that stand together and occur nowhere else, where neither they nor what precedes them end in an option with room for more values |

## Mutation testing

`tools/mutate.py` copies `lean/` to `/tmp/mut`, makes one edit of the model, replaces whatever no longer proves by a hole and
reports which manifest theorems failed, themselves or through a lemma. An edit whose claim is in `breaks` must make a
theorem of that property fail; otherwise the theorem is too weak and is tightened (`seeded/tightened.json`). `seeded/LOG.jsonl`
has one line per attempt.
