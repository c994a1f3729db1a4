import Verif.Model.Str
/-
Exceptions: include/boost/program_options/errors.hpp, the message code in src/value_semantic.cpp
and `invalid_syntax::get_template` in src/cmdline.cpp.
-/
namespace PO

/-! Constants of `command_line_style` (include/boost/program_options/cmdline.hpp:26-85). -/
namespace Style
def allowLong : Nat := 1
def allowShort : Nat := 2
def allowDashForShort : Nat := 4
def allowSlashForShort : Nat := 8
def longAllowAdjacent : Nat := 16
def longAllowNext : Nat := 32
def shortAllowAdjacent : Nat := 64
def shortAllowNext : Nat := 128
def allowSticky : Nat := 256
def allowGuessing : Nat := 512
def longCaseInsensitive : Nat := 1024
def shortCaseInsensitive : Nat := 2048
def caseInsensitive : Nat := 3072
def allowLongDisguise : Nat := 4096
/-- cmdline.hpp:79-84: `unix_style`, also `default_style`. -/
def unixStyle : Nat :=
  allowShort ||| shortAllowAdjacent ||| shortAllowNext ||| allowLong ||| longAllowAdjacent
    ||| longAllowNext ||| allowSticky ||| allowGuessing ||| allowDashForShort
def defaultStyle : Nat := unixStyle
end Style

/-- `invalid_syntax::kind_t` (errors.hpp:304-312). -/
inductive SyntaxKind
  | longNotAllowed | longAdjacentNotAllowed | shortAdjacentNotAllowed | emptyAdjacentParameter
  | missingParameter | extraParameter | unrecognizedLine
  deriving DecidableEq, Repr

/-- `validation_error::kind_t` (errors.hpp:365-371). -/
inductive ValidKind
  | multipleValuesNotAllowed | atLeastOneValueRequired | invalidBoolValue | invalidOptionValue
  | invalidOption
  deriving DecidableEq, Repr

/-- The classes derived from `error_with_option_name` (errors.hpp:205-410). -/
inductive ErrClass
  | unknownOption
  | ambiguousOption (alternatives : List Str)
  | multipleValues
  | multipleOccurrences
  | requiredOption
  | cmdlineSyntax (k : SyntaxKind)
  | configSyntax (k : SyntaxKind)
  | validation (k : ValidKind)
  deriving DecidableEq, Repr

/-- An `error_with_option_name` object: dynamic class, `m_option_style` and `m_substitutions`
(errors.hpp:94-110). The template is a function of the class (`ErrClass.template`);
`m_substitution_defaults` is the constant set by the constructor
(src/value_semantic.cpp:255-257). -/
structure OptErr where
  cls : ErrClass
  style : Nat
  subst : SMap Str
  deriving DecidableEq, Repr

/-- Places where the C++ code has undefined behaviour or a failing `assert`. -/
inductive UB
  /-- `args[0]` on an empty vector -/
  | emptyArgs
  /-- `opt.original_tokens[0]` on an empty vector (src/cmdline.cpp:314) -/
  | emptyOriginalTokens
  /-- `assert(opt2.value.size() == 1)` (src/cmdline.cpp:345) -/
  | valueNotSingle
  /-- `assert(opt2.original_tokens.size() == 1)` (src/cmdline.cpp:349) -/
  | originalNotSingle
  /-- `assert(!m_long_names.empty())` (src/options_description.cpp:201) -/
  | noNames
  /-- `assert(max_count != -1 || m_trailing.empty())` (src/positional_options.cpp:25) -/
  | trailingTwice
  /-- `assert(position < max_total_count())` (src/positional_options.cpp:45) -/
  | positionTooLarge
  /-- `assert(!s.empty())` (src/config_file.cpp:42) -/
  | emptyOptionName
  /-- `*m_prefix.rbegin()` on an empty string (src/config_file.cpp:100) -/
  | emptySection
  /-- `assert(n != s.npos)` (include/boost/program_options/environment_iterator.hpp:40) -/
  | envNoEquals
  /-- `assert(NULL != tv)` (detail/value_semantic.hpp:143) -/
  | wrongVectorType
  /-- dereference of a null `any_cast` result (detail/value_semantic.hpp:44-50) -/
  | nullNotify
  /-- `alternatives_vec.back()` on an empty vector (src/value_semantic.cpp:388) -/
  | noAlternatives
  /-- assertions of `format_paragraph`/`format_description`/constructor (options_description.cpp) -/
  | formatAssert
  /-- out-of-range iterator arithmetic in `format_paragraph` -/
  | formatRange
  /-- `*m_long_names.begin()` on an empty vector (src/options_description.cpp:244) -/
  | noLongName
  deriving DecidableEq, Repr

/-- How a call can fail. -/
inductive Fail
  /-- an exception derived from `error_with_option_name` -/
  | opt (e : OptErr)
  /-- `too_many_positional_options_error` -/
  | tooManyPositional
  /-- `invalid_command_line_style` -/
  | invalidStyle (msg : Str)
  /-- a plain `program_options::error` -/
  | error (msg : Str)
  /-- `reading_file` -/
  | readingFile (name : Str)
  /-- `std::logic_error` thrown by a character-set conversion (src/convert.cpp:69,77) -/
  | conversion
  /-- `boost::bad_any_cast` -/
  | badAnyCast
  /-- `std::length_error` from `vector::resize` -/
  | lengthError
  /-- `boost::escaped_list_error` (Boost.Tokenizer) -/
  | escapedList
  /-- `boost::bad_lexical_cast`, from a `validate` of the program -/
  | badLexicalCast
  /-- an exception of a class of the program -/
  | foreign (id : Nat)
  /-- undefined behaviour or failed assertion -/
  | ub (u : UB)
  /-- the model ran out of fuel (not an outcome of the code) -/
  | fuel
  deriving DecidableEq, Repr

/-- Constructor of `error_with_option_name` (src/value_semantic.cpp:245-260). -/
def OptErr.mk' (cls : ErrClass) (optionName originalToken : Str := []) (style : Nat := 0) : OptErr :=
  { cls, style
    subst := SMap.set (SMap.set [] (str% "option") optionName) (str% "original_token") originalToken }

/-- `set_substitute` (errors.hpp:147-148). -/
def OptErr.setSubst (e : OptErr) (k v : Str) : OptErr := { e with subst := SMap.set e.subst k v }

/-- Classes deriving from `error_with_no_option_name` (errors.hpp:250-296). -/
def ErrClass.noOptionName : ErrClass → Bool
  | .unknownOption => true
  | .ambiguousOption _ => true
  | _ => false

/-- `add_context` (errors.hpp:161-181): `set_option_name` is a no-op in the
`error_with_no_option_name` family (errors.hpp:259). -/
def OptErr.addContext (e : OptErr) (optionName originalToken : Str) (style : Nat) : OptErr :=
  let e1 := if e.cls.noOptionName then e else e.setSubst (str% "option") optionName
  { e1.setSubst (str% "original_token") originalToken with style := style }

/-- The handler `catch (error_with_option_name& e) { e.add_context(...); throw; }`. -/
def Fail.addContext (f : Fail) (optionName originalToken : Str) (style : Nat) : Fail :=
  match f with
  | .opt e => .opt (e.addContext optionName originalToken style)
  | f => f

/-! ### Constructors of the concrete exceptions -/

/-- `unknown_option(original_token = "")` (errors.hpp:266-274). -/
def errUnknown (tok : Str := []) : Fail := .opt (OptErr.mk' .unknownOption [] tok)
/-- `ambiguous_option(alternatives)` (errors.hpp:279-284). -/
def errAmbiguous (alts : List Str) : Fail := .opt (OptErr.mk' (.ambiguousOption alts))
/-- `multiple_values()` (errors.hpp:207-213). -/
def errMultipleValues : Fail := .opt (OptErr.mk' .multipleValues)
/-- `multiple_occurrences()` (errors.hpp:218-225). -/
def errMultipleOccurrences : Fail := .opt (OptErr.mk' .multipleOccurrences)
/-- `required_option(option_name)` (errors.hpp:228-237): the name is passed as original token. -/
def errRequired (name : Str) : Fail := .opt (OptErr.mk' .requiredOption [] name)
/-- `invalid_command_line_syntax(kind, name, token, style)` (errors.hpp:351-359). -/
def errSyntax (k : SyntaxKind) (name tok : Str := []) (style : Nat := 0) : Fail :=
  .opt (OptErr.mk' (.cmdlineSyntax k) name tok style)
/-- `invalid_config_file_syntax(invalid_line, kind)` (errors.hpp:335-341). -/
def errConfigSyntax (line : Str) (k : SyntaxKind) : Fail :=
  .opt ((OptErr.mk' (.configSyntax k)).setSubst (str% "invalid_line") line)
/-- `validation_error(kind)` (errors.hpp:374-381). -/
def errValidation (k : ValidKind) : Fail := .opt (OptErr.mk' (.validation k))
/-- `invalid_option_value(bad_value)` (src/value_semantic.cpp:215-220). -/
def errInvalidValue (v : Str) : Fail :=
  .opt ((OptErr.mk' (.validation .invalidOptionValue)).setSubst (str% "value") v)
/-- `invalid_bool_value(bad_value)` (src/value_semantic.cpp:233-238). -/
def errInvalidBool (v : Str) : Fail :=
  .opt ((OptErr.mk' (.validation .invalidBoolValue)).setSubst (str% "value") v)

/-! ### Message texts -/

/-- `invalid_syntax::get_template` (src/cmdline.cpp:42-76). -/
def SyntaxKind.template : SyntaxKind → Str
  | .emptyAdjacentParameter => str% "the argument for option '%canonical_option%' should follow immediately after the equal sign"
  | .missingParameter => str% "the required argument for option '%canonical_option%' is missing"
  | .unrecognizedLine => str% "the options configuration file contains an invalid line '%invalid_line%'"
  | .longNotAllowed => str% "the unabbreviated option '%canonical_option%' is not valid"
  | .longAdjacentNotAllowed => str% "the unabbreviated option '%canonical_option%' does not take any arguments"
  | .shortAdjacentNotAllowed => str% "the abbreviated option '%canonical_option%' does not take any arguments"
  | .extraParameter => str% "option '%canonical_option%' does not take any arguments"

/-- `validation_error::get_template` (src/value_semantic.cpp:400-428). -/
def ValidKind.template : ValidKind → Str
  | .invalidBoolValue => str% "the argument ('%value%') for option '%canonical_option%' is invalid. Valid choices are 'on|off', 'yes|no', '1|0' and 'true|false'"
  | .invalidOptionValue => str% "the argument ('%value%') for option '%canonical_option%' is invalid"
  | .multipleValuesNotAllowed => str% "option '%canonical_option%' only takes a single argument"
  | .atLeastOneValueRequired => str% "option '%canonical_option%' requires at least one argument"
  | .invalidOption => str% "option '%canonical_option%' is not valid"

/-- `m_error_template` as set by the constructors (errors.hpp:209-283, 318, 378). -/
def ErrClass.template : ErrClass → Str
  | .unknownOption => str% "unrecognised option '%canonical_option%'"
  | .ambiguousOption _ => str% "option '%canonical_option%' is ambiguous"
  | .multipleValues => str% "option '%canonical_option%' only takes a single argument"
  | .multipleOccurrences => str% "option '%canonical_option%' cannot be specified more than once"
  | .requiredOption => str% "the option '%canonical_option%' is required but missing"
  | .cmdlineSyntax k => k.template
  | .configSyntax k => k.template
  | .validation k => k.template

/-- `strip_prefixes` (errors.hpp:26-35). -/
def stripPrefixes (s : Str) : Str :=
  match s.dropWhile (fun c => c == '-' || c == '/') with
  | [] => s
  | r => r

/-- `error_with_option_name::get_canonical_option_prefix` (src/value_semantic.cpp:283-301).
`none` stands for the `std::logic_error` (which would escape a `noexcept` function). -/
def OptErr.canonicalPrefix (e : OptErr) : Option Str :=
  if e.style = Style.allowDashForShort then some (str% "-")
  else if e.style = Style.allowSlashForShort then some (str% "/")
  else if e.style = Style.allowLongDisguise then some (str% "-")
  else if e.style = Style.allowLong then some (str% "--")
  else if e.style = 0 then some []
  else none

/-- `m_substitutions.find(k)->second`; the two keys used are always present. -/
def OptErr.substD (e : OptErr) (k : Str) : Str := (SMap.get? e.subst k).getD []

/-- `error_with_option_name::get_canonical_option_name` (src/value_semantic.cpp:304-323). -/
def OptErr.canonicalName (e : OptErr) : Option Str :=
  if e.substD (str% "option") = [] then some (e.substD (str% "original_token"))
  else
    let originalToken := stripPrefixes (e.substD (str% "original_token"))
    let optionName := stripPrefixes (e.substD (str% "option"))
    if e.style = Style.allowLong ∨ e.style = Style.allowLongDisguise then
      e.canonicalPrefix.map (· ++ optionName)
    else
      match originalToken with
      | c :: _ => if e.style ≠ 0 then e.canonicalPrefix.map (· ++ [c]) else some optionName
      | [] => some optionName

/-- `replace_token` (src/value_semantic.cpp:271-281): replace the first occurrence of `src` until
there is none. The C++ loop is unbounded; `none` means it has not finished after `fuel` rounds. -/
def replaceToken : Nat → Str → Str → Str → Option Str
  | fuel, msg, src, dst =>
    match findSub msg src with
    | none => some msg
    | some pos =>
      match fuel with
      | 0 => none
      | fuel + 1 => replaceToken fuel (msg.take pos ++ dst ++ msg.drop (pos + src.length)) src dst

/-- `m_substitution_defaults` (src/value_semantic.cpp:255-257), in key order. -/
def substDefaults : List (Str × Str × Str) :=
  [ (str% "canonical_option", str% "option '%canonical_option%'", str% "option"),
    (str% "prefix", str% "%prefix%", []),
    (str% "value", str% "argument ('%value%')", str% "argument") ]

/-- First loop of `substitute_placeholders` (src/value_semantic.cpp:337-344). -/
def applyDefaults (fuel : Nat) (subst : SMap Str) : List (Str × Str × Str) → Str → Option Str
  | [], msg => some msg
  | (k, src, dst) :: ds, msg =>
    if (SMap.get? subst k).getD [] = [] then
      match replaceToken fuel msg src dst with
      | none => none
      | some msg' => applyDefaults fuel subst ds msg'
    else applyDefaults fuel subst ds msg

/-- Second loop of `substitute_placeholders` (src/value_semantic.cpp:351-353). -/
def applySubsts (fuel : Nat) : SMap Str → Str → Option Str
  | [], msg => some msg
  | (k, v) :: ss, msg =>
    match replaceToken fuel msg ('%' :: k ++ ['%']) v with
    | none => none
    | some msg' => applySubsts fuel ss msg'

/-- `error_with_option_name::substitute_placeholders` (src/value_semantic.cpp:326-354).
`none`: not finished within `fuel` rounds of some `replace_token` (or the `logic_error`). -/
def OptErr.substitute (fuel : Nat) (e : OptErr) (template : Str) : Option Str :=
  match e.canonicalName, e.canonicalPrefix with
  | some name, some pre =>
    let subst := SMap.set (SMap.set e.subst (str% "canonical_option") name) (str% "prefix") pre
    match applyDefaults fuel subst substDefaults template with
    | none => none
    | some msg => applySubsts fuel subst msg
  | _, _ => none

/-- The template built by `ambiguous_option::substitute_placeholders`
(src/value_semantic.cpp:370-388). `none` is the UB of `back()` on an empty vector. -/
def ambiguousTemplate (alts : List Str) (template : Str) : Option Str :=
  let set := SSet.insertAll [] alts
  match set.reverse with
  | [] => none
  | last :: _ =>
    let t := template ++ str% " and matches "
    let t := if set.length > 1 then
        set.dropLast.foldl (fun t a => t ++ str% "'%prefix%" ++ a ++ str% "', ") t ++ str% "and "
      else t
    let t := if alts.length > 1 ∧ set.length = 1 then t ++ str% "different versions of " else t
    some (t ++ str% "'%prefix%" ++ last ++ str% "'")

/-- `what()` (src/value_semantic.cpp:263-269) with the override for `ambiguous_option`
(src/value_semantic.cpp:357-393). -/
def OptErr.what (fuel : Nat) (e : OptErr) : Option Str :=
  match e.cls with
  | .ambiguousOption alts =>
    if e.style = Style.allowDashForShort ∨ e.style = Style.allowSlashForShort then
      e.substitute fuel e.cls.template
    else
      match ambiguousTemplate alts e.cls.template with
      | none => none
      | some t => e.substitute fuel t
  | c => e.substitute fuel c.template

end PO
