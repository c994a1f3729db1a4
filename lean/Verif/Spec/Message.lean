import Verif.Model.Err
/-
What the messages of the library's exceptions are meant to say (errors.hpp:205-410 and the templates
in src/cmdline.cpp and src/value_semantic.cpp, read as English): the texts with the option's
displayed name, the offending value and the offending line written in.
-/
namespace PO.Spec
open PO

/-- `option 'name'`, or just `option` if there is no name to show. -/
def optionText (name : Str) : Str :=
  if name = [] then str% "option" else str% "option '" ++ name ++ str% "'"

/-- `argument ('value')`, or just `argument`. -/
def argumentText (value : Str) : Str :=
  if value = [] then str% "argument" else str% "argument ('" ++ value ++ str% "')"

def syntaxMessage (name line : Str) : SyntaxKind → Str
  | .emptyAdjacentParameter => str% "the argument for " ++ optionText name ++ str% " should follow immediately after the equal sign"
  | .missingParameter => str% "the required argument for " ++ optionText name ++ str% " is missing"
  | .unrecognizedLine => str% "the options configuration file contains an invalid line '" ++ line ++ str% "'"
  | .longNotAllowed => str% "the unabbreviated " ++ optionText name ++ str% " is not valid"
  | .longAdjacentNotAllowed => str% "the unabbreviated " ++ optionText name ++ str% " does not take any arguments"
  | .shortAdjacentNotAllowed => str% "the abbreviated " ++ optionText name ++ str% " does not take any arguments"
  | .extraParameter => optionText name ++ str% " does not take any arguments"

def validMessage (name value : Str) : ValidKind → Str
  | .invalidBoolValue => str% "the " ++ argumentText value ++ str% " for " ++ optionText name ++
      str% " is invalid. Valid choices are 'on|off', 'yes|no', '1|0' and 'true|false'"
  | .invalidOptionValue => str% "the " ++ argumentText value ++ str% " for " ++ optionText name ++ str% " is invalid"
  | .multipleValuesNotAllowed => optionText name ++ str% " only takes a single argument"
  | .atLeastOneValueRequired => optionText name ++ str% " requires at least one argument"
  | .invalidOption => optionText name ++ str% " is not valid"

/-- The alternatives of an ambiguous option: each distinct one once, in the given order. -/
def alternativesText (pre : Str) : List Str → Str
  | [] => []
  | [a] => str% "'" ++ pre ++ a ++ str% "'"
  | [a, b] => str% "'" ++ pre ++ a ++ str% "', and '" ++ pre ++ b ++ str% "'"
  | a :: as => str% "'" ++ pre ++ a ++ str% "', " ++ alternativesText pre as

def message (name value line : Str) : ErrClass → Str
  | .unknownOption => str% "unrecognised " ++ optionText name
  | .ambiguousOption _ => optionText name ++ str% " is ambiguous"
  | .multipleValues => optionText name ++ str% " only takes a single argument"
  | .multipleOccurrences => optionText name ++ str% " cannot be specified more than once"
  | .requiredOption => str% "the " ++ optionText name ++ str% " is required but missing"
  | .cmdlineSyntax k => syntaxMessage name line k
  | .configSyntax k => syntaxMessage name line k
  | .validation k => validMessage name value k

end PO.Spec
