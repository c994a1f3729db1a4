import Verif.Model.Custom
import Verif.Model.MultipleSources
/-
The program example/regex.cpp. Not modelled: Boost.Regex (the one pattern is written out below) and the texts of the descriptions; what `<<` writes
for the description is a parameter, and so is what it writes for an `int`.
-/
namespace PO.RegexProgram
open Hierarchy (opt)
open MultipleSources (Outcome)

/-- `\d` for `char`, "C" locale -/
def digit (c : Char) : Option Nat := if '0'.toNat ≤ c.toNat ∧ c.toNat ≤ '9'.toNat then some (c.toNat - '0'.toNat) else none

/-- `regex_match` with `\d\d\d-(\d\d\d)`, and `lexical_cast<int>` of the group (example/regex.cpp:48-63) -/
def magic (s : Str) : Option Int :=
  match s with
  | [a, b, c, m, d, e, f] =>
    match digit a, digit b, digit c, m == '-', digit d, digit e, digit f with
    | some _, some _, some _, true, some x, some y, some z => some (Int.ofNat (100 * x + 10 * y + z))
    | _, _, _, _, _, _, _ => none
  | _ => none

/-- `validate` for `magic_number` (example/regex.cpp:44-67), which has type number 7; there is no overload for wide strings -/
def validateMagic : Overloads where
  narrow := onceValidator [] fun s =>
    match magic s with
    | some n => .ok (.lex 7 n)
    | none => .error (errValidation .invalidOptionValue)
  wide := fun v _ => (v, none)

/-- `value<magic_number>()` -/
def magicValue : TypedValue := { type := .scalar (.lex 7) }

/-- `desc` (example/regex.cpp:73-79) -/
def desc (env : Env) : List OptionDesc :=
  opt (str% "help") (untypedValue env true) ++ opt (str% "version,v") (untypedValue env true) ++ opt (str% "magic,m") (magicValue.withOverloads env validateMagic)

/-- `parse_command_line(ac, av, desc)` (example/regex.cpp:82) -/
def commandLine (env : Env) (args : List Str) : Except Fail Parsed := ({ desc := desc env } : Cmdline).parse args

/-- The program from the `if (vm.count("help"))` on (example/regex.cpp:84-96). -/
def report (print : Int → Str) (help : Str) (m : VarMap) : Outcome :=
  if (m.map.get? (str% "help")).isSome then .returns (str% "Usage: regex [options]\n" ++ help)
  else if (m.map.get? (str% "version")).isSome then .returns (str% "Version 1.\n")
  else
    match m.map.get? (str% "magic") with
    | none => .returns []
    | some v =>
      match v.as (.scalar (.lex 7)) with
      | .error f => .caught f
      | .ok (.scalar (.lex _ n)) => .returns (str% "The magic is \"" ++ print n ++ str% "\"\n")
      | .ok _ => .caught .badAnyCast

/-- `main` (example/regex.cpp:70-102) -/
def main (env : Env) (print : Int → Str) (help : Str) (args : List Str) : Outcome :=
  match commandLine env args with
  | .error f => .caught f
  | .ok p =>
    match store p {} with
    | (_, some f) => .caught f
    | (m, none) => report print help m

end PO.RegexProgram
