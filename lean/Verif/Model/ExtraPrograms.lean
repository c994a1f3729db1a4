import Verif.Model.Example
import Verif.Model.MultipleSources
/-
The programs example/custom_syntax.cpp and example/response_file.cpp. Not modelled: the texts of the descriptions; what `<<` writes for the description
is a parameter, and so is what it writes for an `int`.
-/
namespace PO.CustomSyntax
open Hierarchy (opt string)
open MultipleSources (Outcome)

/-- `desc` (example/custom_syntax.cpp:41-45) -/
def desc (env : Env) : List OptionDesc := opt (str% "help") (untypedValue env true) ++ opt (str% "foo") (string.toSemantic env)

/-- `command_line_parser(ac, av).options(desc).extra_parser(reg_foo).run()` (example/custom_syntax.cpp:48-49) -/
def commandLine (env : Env) (args : List Str) : Except Fail Parsed := ({ desc := desc env, additional := some Example.regFoo } : Cmdline).parse args

/-- `main` (example/custom_syntax.cpp:38-63); `notify` is not called. -/
def main (env : Env) (help : Str) (args : List Str) : Outcome :=
  match commandLine env args with
  | .error f => .caught f
  | .ok p =>
    match store p {} with
    | (_, some f) => .caught f
    | (m, none) =>
      let a := if (m.map.get? (str% "help")).isSome then help ++ str% "\nIn addition -ffoo and -fno-foo syntax are recognized.\n" else []
      match m.map.get? (str% "foo") with
      | none => .returns a
      | some v =>
        match v.as (.scalar .str) with
        | .error f => .caught f
        | .ok (.scalar (.str s)) => .returns (a ++ str% "foo value with the value of " ++ s ++ ['\n'])
        | .ok _ => .caught .badAnyCast

end PO.CustomSyntax

namespace PO.ResponseFile
open Hierarchy (opt string strings)
open MultipleSources (vectorLine)

/-- How the program ends; an exception gets to the handler, which prints its text. -/
inductive Ended
  | exit (code : Nat)
  | caught (f : Fail)
  deriving DecidableEq

/-- What the program has printed when it ends, before the handler. -/
structure Ran where
  out : Str
  ended : Ended
  deriving DecidableEq

/-- `value< vector<string> >()->composing()` -/
def paths : TypedValue := { strings with composing := true }
/-- `value<int>()`; type 0 is `int` -/
def number : TypedValue := { type := .scalar (.lex 0) }

/-- `desc` (example/response_file.cpp:44-52) -/
def desc (env : Env) : List OptionDesc :=
  opt (str% "help") (untypedValue env true) ++ opt (str% "include-path,I") (paths.toSemantic env) ++ opt (str% "magic") (number.toSemantic env) ++
  opt (str% "response-file") (string.toSemantic env)

/-- `command_line_parser(ac, av).options(desc).extra_parser(at_option_parser).run()` (example/response_file.cpp:55-56) -/
def commandLine (env : Env) (args : List Str) : Except Fail Parsed := ({ desc := desc env, additional := some Example.atOption } : Cmdline).parse args

/-- `command_line_parser(args).options(desc).run()` of the words of the file (example/response_file.cpp:71-79) -/
def responseFile (env : Env) (text : Str) : Except Fail Parsed := ({ desc := desc env } : Cmdline).parse (Example.words [] text)

/-- The program from the `if (vm.count("include-path"))` on (example/response_file.cpp:82-90). -/
def report (print : Int → Str) (out : Str) (m : VarMap) : Ran :=
  match vectorLine m (str% "include-path") (str% "Include paths: ") with
  | .error f => ⟨out, .caught f⟩
  | .ok a =>
    match m.map.get? (str% "magic") with
    | none => ⟨out ++ a, .exit 0⟩
    | some v =>
      match v.as (.scalar (.lex 0)) with
      | .error f => ⟨out ++ a, .caught f⟩
      | .ok (.scalar (.lex _ n)) => ⟨out ++ a ++ str% "Magic value: " ++ print n ++ ['\n'], .exit 0⟩
      | .ok _ => ⟨out ++ a, .caught .badAnyCast⟩

/-- `main` (example/response_file.cpp:41-95); `files` gives the text of a file, `none` if it cannot be opened. `notify` is not called. -/
def main (env : Env) (print : Int → Str) (help : Str) (files : Str → Option Str) (args : List Str) : Ran :=
  match commandLine env args with
  | .error f => ⟨[], .caught f⟩
  | .ok p =>
    match store p {} with
    | (_, some f) => ⟨[], .caught f⟩
    | (m, none) =>
      let out := if (m.map.get? (str% "help")).isSome then help else []
      match m.map.get? (str% "response-file") with
      | none => report print out m
      | some v =>
        match v.as (.scalar .str) with
        | .error f => ⟨out, .caught f⟩
        | .ok (.scalar (.str name)) =>
          match files name with
          | none => ⟨out ++ str% "Could not open the response file\n", .exit 1⟩
          | some text =>
            match responseFile env text with
            | .error f => ⟨out, .caught f⟩
            | .ok q =>
              match store q m with
              | (_, some f) => ⟨out, .caught f⟩
              | (m, none) => report print out m
        | .ok _ => ⟨out, .caught .badAnyCast⟩

end PO.ResponseFile
