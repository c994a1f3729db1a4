import Verif.Model.MultipleSources
/-
The program example/options_description.cpp. Not modelled: the texts of the descriptions; what `<<` writes for the description is a parameter, and
so is what it writes for an `int`.
-/
namespace PO.DescProgram
open Hierarchy (opt strings numberOr)
open MultipleSources (Outcome load variable_ vectorLine)

/-- The variables `opt` and `portnum` (example/options_description.cpp:28-29). -/
def optVar : Nat := 0
def portVar : Nat := 1

/-- `value<int>(&opt)->default_value(10)`; type 0 is `int` -/
def level : TypedValue := { numberOr 0 10 (str% "10") with storeTo := some optVar }
/-- `value<int>()->implicit_value(1)` -/
def verbose : TypedValue := { type := .scalar (.lex 0), implicit := some (.scalar (.lex 0 1), str% "1") }
/-- `value<int>(&portnum)->implicit_value(1001)->default_value(0,"no")` -/
def listen : TypedValue :=
  { type := .scalar (.lex 0), implicit := some (.scalar (.lex 0 1001), str% "1001"), dflt := some (.scalar (.lex 0 0), str% "no"), storeTo := some portVar }

/-- `desc` (example/options_description.cpp:30-43) -/
def desc (env : Env) : List OptionDesc :=
  opt (str% "help") (untypedValue env true) ++ opt (str% "optimization") (level.toSemantic env) ++ opt (str% "verbose,v") (verbose.toSemantic env) ++
  opt (str% "listen,l") (listen.toSemantic env) ++ opt (str% "include-path,I") (strings.toSemantic env) ++ opt (str% "input-file") (strings.toSemantic env)

/-- `command_line_parser(ac, av).options(desc).positional(p).run()` (example/options_description.cpp:45-50) -/
def commandLine (env : Env) (args : List Str) : Except Fail Parsed :=
  match ({} : Positional).add (str% "input-file") (-1) with
  | .error f => .error f
  | .ok p => ({ desc := desc env, positional := some p } : Cmdline).parse args

/-- example/options_description.cpp:71-74 -/
def verboseLine (print : Int → Str) (m : VarMap) : Except Fail Str :=
  match m.map.get? (str% "verbose") with
  | none => .ok []
  | some v =>
    match v.as (.scalar (.lex 0)) with
    | .error f => .error f
    | .ok (.scalar (.lex _ n)) => .ok (str% "Verbosity enabled.  Level is " ++ print n ++ ['\n'])
    | .ok _ => .error .badAnyCast

/-- The program from the `if (vm.count("help"))` on (example/options_description.cpp:53-78). -/
def report (print : Int → Str) (help : Str) (m : VarMap) (optValue portValue : Option AVal) : Outcome :=
  if (m.map.get? (str% "help")).isSome then .returns (str% "Usage: options_description [options]\n" ++ help)
  else
    match vectorLine m (str% "include-path") (str% "Include paths are: ") with
    | .error f => .caught f
    | .ok a =>
      match vectorLine m (str% "input-file") (str% "Input files are: ") with
      | .error f => .caught f
      | .ok b =>
        match verboseLine print m with
        | .error f => .caught f
        | .ok c =>
          match optValue, portValue with
          | some (.scalar (.lex _ n)), some (.scalar (.lex _ k)) =>
            .returns (a ++ b ++ c ++ str% "Optimization level is " ++ print n ++ ['\n'] ++ str% "Listen port is " ++ print k ++ ['\n'])
          | _, _ => .uninitialised

/-- `main` (example/options_description.cpp:25-86) -/
def main (env : Env) (print : Int → Str) (help : Str) (args : List Str) : Outcome :=
  match commandLine env args with
  | .error f => .caught f
  | .ok p =>
    match load p {} with
    | .error f => .caught f
    | .ok (m, es) => report print help m (variable_ optVar es) (variable_ portVar es)

end PO.DescProgram
