import Verif.Model.Hierarchy
/-
The program example/multiple_sources.cpp. Not modelled: the texts of the descriptions; the help text is a parameter, and so is how `<<` writes an `int`.
-/
namespace PO.MultipleSources
open Hierarchy (opt string strings stringOr numberOr)

/-- The variables `opt` and `config_file` (example/multiple_sources.cpp:29-30). -/
def optVar : Nat := 0
def fileVar : Nat := 1

/-- `generic` (example/multiple_sources.cpp:34-40) -/
def generic (env : Env) : List OptionDesc :=
  opt (str% "version,v") (untypedValue env true) ++ opt (str% "help") (untypedValue env true) ++
  opt (str% "config,c") ({ stringOr (str% "multiple_sources.cfg") with storeTo := some fileVar }.toSemantic env)

/-- `config` (example/multiple_sources.cpp:45-52); type 0 is `int`. -/
def config (env : Env) : List OptionDesc :=
  opt (str% "optimization") ({ numberOr 0 10 (str% "10") with storeTo := some optVar }.toSemantic env) ++
  opt (str% "include-path,I") ({ strings with composing := true }.toSemantic env)

/-- `hidden` (example/multiple_sources.cpp:56-59) -/
def hidden (env : Env) : List OptionDesc := opt (str% "input-file") (strings.toSemantic env)

/-- `command_line_parser(ac, av).options(cmdline_options).positional(p).run()` (example/multiple_sources.cpp:62-76) -/
def commandLine (env : Env) (args : List Str) : Except Fail Parsed :=
  match ({} : Positional).add (str% "input-file") (-1) with
  | .error f => .error f
  | .ok p => ({ desc := generic env ++ config env ++ hidden env, positional := some p } : Cmdline).parse args

/-- `parse_config_file(ifs, config_file_options)` (example/multiple_sources.cpp:65-66, 87) -/
def configFile (env : Env) (text : Str) : Except Fail Parsed := parseConfigFile text (config env ++ hidden env)

/-- The last value assigned to a variable. -/
def variable_ (addr : Nat) (es : List Event) : Option AVal :=
  es.foldl (fun v e => match e with | .assign a x => if a = addr then some x else v | .callback _ _ => v) none

/-- How the program ends: it returns 0 and has printed `out`, or an exception gets to the handler of `main`, which prints its text and returns 1. -/
inductive Outcome
  | returns (out : Str)
  | caught (f : Fail)
  /-- `opt` is read before it has a value -/
  | uninitialised
  deriving DecidableEq

/-- `store(…, vm); notify(vm);` -/
def load (p : Parsed) (m : VarMap) : Except Fail (VarMap × List Event) :=
  match store p m with
  | (_, some f) => .error f
  | (m, none) =>
    match m.notify with
    | (_, some f) => .error f
    | (es, none) => .ok (m, es)

/-- `if (vm.count(name)) cout << title << vm[name].as<vector<string>>() << "\n";` (example/multiple_sources.cpp:101-111, 19-24) -/
def vectorLine (m : VarMap) (name title : Str) : Except Fail Str :=
  match m.map.get? name with
  | none => .ok []
  | some v =>
    match v.as (.vector .str) with
    | .error f => .error f
    | .ok (.vector _ l) => .ok (title ++ l.flatMap (fun | .str s => s ++ [' '] | _ => []) ++ ['\n'])
    | .ok _ => .error .badAnyCast

/-- The program from the `if (vm.count("help"))` on (example/multiple_sources.cpp:91-113). -/
def report (print : Int → Str) (help : Str) (m : VarMap) (optValue : Option AVal) : Outcome :=
  if (m.map.get? (str% "help")).isSome then .returns (help ++ ['\n'])
  else if (m.map.get? (str% "version")).isSome then .returns (str% "Multiple sources example, version 1.0\n")
  else
    match vectorLine m (str% "include-path") (str% "Include paths are: ") with
    | .error f => .caught f
    | .ok a =>
      match vectorLine m (str% "input-file") (str% "Input files are: ") with
      | .error f => .caught f
      | .ok b =>
        match optValue with
        | some (.scalar (.lex _ n)) => .returns (a ++ b ++ str% "Optimization level is " ++ print n ++ ['\n'])
        | _ => .uninitialised

/-- `main` (example/multiple_sources.cpp:27-122); `files` gives the text of a file, `none` if it cannot be opened. -/
def main (env : Env) (print : Int → Str) (help : Str) (args : List Str) (files : Str → Option Str) : Outcome :=
  match commandLine env args with
  | .error f => .caught f
  | .ok pc =>
    match load pc {} with
    | .error f => .caught f
    | .ok (m, es) =>
      let name := match variable_ fileVar es with | some (.scalar (.str n)) => n | _ => []
      match files name with
      | none => .returns (str% "can not open config file: " ++ name ++ ['\n'])
      | some text =>
        match configFile env text with
        | .error f => .caught f
        | .ok pf =>
          match load pf m with
          | .error f => .caught f
          | .ok (m, es') => report print help m (variable_ optVar (es ++ es'))

end PO.MultipleSources
