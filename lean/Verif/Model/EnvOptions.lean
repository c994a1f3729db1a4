import Verif.Model.Hierarchy
/-
The program example/env_options.cpp.
-/
namespace PO.EnvOptions
open Hierarchy (opt stringOr)

/-- `config` (example/env_options.cpp:23-27) -/
def config (env : Env) : List OptionDesc :=
  opt (str% "path") (untypedValue env true) ++ opt (str% "verbosity") ((stringOr (str% "INFO")).toSemantic env)

/-- `mapper` (example/env_options.cpp:11-19). `toupper` in the classic locale; for negative `char` it is undefined, here it changes nothing. -/
def mapper (var : Str) : Str :=
  let n := var.map Char.toUpper
  if n = str% "PATH" then str% "path" else if n = str% "EXAMPLE_VERBOSE" then str% "verbosity" else []

/-- How the program ends: it returns 0 and has printed `out`, or an exception that nobody catches ends it. -/
inductive Outcome
  | returns (out : Str)
  | terminated (f : Fail)
  deriving DecidableEq

/-- `vm[name].as<std::string>()` -/
def text (m : VarMap) (name : Str) : Except Fail Str :=
  match (m.get name).as (.scalar .str) with
  | .error f => .error f
  | .ok (.scalar (.str s)) => .ok s
  | .ok _ => .error .badAnyCast

/-- `get_env_options` from the first output on (example/env_options.cpp:33-39). `substr(0, 75)` takes at most 75 characters. -/
def report (m : VarMap) : Except Fail Str :=
  match m.map.get? (str% "path") with
  | none =>
    match text m (str% "verbosity") with
    | .error f => .error f
    | .ok v => .ok (str% "Verbosity: " ++ v ++ ['\n'])
  | some _ =>
    match text m (str% "path") with
    | .error f => .error f
    | .ok p =>
      match text m (str% "verbosity") with
      | .error f => .error f
      | .ok v => .ok (str% "First 75 chars of the system path: \n" ++ substr p 0 75 ++ ['\n'] ++ str% "Verbosity: " ++ v ++ ['\n'])

/-- `main` (example/env_options.cpp:21-47) with the entries of `environ`. -/
def main (env : Env) (environ : List Str) : Outcome :=
  match Hierarchy.load (parseEnvironment environ (config env) mapper) {} with
  | .error f => .terminated f
  | .ok m =>
    match report m with
    | .error f => .terminated f
    | .ok out => .returns out

end PO.EnvOptions
