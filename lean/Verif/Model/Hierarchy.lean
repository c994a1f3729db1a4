import Verif.Model.Parsers
import Verif.Model.VarMap
/-
The program example/options_heirarchy.cpp. Not modelled: what it prints, and the texts of the descriptions.
-/
namespace PO.Hierarchy

/-- One `(names, semantic)` of `add_options()`; none of the names below is malformed. -/
def opt (names : Str) (s : ValueSemantic) : List OptionDesc :=
  match OptionDesc.make names s with
  | .ok d => [d]
  | .error _ => []

def string : TypedValue := { type := .scalar .str }
def strings : TypedValue := { type := .vector .str }
/-- `value<std::string>()->default_value(s)` -/
def stringOr (s : Str) : TypedValue := { string with dflt := some (.scalar (.str s), s) }
/-- `value<T>()->default_value(v)` for an unsigned integer type with the number `ty`. -/
def numberOr (ty v : Nat) (text : Str) : TypedValue := { type := .scalar (.lex ty), dflt := some (.scalar (.lex ty v), text) }

/-- `command_line_options` (example/options_heirarchy.cpp:135-140) -/
def commandLineOptions (env : Env) : List OptionDesc :=
  opt (str% "help,h") (untypedValue env true) ++ opt (str% "version,v") (untypedValue env true) ++ opt (str% "config,c") (strings.toSemantic env)

/-- `hidden_command_line_options` (example/options_heirarchy.cpp:141-144) -/
def hiddenOptions (env : Env) : List OptionDesc :=
  opt (str% "master-file") (string.toSemantic env) ++ opt (str% "file") (strings.toSemantic env)

/-- `common_options` (example/options_heirarchy.cpp:150-158) -/
def commonOptions (env : Env) : List OptionDesc :=
  opt (str% "path") ((stringOr []).toSemantic env) ++ opt (str% "verbosity") ((stringOr (str% "INFO")).toSemantic env) ++
  opt (str% "include-path,I") ({ strings with composing := true }.toSemantic env) ++ opt (str% "run-gui") (boolSwitch.toSemantic env)

/-- `config_only_options` (example/options_heirarchy.cpp:162-168); type 0 is `unsigned int`, type 1 `unsigned short`. -/
def configOnlyOptions (env : Env) : List OptionDesc :=
  opt (str% "log-dir") ((stringOr (str% "log")).toSemantic env) ++ opt (str% "gui.height") ((numberOr 0 100 (str% "100")).toSemantic env) ++
  opt (str% "gui.width") ((numberOr 0 100 (str% "100")).toSemantic env) ++ opt (str% "network.ip") ((stringOr (str% "127.0.0.1")).toSemantic env) ++
  opt (str% "network.port") ((numberOr 1 12345 (str% "12345")).toSemantic env)

/-- `positional_options` (example/options_heirarchy.cpp:145-146) -/
def positional : Except Fail Positional :=
  match ({} : Positional).add (str% "master-file") 1 with
  | .error f => .error f
  | .ok p => p.add (str% "file") (-1)

/-- `store(…, results); notify(results);` -/
def load (p : Except Fail Parsed) (m : VarMap) : Except Fail VarMap :=
  match p with
  | .error f => .error f
  | .ok p =>
    match store p m with
    | (_, some f) => .error f
    | (m, none) =>
      match m.notify with
      | (_, some f) => .error f
      | (_, none) => .ok m

/-- `SetConfigOnlyOptions` (example/options_heirarchy.cpp:171-172): the map after the constructor. The parser gets the arguments `(0, 0)`, which
give no tokens (detail/parsers.hpp:27). -/
def constructed (env : Env) : Except Fail VarMap := load (({ desc := configOnlyOptions env } : Cmdline).parse []) {}

/-- `ParseCommandLine` (example/options_heirarchy.cpp:181-188) -/
def parseCommandLine (env : Env) (args : List Str) : Except Fail Parsed :=
  match positional with
  | .error f => .error f
  | .ok p => ({ desc := commandLineOptions env ++ hiddenOptions env ++ commonOptions env, positional := some p } : Cmdline).parse args

/-- `EnvironmentMapper` (example/options_heirarchy.cpp:228-239) with the table of 174-178. `toupper` in the classic locale; for negative `char` it is
undefined, here it changes nothing. -/
def mapper (name : Str) : Str :=
  let n := name.map Char.toUpper
  if n = str% "PATH" then str% "path" else if n = str% "EXAMPLE_VERBOSE" then str% "verbosity" else []

/-- `LoadAConfigFile` (example/options_heirarchy.cpp:251-264); `files` gives the text of a file, `none` if it cannot be opened. -/
def loadFile (env : Env) (files : Str → Option Str) (name : Str) (m : VarMap) : Except Fail VarMap :=
  match files name with
  | none => .ok m
  | some text => load (parseConfigFile text (configOnlyOptions env ++ commonOptions env) true) m

/-- The loop of `ParseConfigFiles` (example/options_heirarchy.cpp:245-248) -/
def loadFiles (env : Env) (files : Str → Option Str) : List Str → VarMap → Except Fail VarMap
  | [], m => .ok m
  | n :: ns, m =>
    match loadFile env files n m with
    | .error f => .error f
    | .ok m => loadFiles env files ns m

/-- `results["config"].as<std::vector<std::string>>()` -/
def configNames (v : VarValue) : Except Fail (List Str) :=
  match v.as (.vector .str) with
  | .error f => .error f
  | .ok (.vector _ l) => .ok (l.filterMap fun | .str s => some s | _ => none)
  | .ok _ => .error .badAnyCast

/-- `ParseConfigFiles` (example/options_heirarchy.cpp:240-250) -/
def parseConfigFiles (env : Env) (files : Str → Option Str) (m : VarMap) : Except Fail VarMap :=
  match m.map.get? (str% "config") with
  | none => .ok m
  | some v =>
    match configNames v with
    | .error f => .error f
    | .ok ns => loadFiles env files ns m

/-- How the program goes on: it has printed the help or version text, or has the options. -/
inductive Outcome
  | exits
  | done (m : VarMap)

/-- The constructor and `ParseOptions` (example/options_heirarchy.cpp:53-67) -/
def parseOptions (env : Env) (args : List Str) (environ : List Str) (files : Str → Option Str) : Except Fail Outcome :=
  match constructed env with
  | .error f => .error f
  | .ok m =>
    match load (parseCommandLine env args) m with
    | .error f => .error f
    | .ok m =>
      if (m.map.get? (str% "help")).isSome || (m.map.get? (str% "version")).isSome then .ok .exits
      else
        match load (parseEnvironment environ (commonOptions env) mapper) m with
        | .error f => .error f
        | .ok m =>
          match parseConfigFiles env files m with
          | .error f => .error f
          | .ok m =>
            match loadFile env files (str% "default.cfg") m with
            | .error f => .error f
            | .ok m => .ok (.done m)

end PO.Hierarchy
