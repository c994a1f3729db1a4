import Verif.Model.Hierarchy
import Verif.Model.Example
/-
The programs example/first.cpp, example/option_groups.cpp and example/real.cpp. Not modelled: the texts of the descriptions; what `<<` writes for a
description is a parameter, and so is what it writes for a number.
-/
namespace PO.Programs
open Hierarchy (opt string)

/-- How a program ends: it returns `code` and has printed `out`; or an exception of the library, or a `logic_error` with this text of the program
itself, gets to the handler in `main`. -/
inductive Ending
  | exits (code : Nat) (out : Str)
  | caught (f : Fail)
  | complains (text : Str)
  deriving DecidableEq

def count (m : VarMap) (name : Str) : Bool := (m.map.get? name).isSome

/-- `vm[name].as<T>()` for the number type `ty` -/
def number (m : VarMap) (name : Str) (ty : Nat) : Except Fail Int :=
  match (m.get name).as (.scalar (.lex ty)) with
  | .error f => .error f
  | .ok (.scalar (.lex _ n)) => .ok n
  | .ok _ => .error .badAnyCast

/-! ### example/first.cpp -/

/-- `desc` (example/first.cpp:20-24); type 0 is `double`. -/
def firstDesc (env : Env) : List OptionDesc :=
  opt (str% "help") (untypedValue env true) ++ opt (str% "compression") ({ type := .scalar (.lex 0) : TypedValue }.toSemantic env)

/-- example/first.cpp:30-40 -/
def firstReport (print : Int → Str) (help : Str) (m : VarMap) : Ending :=
  if count m (str% "help") then .exits 0 (help ++ ['\n'])
  else if count m (str% "compression") then
    match number m (str% "compression") 0 with
    | .error f => .caught f
    | .ok n => .exits 0 (str% "Compression level was set to " ++ print n ++ str% ".\n")
  else .exits 0 (str% "Compression level was not set.\n")

/-- `main` (example/first.cpp:16-51) with the program name and the arguments in `argv` -/
def first (env : Env) (print : Int → Str) (help : Str) (argv : List Str) : Ending :=
  match Hierarchy.load (parseCommandLine argv (firstDesc env)) {} with
  | .error f => .caught f
  | .ok m => firstReport print help m

/-! ### example/option_groups.cpp -/

/-- `general`, `gui`, `backend` (example/option_groups.cpp:39-55); type 0 is `int`. -/
def general (env : Env) : List OptionDesc :=
  opt (str% "help") (untypedValue env true) ++ opt (str% "help-module") (string.toSemantic env) ++ opt (str% "version") (untypedValue env true)
def gui (env : Env) : List OptionDesc := opt (str% "display") (string.toSemantic env)
def backend (env : Env) : List OptionDesc := opt (str% "num-threads") ({ type := .scalar (.lex 0) : TypedValue }.toSemantic env)

/-- What is written for the descriptions `visible`, `gui` and `backend`. -/
structure GroupTexts where
  visible : Str
  gui : Str
  backend : Str

/-- example/option_groups.cpp:71-92 -/
def groupsReport (print : Int → Str) (texts : GroupTexts) (m : VarMap) : Ending :=
  if count m (str% "help") then .exits 0 texts.visible
  else if count m (str% "help-module") then
    match (m.get (str% "help-module")).as (.scalar .str) with
    | .error f => .caught f
    | .ok (.scalar (.str s)) =>
      if s = str% "gui" then .exits 0 texts.gui
      else if s = str% "backend" then .exits 0 texts.backend
      else .exits 1 (str% "Unknown module '" ++ s ++ str% "' in the --help-module option\n")
    | .ok _ => .caught .badAnyCast
  else if count m (str% "num-threads") then
    match number m (str% "num-threads") 0 with
    | .error f => .caught f
    | .ok n => .exits 0 (str% "The 'num-threads' options was set to " ++ print n ++ ['\n'])
  else .exits 0 []

/-- `main` (example/option_groups.cpp:35-97); there is no `notify`. -/
def groups (env : Env) (print : Int → Str) (texts : GroupTexts) (argv : List Str) : Ending :=
  match parseCommandLine argv (general env ++ gui env ++ backend env) with
  | .error f => .caught f
  | .ok p =>
    match store p {} with
    | (_, some f) => .caught f
    | (m, none) => groupsReport print texts m

/-! ### example/real.cpp -/

/-- `desc` (example/real.cpp:49-67). The variables are only assigned by `notify`, which is not called; they are numbered. -/
def realDesc (env : Env) : List OptionDesc :=
  opt (str% "help,h") (untypedValue env true) ++ opt (str% "output,o") ({ string with storeTo := some 0 }.toSemantic env) ++
  opt (str% "macrofile,m") ({ string with storeTo := some 1 }.toSemantic env) ++ opt (str% "two,t") ((boolSwitch (some 2)).toSemantic env) ++
  opt (str% "body,b") ((boolSwitch (some 3)).toSemantic env) ++ opt (str% "libmakfile,l") ({ string with storeTo := some 4 }.toSemantic env) ++
  opt (str% "mainpackage,p") ({ string with storeTo := some 5 }.toSemantic env) ++ opt (str% "depends,d") ({ string with storeTo := some 6 }.toSemantic env) ++
  opt (str% "sources,s") ({ string with storeTo := some 7 }.toSemantic env) ++ opt (str% "root,r") ({ string with storeTo := some 8 }.toSemantic env)

/-- `conflicting_options` (example/real.cpp:17-24) -/
def conflictingOptions (m : VarMap) (a b : Str) : Except Str Unit :=
  if Example.conflicting m a b then .error (str% "Conflicting options '" ++ a ++ str% "' and '" ++ b ++ str% "'.") else .ok ()

/-- `option_dependency` (example/real.cpp:28-35) -/
def optionDependency (m : VarMap) (a b : Str) : Except Str Unit :=
  if Example.dependencyMissing m a b then .error (str% "Option '" ++ a ++ str% "' requires option '" ++ b ++ str% "'.") else .ok ()

/-- example/real.cpp:77-89 -/
def realChecks (m : VarMap) : Except Str Unit := do
  conflictingOptions m (str% "output") (str% "two")
  conflictingOptions m (str% "output") (str% "body")
  conflictingOptions m (str% "output") (str% "mainpackage")
  conflictingOptions m (str% "two") (str% "mainpackage")
  conflictingOptions m (str% "body") (str% "mainpackage")
  conflictingOptions m (str% "two") (str% "body")
  conflictingOptions m (str% "libmakfile") (str% "mainpackage")
  conflictingOptions m (str% "libmakfile") (str% "mainpackage")
  optionDependency m (str% "depends") (str% "mainpackage")
  optionDependency m (str% "sources") (str% "mainpackage")
  optionDependency m (str% "root") (str% "mainpackage")

/-- example/real.cpp:72-91 -/
def realReport (help : Str) (m : VarMap) : Ending :=
  if count m (str% "help") then .exits 0 (help ++ ['\n'])
  else
    match realChecks m with
    | .error text => .complains text
    | .ok () =>
      match (m.get (str% "two")).as (.scalar .bool) with
      | .error f => .caught f
      | .ok (.scalar (.bool b)) => .exits 0 (str% "two = " ++ (if b then ['1'] else ['0']) ++ ['\n'])
      | .ok _ => .caught .badAnyCast

/-- `main` (example/real.cpp:37-96) -/
def real (env : Env) (help : Str) (argv : List Str) : Ending :=
  match parseCommandLine argv (realDesc env) with
  | .error f => .caught f
  | .ok p =>
    match store p {} with
    | (_, some f) => .caught f
    | (m, none) => realReport help m

end PO.Programs
