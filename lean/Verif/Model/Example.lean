import Verif.Model.Parsers
import Verif.Model.VarMap
/-
Functions of the programs in /repo/example that work with the library.
-/
namespace PO.Example

/-- `at_option_parser` (example/response_file.cpp:33-39). `s[0]` of an empty string is the null character. -/
def atOption (s : Str) : Str × Str :=
  match s with
  | '@' :: t => (str% "response-file", t)
  | _ => ([], [])

/-- `reg_foo` (example/custom_syntax.cpp:26-36). `s.find("-f") == 0` implies `2 <= s.size()`, and `s.substr(2, 3) == "no-"` that
`5 <= s.size()`, so no `substr` throws. -/
def regFoo (s : Str) : Str × Str :=
  if findSub s (str% "-f") = some 0 then
    if substr s 2 3 = str% "no-" then (s.drop 5, str% "false") else (s.drop 2, str% "true")
  else ([], [])

/-- `tokenizer<char_separator<char> >` with `char_separator<char> sep(" \n\r")` (example/response_file.cpp:72-76): the longest pieces
without separators; empty ones are dropped. `cur` is the piece that has begun. -/
def words (cur : Str) : Str → List Str
  | [] => if cur = [] then [] else [cur]
  | c :: cs =>
    if c = ' ' ∨ c = '\n' ∨ c = '\r' then (if cur = [] then words [] cs else cur :: words [] cs)
    else words (cur ++ [c]) cs

/-- The part of `main` of example/response_file.cpp that reads (54-56, 61-79): the command line, and then the response file that it
names, if any. `file` is the text of that file, `none` if it cannot be opened; then the program stops, here with the map so far. The
second component is the exception. -/
def responseMain (desc : List OptionDesc) (args : List Str) (file : Str → Option Str) : VarMap × Option Fail :=
  match ({ desc, additional := some atOption } : Cmdline).parse args with
  | .error f => ({}, some f)
  | .ok p =>
    match store p {} with
    | (m, some f) => (m, some f)
    | (m, none) =>
      match m.map.get? (str% "response-file") with
      | none => (m, none)
      | some v =>
        match v.v with
        | some (.scalar (.str name)) =>
          match file name with
          | none => (m, none)
          | some text =>
            match ({ desc } : Cmdline).parse (words [] text) with
            | .error f => (m, some f)
            | .ok q => store q m
        | _ => (m, some .badAnyCast)

/-- `vm.count(name) && !vm[name].defaulted()`, as in the functions below. -/
def isGiven (m : VarMap) (name : Str) : Bool := (m.map.get? name).isSome && !(m.get name).defaulted

/-- `conflicting_options` (example/real.cpp:17-24): whether it throws. -/
def conflicting (m : VarMap) (opt1 opt2 : Str) : Bool := isGiven m opt1 && isGiven m opt2

/-- `option_dependency` (example/real.cpp:28-35): whether it throws. -/
def dependencyMissing (m : VarMap) (forWhat required : Str) : Bool :=
  isGiven m forWhat && ((m.map.get? required).isNone || (m.get required).defaulted)

end PO.Example
