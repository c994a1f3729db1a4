import Verif.Tests.StoreTest
/- /repo/test/exception_test.cpp, transcribed. -/
namespace PO.Test
open PO

/-- The outcome of `store(parse_command_line(...), vm); notify(vm)`. -/
def thrown (ds : List OptionDesc) (args : String) : Option Fail := both (parseCommandLine (words args) ds Style.defaultStyle)

/-- `get_option_name()`. -/
def nameOf (f : Option Fail) : String :=
  match f with
  | some (.opt e) => String.ofList (e.canonicalName.getD [])
  | _ => "<other>"

def alternatives (f : Option Fail) : List String :=
  match f with
  | some (.opt e) => (match e.cls with | .ambiguousOption alts => alts.map String.ofList | _ => [])
  | _ => []

def many : TypedValue := { vstr with multitoken := true }

-- test_ambiguous
def x1 := [od "cfgfile,c" (sem many), od "output,c" (sem vstr), od "output,o" (sem vstr)]
#guard nameOf (thrown x1 "program -c file -o anotherfile") == "-c"
#guard alternatives (thrown x1 "program -c file -o anotherfile") == ["cfgfile", "output"]
-- test_ambiguous_long
#guard nameOf (thrown x1 "program --cfgfile file --output anotherfile") == "--output"
#guard alternatives (thrown x1 "program --cfgfile file --output anotherfile") == ["output", "output"]
-- test_ambiguous_multiple_long_names
def x2 := [od "cfgfile,foo,c" (sem many), od "output,foo,o" (sem vstr)]
#guard nameOf (thrown x2 "program --foo file") == "--foo"
#guard alternatives (thrown x2 "program --foo file") == ["cfgfile", "output"]
-- test_unknown_option
def x3 := [od "cfgfile,c" (sem vstr)]
#guard nameOf (thrown x3 "program -c file -f anotherfile") == "-f"
#guard msg (thrown x3 "program -c file -f anotherfile") == "unrecognised option '-f'"
-- test_multiple_values
def x4 := [od "cfgfile,c" (sem many), od "output,o" (sem vstr)]
#guard nameOf (thrown x4 "program -o fritz hugo --cfgfile file c -o text.out") == "--cfgfile"
#guard msg (thrown x4 "program -o fritz hugo --cfgfile file c -o text.out") == "option '--cfgfile' only takes a single argument"
-- test_multiple_occurrences
#guard nameOf (thrown x3 "program --cfgfile file -c anotherfile") == "--cfgfile"
#guard msg (thrown x3 "program --cfgfile file -c anotherfile") == "option '--cfgfile' cannot be specified more than once"
-- test_multiple_occurrences_with_different_names
def x5 := [od "cfgfile,config-file,c" (sem vstr)]
#guard nameOf (thrown x5 "program --config-file file --cfgfile anotherfile") == "--cfgfile"
#guard msg (thrown x5 "program --config-file file --cfgfile anotherfile") == "option '--cfgfile' cannot be specified more than once"
-- test_multiple_occurrences_with_non_key_names
#guard nameOf (thrown x5 "program --config-file file -c anotherfile") == "--cfgfile"
#guard msg (thrown x5 "program --config-file file -c anotherfile") == "option '--cfgfile' cannot be specified more than once"
-- test_missing_value
#guard nameOf (thrown x4 "program -c -c output.txt") == "--cfgfile"
#guard (match thrown x4 "program -c -c output.txt" with | some (.opt e) => e.cls == .cmdlineSyntax .missingParameter | _ => false)

end PO.Test
