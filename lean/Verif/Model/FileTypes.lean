import Verif.Model.Hierarchy
/-
The program example/config_file_types.cpp. What it prints, the file itself, is not modelled. A number is what `lexical_cast` makes of the text; how it is
compared with a literal of the program (`==` for `int`, `check_float` for the others) is a parameter. Type 0 is `int`, type 1 `float`, type 2 `double`.
-/
namespace PO.FileTypes
open Hierarchy (opt string)

/-- `make_file` (example/config_file_types.cpp:28-79), the pieces in the order in which they are written; the comments are left out. `seekp` does not move the reading position. -/
def makeFile : Str :=
  [str% "# This file checks parsing of various types of config values\n", str% "global_string = global value\n",
   str% "unregistered_entry = unregistered value\n", str% "\n[strings]\n", str% "word = word\n", str% "phrase = this is a phrase\n",
   str% "quoted = \"quotes are in result\"\n", str% "\n[ints]\n", str% "positive = 41\n", str% "negative = -42\n", str% "\n[floats]\n",
   str% "positive = 51.1\n", str% "negative = -52.1\n", str% "double = 53.1234567890\n", str% "int = 54\n", str% "int_dot = 55.\n",
   str% "dot = .56\n", str% "exp_lower = 57.1e5\n", str% "exp_upper = 58.1E5\n", str% "exp_decimal = .591e5\n", str% "exp_negative = 60.1e-5\n",
   str% "exp_negative_val = -61.1e5\n", str% "exp_negative_negative_val = -62.1e-5\n", str% "\n[booleans]\n", str% "number_true = 1\n",
   str% "number_false = 0\n", str% "yn_true = yes\n", str% "yn_false = no\n", str% "tf_true = true\n", str% "tf_false = false\n",
   str% "onoff_true = on\n", str% "onoff_false = off\n", str% "present_equal_true = \n"].flatten

def number (ty : Nat) : TypedValue := { type := .scalar (.lex ty) }

/-- `set_options` (example/config_file_types.cpp:81-136) -/
def setOptions (env : Env) : List OptionDesc :=
  List.flatMap (fun q => opt q.1 (q.2.toSemantic env))
    [(str% "global_string", string), (str% "strings.word", string), (str% "strings.phrase", string), (str% "strings.quoted", string),
     (str% "ints.positive", number 0), (str% "ints.negative", number 0), (str% "ints.hex", number 0), (str% "ints.oct", number 0),
     (str% "ints.bin", number 0), (str% "floats.positive", number 1), (str% "floats.negative", number 1), (str% "floats.double", number 2),
     (str% "floats.int", number 1), (str% "floats.int_dot", number 1), (str% "floats.dot", number 1), (str% "floats.exp_lower", number 1),
     (str% "floats.exp_upper", number 1), (str% "floats.exp_decimal", number 1), (str% "floats.exp_negative", number 1),
     (str% "floats.exp_negative_val", number 1), (str% "floats.exp_negative_negative_val", number 1),
     (str% "booleans.number_true", boolSwitch), (str% "booleans.number_false", boolSwitch), (str% "booleans.yn_true", boolSwitch),
     (str% "booleans.yn_false", boolSwitch), (str% "booleans.tf_true", boolSwitch), (str% "booleans.tf_false", boolSwitch),
     (str% "booleans.onoff_true", boolSwitch), (str% "booleans.onoff_false", boolSwitch), (str% "booleans.present_equal_true", boolSwitch),
     (str% "booleans.present_no_equal_true", boolSwitch)]

/-- `parse_file` (example/config_file_types.cpp:138-149) for a file with this text -/
def parseFile (env : Env) (text : Str) : Except Fail (VarMap × List Str) :=
  match parseConfigFile text (setOptions env) true with
  | .error f => .error f
  | .ok p =>
    match store p {} with
    | (_, some f) => .error f
    | (m, none) =>
      match m.notify with
      | (_, some f) => .error f
      | (_, none) => .ok (m, collectUnrecognized .excludePositional p.options)

/-- How the program does not get to its end: an exception, an index out of range, a failed assertion. -/
inductive Ending
  | throws (f : Fail)
  | undefined
  | fails

def assert (b : Bool) : Except Ending Unit := if b then .ok () else .error .fails

/-- `assert(vm[name].as<string>() == expected)` -/
def checkString (m : VarMap) (name expected : Str) : Except Ending Unit :=
  match (m.get name).as (.scalar .str) with
  | .error f => .error (.throws f)
  | .ok (.scalar (.str s)) => assert (s == expected)
  | .ok _ => .error (.throws .badAnyCast)

/-- `assert(vm[name].as<int>() == expected)`, and with `check_float` -/
def checkNumber (agrees : Nat → Int → Str → Bool) (m : VarMap) (name : Str) (ty : Nat) (literal : Str) : Except Ending Unit :=
  match (m.get name).as (.scalar (.lex ty)) with
  | .error f => .error (.throws f)
  | .ok (.scalar (.lex _ v)) => assert (agrees ty v literal)
  | .ok _ => .error (.throws .badAnyCast)

/-- `assert(vm[name].as<bool>() == expected)` -/
def checkBool (m : VarMap) (name : Str) (expected : Bool) : Except Ending Unit :=
  match (m.get name).as (.scalar .bool) with
  | .error f => .error (.throws f)
  | .ok (.scalar (.bool b)) => assert (b == expected)
  | .ok _ => .error (.throws .badAnyCast)

/-- `assert(unregistered[i] == expected)` -/
def checkUnregistered (unregistered : List Str) (i : Nat) (expected : Str) : Except Ending Unit :=
  match unregistered[i]? with
  | none => .error .undefined
  | some s => assert (s == expected)

/-- One after the other. -/
def inOrder : List (Except Ending Unit) → Except Ending Unit
  | [] => .ok ()
  | .ok _ :: rest => inOrder rest
  | .error e :: _ => .error e

/-- `check_results` (example/config_file_types.cpp:151-231) -/
def checkResults (agrees : Nat → Int → Str → Bool) (m : VarMap) (unregistered : List Str) : Except Ending Unit :=
  inOrder [
    checkString m (str% "global_string") (str% "global value"), checkUnregistered unregistered 0 (str% "unregistered_entry"),
    checkUnregistered unregistered 1 (str% "unregistered value"), checkString m (str% "strings.word") (str% "word"),
    checkString m (str% "strings.phrase") (str% "this is a phrase"), checkString m (str% "strings.quoted") (str% "\"quotes are in result\""),
    checkNumber agrees m (str% "ints.positive") 0 (str% "41"), checkNumber agrees m (str% "ints.negative") 0 (str% "-42"),
    checkNumber agrees m (str% "floats.positive") 1 (str% "51.1f"), checkNumber agrees m (str% "floats.negative") 1 (str% "-52.1f"),
    checkNumber agrees m (str% "floats.double") 2 (str% "53.1234567890"), checkNumber agrees m (str% "floats.int") 1 (str% "54.0f"),
    checkNumber agrees m (str% "floats.int_dot") 1 (str% "55.0f"), checkNumber agrees m (str% "floats.dot") 1 (str% ".56f"),
    checkNumber agrees m (str% "floats.exp_lower") 1 (str% "57.1e5f"), checkNumber agrees m (str% "floats.exp_upper") 1 (str% "58.1E5f"),
    checkNumber agrees m (str% "floats.exp_decimal") 1 (str% ".591e5f"), checkNumber agrees m (str% "floats.exp_negative") 1 (str% "60.1e-5f"),
    checkNumber agrees m (str% "floats.exp_negative_val") 1 (str% "-61.1e5f"),
    checkNumber agrees m (str% "floats.exp_negative_negative_val") 1 (str% "-62.1e-5f"), checkBool m (str% "booleans.number_true") true,
    checkBool m (str% "booleans.number_false") false, checkBool m (str% "booleans.yn_true") true, checkBool m (str% "booleans.yn_false") false,
    checkBool m (str% "booleans.tf_true") true, checkBool m (str% "booleans.tf_false") false, checkBool m (str% "booleans.onoff_true") true,
    checkBool m (str% "booleans.onoff_false") false, checkBool m (str% "booleans.present_equal_true") true]

/-- `main` (example/config_file_types.cpp:233-242) with a file of this text -/
def main (env : Env) (agrees : Nat → Int → Str → Bool) (text : Str) : Except Ending Unit :=
  match parseFile env text with
  | .error f => .error (.throws f)
  | .ok (m, unregistered) => checkResults agrees m unregistered

end PO.FileTypes
