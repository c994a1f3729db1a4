import Verif.Model.Programs
/-
The program test/quick.cpp. What it writes to `std::cerr` is not modelled.
-/
namespace PO.Quick
open Hierarchy (opt string)

/-- How the program ends. -/
inductive Ending
  | exits (code : Nat)
  /-- an exception that is not caught -/
  | escapes (f : Fail)
  | undefined (u : UB)

/-- `desc` (test/quick.cpp:17-21) -/
def desc (env : Env) : List OptionDesc := opt (str% "path,p") (string.toSemantic env)

/-- test/quick.cpp:36-47, up to `BOOST_TEST_EQ` and `report_errors` -/
def check (m : VarMap) : Ending :=
  if Programs.count m (str% "path") then
    match (m.get (str% "path")).as (.scalar .str) with
    | .error f => .escapes f
    | .ok (.scalar (.str s)) => .exits (if s = str% "initial" then 0 else 1)
    | .ok _ => .escapes .badAnyCast
  else .exits (if ([] : Str) = str% "initial" then 0 else 1)

/-- `main` (test/quick.cpp:15-48) with the program name and the arguments in `argv` -/
def main (env : Env) (argv : List Str) : Ending :=
  match Hierarchy.load (parseCommandLine argv (desc env)) {} with
  | .error (.ub u) => .undefined u
  | .error _ => .exits 1
  | .ok m => check m

end PO.Quick
