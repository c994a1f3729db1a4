import Verif.Model.EnvOptions
import Verif.Spec.Variables
/-
What example/env_options.cpp prints.
-/
namespace PO.Spec

/-- The values of the variables whose name is `name` if written in capitals, in the order of the environment. -/
def inCapitals (vars : List (Str × Str)) (name : Str) : List Str := (vars.filter fun v => v.1.map Char.toUpper = name).map (·.2)

/-- The two lines about the path, if there is a variable for it. -/
inductive PathLines : List Str → Str → Prop
  | none : PathLines [] []
  | one (p : Str) : PathLines [p] (str% "First 75 chars of the system path: \n" ++ p.take 75 ++ ['\n'])

/-- The verbosity: the variable, or else `INFO`. -/
inductive Verbosity : List Str → Str → Prop
  | none : Verbosity [] (str% "INFO")
  | one (v : Str) : Verbosity [v] v

end PO.Spec
