import Verif.Spec.OwnName
import Verif.Spec.Stored
/-
Environment variables of a program.
-/
namespace PO.Spec

/-- With the prefix `pre`, the variable `var` stands for the option name `name`: what follows the prefix is the name, in any letter case. -/
def StandsFor (pre var name : Str) : Prop := pre <+: var ∧ name ≠ [] ∧ (var.drop pre.length).map Char.toLower = name

instance (pre var name : Str) : Decidable (StandsFor pre var name) := inferInstanceAs (Decidable (_ ∧ _ ∧ _))

/-- The values of the variables that stand for `name`, in the order of the environment. -/
def variableValues (pre : Str) (vars : List (Str × Str)) (name : Str) : List Str := (vars.filter fun v => StandsFor pre v.1 name).map (·.2)

/-- A name with an upper-case letter. -/
def HasUpper (name : Str) : Prop := name.map Char.toLower ≠ name

end PO.Spec
