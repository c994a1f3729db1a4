import Verif.Model.Err
/-
Exceptions, spelled out.
-/
namespace PO.Spec

/-- An exception of the class `cls` about the option `name`, which was written as `tok`; `style` tells the dashes to display. -/
def about (cls : ErrClass) (name tok : Str) (style : Nat) : Fail :=
  .opt { cls, style, subst := [(str% "option", name), (str% "original_token", tok)] }

/-- An exception of the class `cls` about a value. -/
def aboutValue (cls : ErrClass) (value name tok : Str) (style : Nat) : Fail :=
  .opt { cls, style, subst := [(str% "option", name), (str% "original_token", tok), (str% "value", value)] }

/-- The complaint about the overlapping wildcards `name` and `neighbour*`. -/
def overlapText (name neighbour : Str) : Str :=
  str% "options '" ++ name ++ str% "' and '" ++ neighbour ++ str% "*' will both match the same arguments from the configuration file"

end PO.Spec
