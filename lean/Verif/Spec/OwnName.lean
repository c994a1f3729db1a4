import Verif.Spec.Known
/-
Values under the own name of their option.
-/
namespace PO.Spec

/-- Where parsed options come from. -/
inductive Source : Parsed → Prop
  | commandLine (c : Cmdline) (args : List Str) (p : Parsed) (h : c.parse args = .ok p) : Source p
  | configFile (text : Str) (desc : List OptionDesc) (p : Parsed) (h : parseConfigFile text desc false = .ok p) : Source p
  | environment (entries : List Str) (desc : List OptionDesc) (pre : Str) (p : Parsed) (h : parseEnvironmentPrefix entries desc pre = .ok p) : Source p

/-- `o` is a setting of the declared option `d`. -/
structure Setting (p : Parsed) (o : Opt) (d : OptionDesc) : Prop where
  mem : o ∈ p.options
  named : o.stringKey ≠ []
  registered : o.unregistered = false
  option : candidates p.desc o.stringKey = [d]

/-- The name under which a program looks for the option: its first long name or, without one, its short name. For an option declared as
a family `stem*`, the member. -/
abbrev ownName (d : OptionDesc) (name : Str) : Str := reportedKey d name

/-- The map has a value for the name, and it is not a default. -/
def HasExplicit (m : VarMap) (name : Str) : Prop := ∃ v, m.map.get? name = some v ∧ v.defaulted = false

/-- Every option that `p` sets has a value under its own name. -/
def FoundByName (p : Parsed) (m : VarMap) : Prop := ∀ o d, Setting p o d → HasExplicit m (ownName d o.stringKey)

/-- Every setting in `p` has the own name of its option. -/
def OwnNames (p : Parsed) : Prop := ∀ o d, Setting p o d → ownName d o.stringKey = o.stringKey

end PO.Spec
