import Verif.Spec.Caught
import Verif.Spec.Stored
import Verif.Spec.Several
import Verif.Spec.Known
/-
Command lines as most programs have them: a description, perhaps names for positional arguments, one store, one notify.
-/
namespace PO.Spec

/-- The tokens of the occurrences of a name. -/
def tokensOf (os : List Opt) (name : Str) : List (List Str) := (occurrences os name).map (·.value)

/-- What an option gets from the tokens of its occurrences. An option without type can be given once and has no text or one. -/
inductive Gains (env : Env) : ValueSemantic → List (List Str) → Any → Prop
  | never (s : ValueSemantic) : Gains env s [] none
  | alone (zero : Bool) : Gains env (untypedValue env zero) [[]] (some (.scalar (.str [])))
  | text (zero : Bool) (x : Str) : Gains env (untypedValue env zero) [[x]] (some (.scalar (.str x)))
  | typed (t : TypedValue) (hw : t.wide = false) (toks : List (List Str)) (r : Any) (h : Gets env t none (toks.map (·.map .narrow)) r) :
      Gains env (t.toSemantic env) toks r

/-- Declared without type, or with `value<T>` and any modifiers. -/
inductive PlainValue (env : Env) : ValueSemantic → Prop
  | untyped (zero : Bool) : PlainValue env (untypedValue env zero)
  | typed (t : TypedValue) (h : WellTyped t) (hw : t.wide = false) : PlainValue env (t.toSemantic env)

/-- No families, no two options with a common name, also if the case of letters does not count; names for positional arguments are names of
options. -/
structure NamedParser (c : Cmdline) : Prop where
  style : c.styleParser = none
  distinct : NoClash c.desc
  identified : Identified c
  named : ∀ d ∈ c.desc, d.own ≠ []
  positional : ∀ p, c.positional = some p → ∀ i n, p.nameForPosition i = .ok n → ∃ d ∈ c.desc, d.own = n

/-- A usual parser: such a parser for options declared with `value<T>` or without type. -/
structure UsualParser (env : Env) (c : Cmdline) : Prop extends NamedParser c where
  plain : ∀ d ∈ c.desc, PlainValue env d.semantic

/-- The option has to be given and is not: it has no default either. -/
def Lacking (os : List Opt) (d : OptionDesc) : Prop := d.semantic.isRequired = true ∧ ¬ Mentions os d.own ∧ d.semantic.applyDefault = none

/-- The variable belongs to this option and to no other. -/
structure VariableOf (env : Env) (desc : List OptionDesc) (addr : Nat) (d : OptionDesc) : Prop where
  declared : d ∈ desc
  typed : ∃ t : TypedValue, d.semantic = t.toSemantic env ∧ t.storeTo = some addr
  others : ∀ d' ∈ desc, d' ≠ d → (∃ zero, d'.semantic = untypedValue env zero) ∨ ∃ t : TypedValue, d'.semantic = t.toSemantic env ∧ t.storeTo ≠ some addr

end PO.Spec
