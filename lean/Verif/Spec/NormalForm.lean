import Verif.Spec.StoreGrammar
import Verif.Spec.Cmdline
/-
The normal form of a command line: one `--name=value` per value.
-/
namespace PO.Spec

/-- An option as settings, one for each of its values. Unnamed arguments and unregistered options are left out. -/
def settingsOf (o : Opt) : List (Str × Option Str) :=
  if o.stringKey = [] ∨ o.unregistered = true then []
  else if o.value = [] then [(o.stringKey, none)]
  else o.value.map fun v => (o.stringKey, some v)

/-- The ways to declare a value that come with the library: `value<T>()` and `wvalue<T>()` with any modifiers, and none. -/
inductive LibraryValue : ValueSemantic → Prop
  | typed (env : Env) (t : TypedValue) : LibraryValue (t.toSemantic env)
  | untyped (env : Env) (zero : Bool) : LibraryValue (untypedValue env zero)

/-- Declarations without surprises: the first long names identify the options; they contain neither `=` nor `*`; an option needs at
most one value; and positional arguments are named for options that take a value. -/
structure Regular (c : Cmdline) : Prop where
  identified : Identified c
  named : ∀ d ∈ c.desc, ∃ n, d.longNames.head? = some n ∧ n ≠ [] ∧ '=' ∉ n ∧ '*' ∉ n
  counts : ∀ d ∈ c.desc, d.semantic.minTokens ≤ 1 ∧ d.semantic.minTokens ≤ d.semantic.maxTokens
  positional : ∀ p, c.positional = some p → ∀ n, n ∈ p.names ∨ n = p.trailing → n ≠ [] →
    ∃ d ∈ c.desc, d.longNames.head? = some n ∧ 1 ≤ d.semantic.maxTokens

end PO.Spec
