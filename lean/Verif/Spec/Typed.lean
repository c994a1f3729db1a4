import Verif.Spec.StoreGrammar
/-
Types of values.
-/
namespace PO.Spec

/-- What the C++ types of `default_value` and `implicit_value` guarantee. -/
structure WellTyped (t : TypedValue) : Prop where
  dflt : ∀ q, t.dflt = some q → q.1.type = t.type
  implicit : ∀ q, t.implicit = some q → q.1.type = t.type

/-- An option declared with type `T`: by `value<T>` or `wvalue<T>` with any modifiers, or as untyped (which is `std::string`). -/
inductive Declared : ValueSemantic → VType → Prop
  | typed (env : Env) (t : TypedValue) (h : WellTyped t) : Declared (t.toSemantic env) t.type
  | untyped (env : Env) (zero : Bool) : Declared (untypedValue env zero) (.scalar .str)

/-- `name` has the type `T` in the descriptions: every option it stands for, and every option whose default it takes. -/
def HasType (desc : List OptionDesc) (name : Str) (T : VType) : Prop :=
  ∀ d ∈ desc, candidates desc name = [d] ∨ d.own = name → Declared d.semantic T

end PO.Spec
