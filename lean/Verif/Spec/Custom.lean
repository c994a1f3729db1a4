import Verif.Model.Custom
import Verif.Spec.Usual
/-
What a program can rely on when it supplies `validate` for a class of its own.
-/
namespace PO.Spec

/-- One string alone is accepted, and gives the object `r` of the class. -/
def Element {α : Type} (f : Validator α) (T : SType) (x : α) (r : SVal) : Prop := f none [x] = (some (.scalar r), none) ∧ r.type = T

/-- How one string alone is refused as an element of a vector: `bad_lexical_cast` becomes `invalid_option_value` with the string, other exceptions
stay what they are, and something that is not of the class is `bad_any_cast`. -/
inductive RefusesElement (f : Validator Str) (T : SType) (x : Str) : Fail → Prop
  | cast {a} (h : f none [x] = (a, some .badLexicalCast)) :
      RefusesElement f T x (.opt { cls := .validation .invalidOptionValue, style := 0, subst := [(str% "option", []), (str% "original_token", []), (str% "value", x)] })
  | thrown {a e} (h : f none [x] = (a, some e)) (he : e ≠ .badLexicalCast) : RefusesElement f T x e
  | other {a} (h : f none [x] = (a, none)) (ha : ∀ r : SVal, r.type = T → a ≠ some (.scalar r)) : RefusesElement f T x .badAnyCast

/-- The value `v` of an option of the given type is `a` after the strings `xs`: for the class itself that is what `validate` says; a vector gets one
more element for each string; an optional has to be without value, and takes one string. -/
inductive Step (f : Validator Str) : VType → Any → List Str → Any → Prop
  | scalar {T v xs a} (h : f v xs = (a, none)) : Step f (.scalar T) v xs a
  | first {T xs rs} (h : List.Forall₂ (Element f T) xs rs) : Step f (.vector T) none xs (some (.vector T rs))
  | more {T vs xs rs} (h : List.Forall₂ (Element f T) xs rs) : Step f (.vector T) (some (.vector T vs)) xs (some (.vector T (vs ++ rs)))
  | optional {T x r} (h : Element f T x r) : Step f (.optional T) none [x] (some (.optional T (some r)))

/-- The exception for the strings `xs` when the option has the value `v`. -/
inductive Objection (f : Validator Str) : VType → Any → List Str → Fail → Prop
  | scalar {T v xs a e} (h : f v xs = (a, some e)) : Objection f (.scalar T) v xs e
  | element {T v ys x zs rs e} (h : List.Forall₂ (Element f T) ys rs) (he : RefusesElement f T x e) : Objection f (.vector T) v (ys ++ x :: zs) e
  | again {T a xs} : Objection f (.optional T) (some a) xs
      (.opt { cls := .multipleOccurrences, style := 0, subst := [(str% "option", []), (str% "original_token", [])] })
  | nothing {T} : Objection f (.optional T) none []
      (.opt { cls := .validation .atLeastOneValueRequired, style := 0, subst := [(str% "option", []), (str% "original_token", [])] })
  | several {T x y zs} : Objection f (.optional T) none (x :: y :: zs)
      (.opt { cls := .validation .multipleValuesNotAllowed, style := 0, subst := [(str% "option", []), (str% "original_token", [])] })
  | thrown {T x a e} (h : f none [x] = (a, some e)) : Objection f (.optional T) none [x] e
  | other {T x a} (h : f none [x] = (a, none)) (ha : ∀ r : SVal, r.type = T → a ≠ some (.scalar r)) : Objection f (.optional T) none [x] .badAnyCast

/-- One occurrence of the option after the other: with the implicit value for one without strings. -/
inductive Hands (f : Validator Str) (t : TypedValue) : Any → List (List Str) → Any → Prop
  | done (v) : Hands f t v [] v
  | implicit {v rest q r} (h : t.implicit = some q) (hr : Hands f t (some q.1) rest r) : Hands f t v ([] :: rest) r
  | called {v xs rest a r} (h : xs ≠ [] ∨ t.implicit = none) (hs : Step f t.type v xs a) (hr : Hands f t a rest r) : Hands f t v (xs :: rest) r

/-- An option with `value<T>`, `value<vector<T>>` or `value<optional<T>>` where `T` has overloads, or one without. -/
inductive Admits (env : Env) : ValueSemantic → Prop
  | plain {s} (h : PlainValue env s) : Admits env s
  | custom (t : TypedValue) (o : Overloads) (h : WellTyped t) (hw : t.wide = false) : Admits env (t.withOverloads env o)

/-- What an option gets from the tokens of its occurrences. -/
inductive Obtains (env : Env) : ValueSemantic → List (List Str) → Any → Prop
  | plain {s toks r} (h : Gains env s toks r) : Obtains env s toks r
  | custom {t o toks r} (hw : t.wide = false) (h : Hands o.narrow t none toks r) : Obtains env (t.withOverloads env o) toks r

/-- A parser for options with and without overloads. -/
structure CustomParser (env : Env) (c : Cmdline) : Prop extends NamedParser c where
  admits : ∀ d ∈ c.desc, Admits env d.semantic

/-- `validate` as it should be: given nothing or an object of the class, it leaves an object of the class, or throws and leaves what was there. -/
structure Proper (f : Validator Str) (T : SType) : Prop where
  stores : ∀ v xs a, (∀ x, v = some x → x.type = .scalar T) → f v xs = (a, none) → ∃ r : SVal, r.type = T ∧ a = some (.scalar r)
  leaves : ∀ v xs a e, (∀ x, v = some x → x.type = .scalar T) → f v xs = (a, some e) → a = v

/-- What the overload may throw so that only exceptions of the library leave `store`: for elements of vectors also `bad_lexical_cast`. -/
def Polite (f : Validator Str) (T : VType) : Prop :=
  ∀ v xs a e, f v xs = (a, some e) → LibraryException e ∨ e = .badLexicalCast ∧ ∃ t, T = .vector t

/-- `T` in `value<T>`, `value<vector<T>>` and `value<optional<T>>` -/
def _root_.PO.VType.element : VType → SType
  | .scalar T => T
  | .vector T => T
  | .optional T => T

/-- All the overloads are proper. -/
def ProperOptions (env : Env) (desc : List OptionDesc) : Prop :=
  ∀ d ∈ desc, PlainValue env d.semantic ∨ ∃ t o, d.semantic = TypedValue.withOverloads env o t ∧ WellTyped t ∧ t.wide = false ∧ Proper o.narrow t.type.element

end PO.Spec
