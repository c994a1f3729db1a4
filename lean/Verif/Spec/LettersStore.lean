import Mathlib.Data.List.Forall2
import Verif.Spec.Letters
import Verif.Model.VarMap
/-
Two stores of the same options in other letters, for C154.
-/
namespace PO.Letters

/-- The same variable is assigned, or the same function called, with the same value in other letters. -/
inductive SameEvent (Q : Any → Any → Prop) : Event → Event → Prop
  | assign (addr : Nat) {v v' : AVal} (h : Q (some v) (some v')) : SameEvent Q (.assign addr v) (.assign addr v')
  | callback (id : Nat) {v v' : AVal} (h : Q (some v) (some v')) : SameEvent Q (.callback id v) (.callback id v')

/-- The second semantic does with other letters what the first does; `Q` says which values are the same. -/
structure SameReading (π : Char → Char) (Q : Any → Any → Prop) (utf8 : Bool) (s s' : ValueSemantic) : Prop where
  composing : s'.isComposing = s.isComposing
  required : s'.isRequired = s.isRequired
  value : ∀ a a' vs, Q a a' → Q (s.parse a vs utf8).1 (s'.parse a' (vs.map (ren π)) utf8).1
  refusal : ∀ a a' vs, Q a a' → (s'.parse a' (vs.map (ren π)) utf8).2 = (s.parse a vs utf8).2.map (renFail π)
  default : Option.Rel Q s.applyDefault s'.applyDefault
  told : ∀ a a', Q a a' → List.Forall₂ (SameEvent Q) (s.notify a).1 (s'.notify a').1
  untold : ∀ a a', Q a a' → (s'.notify a').2 = (s.notify a).2.map (renFail π)

structure SameValue (π : Char → Char) (Q : Any → Any → Prop) (utf8 : Bool) (v v' : VarValue) : Prop where
  value : Q v.v v'.v
  defaulted : v'.defaulted = v.defaulted
  semantic : Option.Rel (SameReading π Q utf8) v.semantic v'.semantic

/-- The same map in other letters: the same values under the other names, and no others. -/
structure SameMap (π : Char → Char) (Q : Any → Any → Prop) (utf8 : Bool) (m m' : VarMap) : Prop where
  value : ∀ n, Option.Rel (SameValue π Q utf8) (m.map.get? n) (m'.map.get? (ren π n))
  noValue : ∀ n', (∀ n, n' ≠ ren π n) → m'.map.get? n' = none
  final : ∀ n, ren π n ∈ m'.final ↔ n ∈ m.final
  noFinal : ∀ n', (∀ n, n' ≠ ren π n) → n' ∉ m'.final
  required : ∀ n, m'.required.get? (ren π n) = (m.required.get? n).map (ren π)
  notRequired : ∀ n', (∀ n, n' ≠ ren π n) → m'.required.get? n' = none

/-- The description in other letters, with semantics for these letters. -/
def renTyped (π : Char → Char) (σ : ValueSemantic → ValueSemantic) (d : OptionDesc) : OptionDesc :=
  { renOption π d with semantic := σ d.semantic }

def renScalar (π : Char → Char) : SVal → SVal
  | .str s => .str (ren π s)
  | v => v

/-- A value with the strings in it in other letters. -/
def renAny (π : Char → Char) : Any → Any
  | some (.scalar v) => some (.scalar (renScalar π v))
  | some (.vector t vs) => some (.vector t (vs.map (renScalar π)))
  | some (.optional t v) => some (.optional t (v.map (renScalar π)))
  | none => none

end PO.Letters
