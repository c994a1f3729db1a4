import Verif.Spec.StoreGrammar
import Verif.Spec.Convert
/-
The value an option has after its occurrences, from the texts of these.
-/
namespace PO.Spec

/-- The option `t`, given the texts of its occurrences one after the other, ends with a value. -/
inductive Gets (env : Env) (t : TypedValue) : Any → List (List Word) → Any → Prop
  | done (v : Any) : Gets env t v [] v
  | more (v : Any) (xs : List Word) (rest : List (List Word)) (a : AVal) (r : Any) (h : Takes env t v xs a) (hr : Gets env t (some a) rest r) :
      Gets env t v (xs :: rest) r

/-- The texts that arrive for the occurrences of a name. -/
def AllArrive (env : Env) (wide utf8 : Bool) (tokens : List (List Str)) (texts : List (List Word)) : Prop :=
  List.Forall₂ (List.Forall₂ (Arrives env wide utf8)) tokens texts

/-- The text that arrives at an option for a wide token: the token itself, or the same in the local character set. -/
inductive WArrives (env : Env) : (wide : Bool) → WStr → Word → Prop
  | same (w : WStr) : WArrives env true w (.wide w)
  | narrowed (w : WStr) (s : Str) (h : env.toLocal w = some s) : WArrives env false w (.narrow s)

/-- The occurrences of a name among wide options. -/
def woccurrences (os : List WOpt) (name : Str) : List WOpt :=
  os.filter fun o => o.stringKey = name ∧ name ≠ [] ∧ o.unregistered = false

/-- The values assigned to the variable `addr`, in order. -/
def assigned (addr : Nat) (es : List Event) : List AVal :=
  es.filterMap fun
    | .assign p a => if p = addr then some a else none
    | .callback _ _ => none

/-- The variable `addr` is bound to the option `d` only, and this option is meant by one name only. -/
structure Bound (env : Env) (p : Parsed) (name : Str) (addr : Nat) (d : OptionDesc) : Prop where
  typed : ∃ t : TypedValue, d.semantic = t.toSemantic env ∧ t.storeTo = some addr
  others : ∀ d' ∈ p.desc, d' ≠ d → (∃ zero, d'.semantic = untypedValue env zero) ∨
    ∃ t : TypedValue, d'.semantic = t.toSemantic env ∧ t.storeTo ≠ some addr
  meant : Mentions p.options name → candidates p.desc name = [d]
  mentioned : ∀ k, Mentions p.options k → candidates p.desc k = [d] → k = name
  named : ∀ d' ∈ p.desc, d'.own = name ↔ d' = d

end PO.Spec
