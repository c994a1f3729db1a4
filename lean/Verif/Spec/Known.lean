import Verif.Spec.StoreGrammar
import Verif.Spec.Cmdline
import Verif.Spec.Config
/-
Names that a store can make something of.
-/
namespace PO.Spec

/-- For a store the name stands for exactly one declared option. -/
def Known (desc : List OptionDesc) (name : Str) : Prop := ∃ d, candidates desc name = [d]

/-- No two declared options share a name. -/
def NoClash (desc : List OptionDesc) : Prop := ∀ n, n ≠ [] → (exacts desc n false false).length ≤ 1

/-- Every registered, named option in a result is known to the store. -/
def AllKnown (p : Parsed) : Prop := ∀ o ∈ p.options, o.stringKey ≠ [] → o.unregistered = false → Known p.desc o.stringKey

/-- A store of `p` can only fail because an option refuses its values. -/
def FailsByValue (p : Parsed) : Prop :=
  ∀ xm utf8 f, (store p xm utf8).2 = some f → ∃ before o after e d a, FirstFault p xm utf8 before o after e ∧
    Yields p.desc xm utf8 before o.stringKey d a ∧ (d.semantic.parse a o.value utf8).2 = some e ∧
      f = e.addContext o.stringKey (o.originalTokens.headD []) p.pre

end PO.Spec
