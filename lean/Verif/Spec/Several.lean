import Verif.Spec.StoreGrammar
/-
What several sources, one after the other, make of a name.
-/
namespace PO.Spec

/-- The explicit value of `name` after the sources, if it was `r` before them (with the semantic it was read with). A source that does not mention
the name does not count. One that does adds to the value if the option composes. If it does not compose the value is settled: later
sources are not heard. -/
inductive Settled (name : Str) : List (Parsed × Bool) → Option (ValueSemantic × Any) → Option (ValueSemantic × Any) → Prop
  | done (r) : Settled name [] r r
  | silent {q rest r r'} (hm : ¬ Mentions q.1.options name) (h : Settled name rest r r') : Settled name (q :: rest) r r'
  | adds {q rest r r' d a} (hm : Mentions q.1.options name) (hd : candidates q.1.desc name = [d])
      (ha : parseAll d.semantic q.2 (r.bind (·.2)) ((occurrences q.1.options name).map (·.value)) = .ok a) (hc : d.semantic.isComposing = true)
      (h : Settled name rest (some (d.semantic, a)) r') : Settled name (q :: rest) r r'
  | settles {q rest r d a} (hm : Mentions q.1.options name) (hd : candidates q.1.desc name = [d])
      (ha : parseAll d.semantic q.2 (r.bind (·.2)) ((occurrences q.1.options name).map (·.value)) = .ok a) (hc : d.semantic.isComposing = false) :
      Settled name (q :: rest) r (some (d.semantic, a))

/-- The default of `name`: of the first source whose description has one. -/
def defaultFrom (srcs : List (Parsed × Bool)) (name : Str) : Option (ValueSemantic × Any) := srcs.findSome? fun q => firstDefault q.1.desc name

/-- The record of a name with the explicit value `r`, or else the default `dflt`. -/
def record (r dflt : Option (ValueSemantic × Any)) : Option VarValue :=
  match r, dflt with
  | some (s, a), _ => some { v := a, defaulted := false, semantic := some s }
  | none, some (s, a) => some { v := a, defaulted := true, semantic := some s }
  | none, none => none

end PO.Spec
