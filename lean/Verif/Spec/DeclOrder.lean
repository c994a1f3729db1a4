import Verif.Spec.Store
/-
Options declared in another order.
-/
namespace PO.Spec

/-- The same exception, but for the order in which the alternatives of an ambiguous name are listed. -/
inductive SameButOrder : Fail → Fail → Prop
  | refl (f : Fail) : SameButOrder f f
  | ambiguous (e : OptErr) (alts alts' : List Str) : alts.Perm alts' →
      SameButOrder (.opt { e with cls := .ambiguousOption alts }) (.opt { e with cls := .ambiguousOption alts' })

/-- No two options share the name under which their defaults are kept and their absence is noticed. -/
def OwnApart (desc : List OptionDesc) : Prop := desc.Pairwise fun a b => a.own = b.own → a.own = []

end PO.Spec
