import Verif.Model.Format
/-
Objects as a program can build them: options_description and the exceptions.
-/
namespace PO.Spec

/-- Built by the constructor and the two `add`. -/
inductive Assembled : OptionsDesc → Prop
  | make {caption : Str} {lineLength minDescLen : Nat} {o : OptionsDesc} (h : OptionsDesc.make caption lineLength minDescLen = .ok o) :
      Assembled o
  | option {o : OptionsDesc} (h : Assembled o) (d : OptionDesc) : Assembled (o.addOption d)
  | group {o g : OptionsDesc} (ho : Assembled o) (hg : Assembled g) : Assembled (o.addGroup g)

/-- Built by the constructor, `set_substitute` and `add_context`. -/
inductive Thrown : OptErr → Prop
  | make (cls : ErrClass) (name tok : Str) (style : Nat) : Thrown (OptErr.mk' cls name tok style)
  | subst {e : OptErr} (h : Thrown e) (k v : Str) : Thrown (e.setSubst k v)
  | context {e : OptErr} (h : Thrown e) (name tok : Str) (style : Nat) : Thrown (e.addContext name tok style)

end PO.Spec
