import Verif.Spec.Grammar
/-
What may follow an option that has an implicit value (C22).
-/
namespace PO.Spec

/-- After this token no option in front of it gets more values: the terminator, or an option with a name. -/
def Closes (c : Cmdline) (tok : Str) : Prop :=
  tok = ['-', '-'] ∧ Unclaimed c tok ∨ ∃ i is, Spells c tok (i :: is) ∧ i.name ≠ []

/-- This token offers the value `v`: a positional argument, or `--=v`. -/
def Offers (c : Cmdline) (tok v : Str) : Prop :=
  Plain c tok ∧ tok ≠ ['-', '-'] ∧ v = tok ∨ ∃ i, Spells c tok [i] ∧ i.name = [] ∧ i.value = [v]

end PO.Spec
