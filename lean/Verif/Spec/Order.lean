import Verif.Model.Str
/-
The order of names.
-/
namespace PO.Spec

/-- The name `a` comes before `b`: it is the beginning of `b`, or it has the smaller character where they first differ. -/
def Earlier (a b : Str) : Prop :=
  (∃ x t, b = a ++ x :: t) ∨ ∃ p x y s t, a = p ++ x :: s ∧ b = p ++ y :: t ∧ x.toNat < y.toNat

end PO.Spec
