import Verif.Spec.LettersStore
/-
Two notifications of the same map in other letters, for C159.
-/
namespace PO.Letters

/-- The letters stay in their order. -/
def KeepsOrder (π : Char → Char) : Prop := ∀ a b : Char, a.toNat < b.toNat → (π a).toNat < (π b).toNat

/-- The same events in other letters, maybe in another order. -/
def SameEvents (Q : Any → Any → Prop) (es es' : List Event) : Prop := ∃ l, l.Perm es ∧ List.Forall₂ (SameEvent Q) l es'

/-- Both maps have all required options and every value is passed on, with the same events; or both lack a required option, and what each of
them reports is one that it lacks; or both fail while values are passed on. -/
def SameNotice (π : Char → Char) (Q : Any → Any → Prop) (m m' : VarMap) : Prop :=
  (m.notify.2 = none ∧ m'.notify.2 = none ∧ SameEvents Q m.notify.1 m'.notify.1) ∨
  (∃ n d n' d', m.notify = ([], some (errRequired d)) ∧ m.required.get? n = some d ∧ (m.get n).v = none ∧
    m'.notify = ([], some (errRequired (ren π d'))) ∧ m.required.get? n' = some d' ∧ (m.get n').v = none) ∨
  ∃ n v s f n' v' s' f', m.map.get? n = some v ∧ v.semantic = some s ∧ (s.notify v.v).2 = some f ∧ m.notify.2 = some f ∧
    m.map.get? n' = some v' ∧ v'.semantic = some s' ∧ (s'.notify v'.v).2 = some f' ∧ m'.notify.2 = some (renFail π f')

end PO.Letters
