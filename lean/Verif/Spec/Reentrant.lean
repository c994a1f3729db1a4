import Verif.Model.Reentrant
import Verif.Lemmas.Order
/-
What to expect of `notify` while notifiers work on the map.
-/
namespace PO.Reentrant
variable {σ : Type}

/-- `notify` ends, like this. -/
def Ends (P : Program σ) (s : σ) (m : VarMap) (r : Run σ) : Prop := ∃ n, notify P n s m = r ∧ r.fin ≠ .unfinished

/-- It never ends. -/
def Forever (P : Program σ) (s : σ) (m : VarMap) : Prop := ∀ n, (notify P n s m).fin = .unfinished

/-- The map has a record of the library for the name: one with a value semantic. -/
def Has (m : VarMap) (q : Str) (v : VarValue) : Prop := m.map.get? q = some v ∧ v.semantic.isSome = true

/-- Every option has been told the value it has in the map at the end. -/
def AllTold (r : Run σ) : Prop := ∀ q v, Has r.m q v → ∃ t ∈ r.turns, t.name = q ∧ t.record = v

/-- What a notifier does is computing and storing. -/
def Act.Harmless : Act σ → Prop
  | .compute _ => True
  | .store _ _ => True
  | _ => False

/-- Notifiers only compute and store. -/
def StoresOnly (P : Program σ) : Prop := ∀ f a s m, ∀ x ∈ (P.call f a s m).1, x.Harmless

/-- Notifiers do not call `notify` again. -/
def NotAgain (P : Program σ) : Prop := ∀ f a s m, Act.notify ∉ (P.call f a s m).1

/-- The map after some stores. -/
def mapAfter : List (Act σ) → VarMap → VarMap
  | [], m => m
  | .store p utf8 :: as, m => mapAfter as (PO.store p m utf8).1
  | _ :: as, m => mapAfter as m

/-- Each of the stores succeeds. -/
def Succeed : List (Act σ) → VarMap → Prop
  | [], _ => True
  | .store p u :: as, m => (PO.store p m u).2 = none ∧ Succeed as (PO.store p m u).1
  | _ :: as, m => Succeed as m

/-- The notifiers of a record remove it, and return. -/
def RemovesOwn (t : Turn σ) : Prop := Act.clear ∈ t.acts ∨ Act.erase t.name ∈ t.acts

end PO.Reentrant
