import Verif.Model.Convert
/-
Character sets that are read unit by unit, with a state: several units may make one character, and some (shift sequences) make none.
-/
namespace PO.Spec

/-- What a source unit does in a state: the state after it and the target units it completes, or `none` if it cannot stand there. `whole`
are the states in which no character has begun. -/
structure CharSet (σ α β : Type) where
  unit : σ → α → Option (σ × List β)
  whole : σ → Prop

/-- From the first state to the second, `s` stands for the characters `out`. -/
inductive Conveys {σ α β : Type} (cs : CharSet σ α β) : σ → List α → List β → σ → Prop
  | nil (st : σ) : Conveys cs st [] [] st
  | cons {st st1 st2 : σ} {c : α} {s : List α} {o out : List β} (h : cs.unit st c = some (st1, o)) (t : Conveys cs st1 s out st2) :
      Conveys cs st (c :: s) (o ++ out) st2

/-- The contract of `codecvt::in`/`out` (C++17 [locale.codecvt.virtuals]) for a facet that keeps what it has read of a character, and the
shift state, in the conversion state. It reads some units, and its results take no more than `room` places. It reports `error` at a unit that
cannot stand there, `ok` only at the end of the source, and stops before it only if the next results do not fit or no room is left. -/
def Serves {σ α β : Type} (cs : CharSet σ α β) (facet : StateFacet σ α β) : Prop :=
  ∀ st s room status st' rest out, facet st s room = (status, st', rest, out) →
    ∃ a, s = a ++ rest ∧ Conveys cs st a out st' ∧ out.length ≤ room ∧
      (status = .ok → rest = []) ∧
      (status = .error → ∃ c r, rest = c :: r ∧ cs.unit st' c = none) ∧
      (status = .partial_ → rest ≠ [] → out.length = room ∨ ∃ c r st2 o, rest = c :: r ∧ cs.unit st' c = some (st2, o) ∧ room < out.length + o.length)

/-- It stops as soon as there is no room left. -/
def Prompt {σ α β : Type} (cs : CharSet σ α β) (facet : StateFacet σ α β) : Prop :=
  ∀ st s room status st' rest out, facet st s room = (status, st', rest, out) →
    ∀ a b o st1, s = a ++ b ++ rest → b ≠ [] → Conveys cs st a o st1 → o.length < room

/-- The last unit completes nothing: it is part of a shift sequence, or of a character that is cut off. -/
def QuietEnd {σ α β : Type} (cs : CharSet σ α β) (st : σ) (s : List α) : Prop :=
  ∃ p c out st1 st2, s = p ++ [c] ∧ Conveys cs st p out st1 ∧ cs.unit st1 c = some (st2, [])

/-- Every unit completes at most one target unit, as when octets are read as wide characters. -/
def AtMostOne {σ α β : Type} (cs : CharSet σ α β) : Prop := ∀ st c st' o, cs.unit st c = some (st', o) → o.length ≤ 1

end PO.Spec
