import Verif.Model.Parsers
/-
What remains of the other assertions (C128).
-/
namespace PO.Spec

/-- An entry of the environment with a name and a value. -/
def withEquals (e : Str) : Str := if '=' ∈ e then e else e ++ '=' :: e

/-- The options after an option that has room for `lim` more values (`none`: no limit) that lose their values to it: the next ones, as long as they have no name, are
not from behind `--`, and there is room. -/
structure Swallowed (lim : Option Nat) (next taken : List Opt) : Prop where
  first : taken <+: next
  nameless : ∀ p ∈ taken, p.stringKey = [] ∧ p.positionKey ≠ 2147483647
  room : ∀ m, lim = some m → taken.length ≤ m
  most : lim = some taken.length ∨ taken = next ∨ ∃ p rest, next = taken ++ p :: rest ∧ (p.stringKey ≠ [] ∨ p.positionKey = 2147483647)

end PO.Spec
