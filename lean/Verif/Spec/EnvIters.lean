import Verif.Model.EnvIters
/-
What iterators on the variables of the environment have to do, without saying what they are made of: an iterator is at the variable of some
number, or past the last one.
-/
namespace PO.EnvIters

/-- Where the iterators of a program are: `some n` if the `n`-th variable (or past the last) of the environment, counted from 0; `none` for an
iterator that is not on the environment. Only the own statements of an iterator, and what it was copied from, matter. -/
def places : List (Option Nat) → List Op → Option (List (Option Nat))
  | s, [] => some s
  | s, .create :: ops => places (s ++ [some 0]) ops
  | s, .createPast :: ops => places (s ++ [none]) ops
  | s, .copy i :: ops =>
    match s[i]? with
    | some x => places (s ++ [x]) ops
    | none => none
  | s, .assign i j :: ops =>
    match s[i]?, s[j]? with
    | some _, some y => places (s.set i y) ops
    | _, _ => none
  | s, .advance i :: ops =>
    match s[i]? with
    | some (some n) => places (s.set i (some (n + 1))) ops
    | _ => none

/-- The end of the environment, and the iterator that stands for it. -/
def AtEnd (vars : List (Str × Str)) (p : Option Nat) : Prop := ∀ n, p = some n → vars.length ≤ n

/-- Two iterators are at the same variable, or both past the last one. -/
def SamePlace (vars : List (Str × Str)) (p q : Option Nat) : Prop :=
  (AtEnd vars p ∧ AtEnd vars q) ∨ (∃ n, p = some n ∧ q = some n)

end PO.EnvIters
