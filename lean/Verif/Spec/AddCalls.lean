import Verif.Model.Positional
/-
C143: any calls of `positional_options_description::add`.
-/
namespace PO.Spec

/-- The calls `add(name, count)`, one after the other. -/
def addCalls (p : Positional) : List (Str × Int) → Except Fail Positional
  | [] => .ok p
  | (n, c) :: rest =>
    match p.add n c with
    | .error f => .error f
    | .ok p' => addCalls p' rest

/-- The sum of the counts, without those that are -1. -/
def summed (l : List (Str × Int)) : Int := (l.map fun x => if x.2 = -1 then 0 else x.2).sum

/-- Position `k` is in the run that a call opens, and the sum of the counts has been above `k` since. -/
def Covered (l : List (Str × Int)) (k : Nat) (n : Str) : Prop :=
  ∃ pre c post, l = pre ++ (n, c) :: post ∧ c ≠ -1 ∧ summed pre ≤ k ∧ k < summed pre + c ∧
    ∀ mid rest, post = mid ++ rest → k < summed pre + c + summed mid

/-- One of the calls has given a name for all further positions. -/
def ForTheRest (l : List (Str × Int)) (n : Str) : Prop := n ≠ [] ∧ (n, -1) ∈ l

/-- Why a call fails, after the calls `pre`. -/
inductive AddFails (pre : List (Str × Int)) (c : Int) : Fail → Prop
  | twice (m : Str) (h : c = -1) (hm : ForTheRest pre m) : AddFails pre c (.ub .trailingTwice)
  | negative (h : c ≠ -1) (hn : summed pre + c < 0) : AddFails pre c .lengthError

end PO.Spec
