import Verif.Model.Err
/-
src/positional_options.cpp
-/
namespace PO

/-- `positional_options_description`; an empty `trailing` means there is none. -/
structure Positional where
  names : List Str := []
  trailing : Str := []
  deriving DecidableEq, Repr

namespace Positional

/-- `add(name, max_count)` (src/positional_options.cpp:22-33). `names.resize(size + max_count)`
is computed modulo 2^64: a negative sum exceeds `max_size()`. -/
def add (p : Positional) (name : Str) (maxCount : Int) : Except Fail Positional :=
  if maxCount = -1 then
    if p.trailing = [] then .ok { p with trailing := name } else .error (.ub .trailingTwice)
  else
    let n := (p.names.length : Int) + maxCount
    if n < 0 then .error .lengthError
    else .ok { p with names := p.names.take n.toNat ++ List.replicate (n.toNat - p.names.length) name }

/-- `max_total_count` (src/positional_options.cpp:35-40); `none` is
`numeric_limits<unsigned>::max()`, read as "unlimited" (simplification: fewer than 2^32-1
positional tokens). -/
def maxTotalCount (p : Positional) : Option Nat :=
  if p.trailing = [] then some p.names.length else none

/-- `position >= max_total_count()` (src/cmdline.cpp:372). -/
def full (p : Positional) (position : Nat) : Bool :=
  match p.maxTotalCount with
  | some m => decide (m ≤ position)
  | none => false

/-- `name_for_position` (src/positional_options.cpp:42-51). -/
def nameForPosition (p : Positional) (position : Nat) : Except Fail Str :=
  match p.names[position]? with
  | some n => .ok n
  | none => if p.trailing = [] then .error (.ub .positionTooLarge) else .ok p.trailing

end Positional
end PO
