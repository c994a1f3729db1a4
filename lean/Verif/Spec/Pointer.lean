import Verif.Model.Pointer
/-
What a program may do to an exception while it holds a pointer that `what()` returned.
-/
namespace PO.Spec
open Pointer

/-- The statement is not about the exception `i`, or only calls const member functions of it (or copies it, or assigns it to itself or another one). The pointers
that `what()` of the standard exceptions returns survive all of these ([exception]: until the exception is destroyed, or a non-const member function is
called). -/
def ConstFor (i : Nat) : Pointer.Act → Prop
  | .tell j _ => j ≠ i
  | .assign j k => j = i → k = i
  | .destroy j => j ≠ i
  | _ => True

/-- The statement does not touch the text the exception `i` keeps. -/
def LeavesText (i : Nat) : Pointer.Act → Prop
  | .what j => j ≠ i
  | .assign j k => j = i → k = i
  | .destroy j => j ≠ i
  | _ => True

end PO.Spec
