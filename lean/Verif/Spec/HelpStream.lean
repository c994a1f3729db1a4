import Verif.Model.HelpStream
import Verif.Spec.Help
/-
What the help begins with.
-/
namespace PO.Spec

/-- What is written first of a piece of the help, in one go: the caption, the left column of an option, or the end of an empty line. -/
inductive Opens : Piece → Str → Prop
  | caption (c) : Opens (.caption c) c
  | entry {d ll left} (h : Left d left) : Opens (.entry d ll) left
  | blank : Opens .blank (str% "\n")

/-- What a buffer takes of a text. -/
def taken (room : Option Nat) (s : Str) : Str :=
  match room with
  | none => s
  | some k => s.take k

/-- There is room for a text. -/
def Suffices (room : Option Nat) (s : Str) : Prop := ∀ k, room = some k → s.length ≤ k

/-- A text in a field: at least so many characters, filled up on the left or on the right. -/
inductive Field (n : Nat) (fill : Char) (left : Bool) (s : Str) : Str → Prop
  | long (h : n ≤ s.length) : Field n fill left s s
  | onLeft (h : s.length < n) (hl : left = true) : Field n fill left s (s ++ List.replicate (n - s.length) fill)
  | onRight (h : s.length < n) (hl : left = false) : Field n fill left s (List.replicate (n - s.length) fill ++ s)

end PO.Spec
