import Verif.Spec.FileParts
/-
What is read from the beginning of a configuration file, for C161.
-/
namespace PO.FileCut
open Spec

/-- The first options of the result `r`, where the end of the last value may be missing. -/
inductive Begins : List Opt → List Opt → Prop
  | nil {r} : Begins [] r
  | same {r r'} (o : Opt) (t : Begins r' r) : Begins (o :: r') (o :: r)
  | shorter {r} (n v w : Str) (u : Bool) (h : w <+: v) : Begins [itemOption n w u] (itemOption n v u :: r)

/-- The text ends in the middle of the line `last`, or after a line end, when `last` is empty. -/
def EndsWith (t last : Str) : Prop := ∃ ls : List Str, t = ls.flatMap (· ++ ['\n']) ++ last ∧ (∀ l ∈ ls, '\n' ∉ l) ∧ '\n' ∉ last

end PO.FileCut
