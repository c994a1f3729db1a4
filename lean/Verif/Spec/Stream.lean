import Verif.Model.Stream
/-
Copies of a configuration file iterator. They share the stream.
-/
namespace PO.Spec

/-- Copies numbered by `is` are advanced in the order of `turns`; `os` are the values they then have, one for each turn. -/
inductive Turns : (Nat → CfIter) → IStream Char → List Nat → List Opt → Prop
  | done {is : Nat → CfIter} {s : IStream Char} : Turns is s [] []
  | turn {is : Nat → CfIter} {s s' : IStream Char} {k : Nat} {i' : CfIter} {ks : List Nat} {os : List Opt}
      (h : (is k).get some '\n' s = .ok (i', s')) (he : i'.atEof = false)
      (hs : Turns (fun j => if j = k then i' else is j) s' ks os) : Turns is s (k :: ks) (i'.value :: os)

end PO.Spec
