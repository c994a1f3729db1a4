import Verif.Spec.ConfigGrammar
/-
What copies of a configuration file iterator, which share the stream, are handed out.
-/
namespace PO.Spec

/-- Going on to the next setting, in a section with the prefix `pre`: the prefix of the section then, the option, and the lines after it. -/
inductive NextOption (desc : List OptionDesc) (au : Bool) : Str → List Str → Str → Opt → List Str → Prop
  | blank {pre l ls pre' o rest} (h : Says l []) (t : NextOption desc au pre ls pre' o rest) : NextOption desc au pre (l :: ls) pre' o rest
  | header {pre l ls pre' o rest} (s : Str) (h : Says l ('[' :: s ++ [']'])) (hs : s ≠ []) (t : NextOption desc au (sectionPrefix s) ls pre' o rest) :
      NextOption desc au pre (l :: ls) pre' o rest
  | known {pre l ls} (s n v : Str) (h : Says l s) (hi : ConfigItem s n v) (ha : Accepts desc (pre ++ n)) :
      NextOption desc au pre (l :: ls) pre (itemOption (pre ++ n) v false) ls
  | unknown {pre l ls} (s n v : Str) (h : Says l s) (hi : ConfigItem s n v) (ha : ¬ Accepts desc (pre ++ n)) (hu : au = true) :
      NextOption desc au pre (l :: ls) pre (itemOption (pre ++ n) v true) ls

/-- Readers, of which each remembers the section of the last header that it has seen itself, take turns in reading the lines: reader
`k` is in the section with the prefix `pres k`. -/
inductive TakeTurns (desc : List OptionDesc) (au : Bool) : (Nat → Str) → List Str → List Nat → List Opt → Prop
  | done {pres ls} : TakeTurns desc au pres ls [] []
  | turn {pres ls k pre' o rest ks os} (h : NextOption desc au (pres k) ls pre' o rest)
      (t : TakeTurns desc au (fun j => if j = k then pre' else pres j) rest ks os) : TakeTurns desc au pres ls (k :: ks) (o :: os)

end PO.Spec
