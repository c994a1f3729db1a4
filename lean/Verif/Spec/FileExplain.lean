import Verif.Spec.ConfigGrammar
import Verif.Spec.Message
/-
What the message of a refused configuration file says.
-/
namespace PO.Spec

/-- The first line at fault, read in a section with the prefix `pre`, and the message about it: either what the line says, if it
is neither blank, nor a header, nor contains an equal sign, or the unknown name with the section in front. -/
inductive Complains (desc : List OptionDesc) (au : Bool) : Str → List Str → Str → Prop
  | blank {pre l ls m} (h : Says l []) (t : Complains desc au pre ls m) : Complains desc au pre (l :: ls) m
  | header {pre l ls m} (s : Str) (h : Says l ('[' :: s ++ [']'])) (hs : s ≠ []) (t : Complains desc au (sectionPrefix s) ls m) :
      Complains desc au pre (l :: ls) m
  | item {pre l ls m} (s n v : Str) (h : Says l s) (hi : ConfigItem s n v) (ha : Accepts desc (pre ++ n) ∨ au = true) (t : Complains desc au pre ls m) :
      Complains desc au pre (l :: ls) m
  | unknown {pre l ls} (s n v : Str) (h : Says l s) (hi : ConfigItem s n v) (ha : ¬ Accepts desc (pre ++ n)) (hu : au = false) :
      Complains desc au pre (l :: ls) (if pre ++ n = [] then str% "unrecognised option" else str% "unrecognised option '" ++ (pre ++ n) ++ str% "'")
  | neither {pre l ls} (s : Str) (h : Says l s) (h0 : s ≠ []) (hh : ∀ m, s ≠ '[' :: m ++ [']']) (he : '=' ∉ s) :
      Complains desc au pre (l :: ls) (str% "the options configuration file contains an invalid line '" ++ s ++ str% "'")

end PO.Spec
