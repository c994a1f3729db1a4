import Verif.Spec.FileExplain
/-
What is at fault in a configuration file.
-/
namespace PO.Spec

/-- What a message about a configuration file is about: what a line says, or a name. -/
inductive Fault
  | line (s : Str)
  | name (n : Str)

/-- The first thing at fault, read in a section with the prefix `pre`. -/
inductive FaultAt (desc : List OptionDesc) (au : Bool) : Str → List Str → Fault → Prop
  | blank {pre l ls x} (h : Says l []) (t : FaultAt desc au pre ls x) : FaultAt desc au pre (l :: ls) x
  | header {pre l ls x} (s : Str) (h : Says l ('[' :: s ++ [']'])) (hs : s ≠ []) (t : FaultAt desc au (sectionPrefix s) ls x) :
      FaultAt desc au pre (l :: ls) x
  | item {pre l ls x} (s n v : Str) (h : Says l s) (hi : ConfigItem s n v) (ha : Accepts desc (pre ++ n) ∨ au = true) (t : FaultAt desc au pre ls x) :
      FaultAt desc au pre (l :: ls) x
  | unknown {pre l ls} (s n v : Str) (h : Says l s) (hi : ConfigItem s n v) (ha : ¬ Accepts desc (pre ++ n)) (hu : au = false) :
      FaultAt desc au pre (l :: ls) (.name (pre ++ n))
  | neither {pre l ls} (s : Str) (h : Says l s) (h0 : s ≠ []) (hh : ∀ m, s ≠ '[' :: m ++ [']']) (he : '=' ∉ s) :
      FaultAt desc au pre (l :: ls) (.line s)

/-- The message, with what is at fault as it is written. -/
def Fault.message : Fault → Str
  | .line s => str% "the options configuration file contains an invalid line '" ++ s ++ str% "'"
  | .name n => if n = [] then str% "unrecognised option" else str% "unrecognised option '" ++ n ++ str% "'"

/-- What must not be in it for the message to be made at all. -/
def Fault.Harmless : Fault → Prop
  | .line s => ¬ str% "%invalid_line%" <:+: s
  | .name n => ¬ str% "%canonical_option%" <:+: n ∧ ¬ str% "%original_token%" <:+: n

/-- What must not be in it either for the message to be as it should. -/
def Fault.Plain : Fault → Prop
  | .line s => ¬ str% "%option%" <:+: s ∧ ¬ str% "%original_token%" <:+: s ∧ ¬ str% "%prefix%" <:+: s
  | .name n => ¬ str% "%prefix%" <:+: n

/-- Names with `%option%` in them are not covered. -/
def Fault.Covered : Fault → Prop
  | .line _ => True
  | .name n => ¬ str% "%option%" <:+: n

end PO.Spec
