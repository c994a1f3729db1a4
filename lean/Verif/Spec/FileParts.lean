import Verif.Spec.SharedFile
/-
Configuration files that are put together from parts.
-/
namespace PO.Spec

/-- `t` consists of the lines `ls`, each with its line end. -/
def WholeLines (t : Str) (ls : List Str) : Prop := t = ls.flatMap (· ++ ['\n']) ∧ ∀ l ∈ ls, '\n' ∉ l

/-- The first line that says anything, if there is one, is a header. -/
inductive HeaderFirst : List Str → Prop
  | none : HeaderFirst []
  | blank {l ls} (h : Says l []) (t : HeaderFirst ls) : HeaderFirst (l :: ls)
  | header {l ls} (s : Str) (h : Says l ('[' :: s ++ [']'])) : HeaderFirst (l :: ls)

/-- A text that begins with a section header; its last line may lack the line end. -/
def StartsSection (t : Str) : Prop :=
  ∃ ls last, t = ls.flatMap (· ++ ['\n']) ++ last ∧ (∀ l ∈ ls, '\n' ∉ l) ∧ '\n' ∉ last ∧ HeaderFirst (ls ++ [last])

/-- A part of a file: whole lines, the first one a header. -/
def FilePart (t : Str) : Prop := ∃ ls, WholeLines t ls ∧ HeaderFirst ls

/-- No full name is set in both texts. -/
def NoCommonName (a b : Str) : Prop := ∀ es es', FileEntries a es → FileEntries b es' → ∀ e ∈ es, ∀ e' ∈ es', e.1 ≠ e'.1

/-- No line is a header. -/
def Headless (ls : List Str) : Prop := ∀ l ∈ ls, ∀ s, ¬ Says l ('[' :: s ++ [']'])

/-- Each text is read on its own. -/
inductive ReadEach (desc : List OptionDesc) (au : Bool) : List Str → List Parsed → Prop
  | nil : ReadEach desc au [] []
  | cons {t ts p ps} (h : parseConfigFile t desc au = .ok p) (t' : ReadEach desc au ts ps) : ReadEach desc au (t :: ts) (p :: ps)

/-- Lines that say the same when the names of the second ones are written in full: with the prefix of the section `s`. -/
inductive InFull (s : Str) : List Str → List Str → Prop
  | nil : InFull s [] []
  | blank {l l' ls ls'} (h : Says l []) (h' : Says l' []) (t : InFull s ls ls') : InFull s (l :: ls) (l' :: ls')
  | item {l l' ls ls' x x'} (n v : Str) (h : Says l x) (hi : ConfigItem x n v) (h' : Says l' x') (hi' : ConfigItem x' (sectionPrefix s ++ n) v)
      (t : InFull s ls ls') : InFull s (l :: ls) (l' :: ls')

end PO.Spec
