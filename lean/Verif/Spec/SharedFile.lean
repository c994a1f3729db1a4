import Verif.Spec.ConfigGrammar
import Verif.Spec.Joined
/-
Configuration files with entries that the program does not know.
-/
namespace PO.Spec

/-- The entries of lines that are read in a section with the prefix `pre`, whoever reads them. -/
inductive Entries : Str → List Str → List (Str × Str) → Prop
  | nil {pre} : Entries pre [] []
  | blank {pre l ls es} (h : Says l []) (t : Entries pre ls es) : Entries pre (l :: ls) es
  | header {pre l ls es} (s : Str) (h : Says l ('[' :: s ++ [']'])) (hs : s ≠ []) (t : Entries (sectionPrefix s) ls es) : Entries pre (l :: ls) es
  | item {pre l ls es} (s n v : Str) (h : Says l s) (hi : ConfigItem s n v) (t : Entries pre ls es) : Entries pre (l :: ls) ((pre ++ n, v) :: es)

/-- The entries of a file: full names and values. -/
def FileEntries (text : Str) (es : List (Str × Str)) : Prop :=
  ∃ ls last, text = ls.flatMap (· ++ ['\n']) ++ last ∧ (∀ l ∈ ls, '\n' ∉ l) ∧ '\n' ∉ last ∧ Entries [] (ls ++ [last]) es

/-- The options made of the entries: those that are not declared are marked. -/
inductive Marked (desc : List OptionDesc) : List (Str × Str) → List Opt → Prop
  | nil : Marked desc [] []
  | known {n v es os} (h : Accepts desc n) (t : Marked desc es os) : Marked desc ((n, v) :: es) (itemOption n v false :: os)
  | unknown {n v es os} (h : ¬ Accepts desc n) (t : Marked desc es os) : Marked desc ((n, v) :: es) (itemOption n v true :: os)

/-- The names and values of the entries that are not declared. -/
inductive PassedOn (desc : List OptionDesc) : List (Str × Str) → List Str → Prop
  | nil : PassedOn desc [] []
  | known {n v es ts} (h : Accepts desc n) (t : PassedOn desc es ts) : PassedOn desc ((n, v) :: es) ts
  | unknown {n v es ts} (h : ¬ Accepts desc n) (t : PassedOn desc es ts) : PassedOn desc ((n, v) :: es) (n :: v :: ts)

/-- The names can be declared for a configuration file: every option has a long name, and no families overlap. -/
def Declarable (desc : List OptionDesc) : Prop := (∀ d ∈ desc, d.firstLong ≠ []) ∧ ¬ Overlap desc

end PO.Spec
