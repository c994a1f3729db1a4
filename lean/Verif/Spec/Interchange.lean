import Verif.Spec.Cmdline
/-
Different names of one option on a command line.
-/
namespace PO.Spec

/-- `tok` gives an option under `name`, with `vs` in the same token. -/
inductive Spelt (c : Cmdline) (tok : Str) : Str → List Str → Prop
  /-- `--name` -/
  | long (name : Str) (hl : Enabled c Style.allowLong) (ht : tok = '-' :: '-' :: name) (h0 : name ≠ []) (hn : '=' ∉ name) : Spelt c tok name []
  /-- `--name=v` -/
  | longEq (name v : Str) (hl : Enabled c Style.allowLong) (ht : tok = '-' :: '-' :: name ++ '=' :: v) (h0 : name ≠ []) (hn : '=' ∉ name) (hv : v ≠ []) :
      Spelt c tok name [v]
  /-- `-a` -/
  | short (a : Char) (hs : Enabled c Style.allowShort ∧ Enabled c Style.allowDashForShort) (hd : ¬ Enabled c Style.allowLongDisguise)
      (ht : tok = ['-', a]) (ha : a ≠ '-') (d : OptionDesc) (hds : DenotesShort c a d) : Spelt c tok ['-', a] []
  /-- `-av`, for an option that takes a value -/
  | shortEq (a : Char) (v : Str) (hs : Enabled c Style.allowShort ∧ Enabled c Style.allowDashForShort) (hd : ¬ Enabled c Style.allowLongDisguise)
      (ht : tok = '-' :: a :: v) (ha : a ≠ '-') (hv : v ≠ []) (d : OptionDesc) (hds : DenotesShort c a d) (hm : d.semantic.maxTokens ≠ 0) :
      Spelt c tok ['-', a] [v]

/-- No option is reported under the name it was given with. -/
def NoFamilies (opts : List OptionDesc) : Prop := ∀ d ∈ opts, ∀ n, d.longNames.head? = some n → '*' ∉ n

end PO.Spec
