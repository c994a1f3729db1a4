import Verif.Spec.Letters
import Verif.Model.Format
/-
A description with captions, names, parameters and texts in other letters, for C155.
-/
namespace PO.Letters

/-- The blank, the line end and the tab stay themselves and nothing else becomes one of them; the other characters that the help adds stay
themselves. -/
structure HarmlessHelp (π : Char → Char) : Prop where
  blank : ∀ c, π c = ' ' ↔ c = ' '
  newline : ∀ c, π c = '\n' ↔ c = '\n'
  tab : ∀ c, π c = '\t' ↔ c = '\t'
  dash : π '-' = '-'
  opening : π '[' = '['
  closing : π ']' = ']'
  colon : π ':' = ':'

def renShown (π : Char → Char) (d : OptionDesc) : OptionDesc :=
  { shortName := ren π d.shortName, longNames := d.longNames.map (ren π), description := ren π d.description,
    semantic := { d.semantic with name := ren π d.semantic.name } }

mutual
def renTree (π : Char → Char) : OptionsDesc → OptionsDesc
  | ⟨caption, lineLength, minDescLen, options, belong, groups⟩ =>
    ⟨ren π caption, lineLength, minDescLen, options.map (renShown π), belong, renTrees π groups⟩
def renTrees (π : Char → Char) : List OptionsDesc → List OptionsDesc
  | [] => []
  | g :: gs => renTree π g :: renTrees π gs
end

end PO.Letters
