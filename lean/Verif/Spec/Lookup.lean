import Verif.Model.Desc
import Verif.Spec.Errors
/-
What it means for a name to match a declared option, without reference to the matching code.
-/
namespace PO.Spec

/-- Fold letter case (ASCII) when the flag is set. -/
def fold (icase : Bool) (s : Str) : Str := if icase then s.map Char.toLower else s

/-- `name` spells one of the (non-empty) long names of `d` or its short name. The short name is
stored with its dash and is compared with the name folded by the *long* flag, as the code does. -/
def Exact (d : OptionDesc) (name : Str) (longIcase shortIcase : Bool) : Prop :=
  (∃ n ∈ d.longNames, n ≠ [] ∧ fold longIcase n = fold longIcase name) ∨
    fold shortIcase d.shortName = fold longIcase name

/-- `name` abbreviates a long name of `d` (if abbreviations are allowed), or belongs to the family
`stem*` of a long name ending in a star. -/
def Approximate (d : OptionDesc) (name : Str) (abbreviate longIcase : Bool) : Prop :=
  ∃ n ∈ d.longNames, n ≠ [] ∧
    ((abbreviate = true ∧ fold longIcase name <+: fold longIcase n) ∨
      ∃ stem, fold longIcase n = stem ++ ['*'] ∧ stem <+: fold longIcase name)

instance (d : OptionDesc) (name : Str) (li si : Bool) : Decidable (Exact d name li si) := by
  unfold Exact; infer_instance

instance decStem (l m : Str) : Decidable (∃ stem, l = stem ++ ['*'] ∧ stem <+: m) :=
  decidable_of_iff (l.getLast? = some '*' ∧ l.dropLast <+: m) <| by
    constructor
    · rintro ⟨h, hp⟩
      refine ⟨l.dropLast, ?_, hp⟩
      obtain ⟨ys, rfl⟩ := List.getLast?_eq_some_iff.1 h
      simp
    · rintro ⟨stem, rfl, hp⟩
      simpa using hp

instance (d : OptionDesc) (name : Str) (ab li : Bool) : Decidable (Approximate d name ab li) := by
  unfold Approximate; infer_instance

/-- The name under which an option typed as `name` is reported: the first long name, unless that is
a wildcard, and the short name if there is no long one. -/
def reportedKey (d : OptionDesc) (name : Str) : Str :=
  match d.longNames.head? with
  | some n => if '*' ∈ n then name else n
  | none => d.shortName

/-- The options matching `name` exactly, in declaration order. -/
def exacts (opts : List OptionDesc) (name : Str) (li si : Bool) : List OptionDesc :=
  opts.filter fun d => Exact d name li si

/-- The options matching `name` only approximately, in declaration order. -/
def approximates (opts : List OptionDesc) (name : Str) (ab li si : Bool) : List OptionDesc :=
  opts.filter fun d => ¬ Exact d name li si ∧ Approximate d name ab li

end PO.Spec
