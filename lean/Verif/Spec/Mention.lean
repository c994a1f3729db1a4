import Verif.Model.Cmdline
import Verif.Spec.Lookup
/-
Which names a command line can bring up, and when an option does not notice a name.
-/
namespace PO.Spec

/-- The names that the tokens `args` can bring up with the options declared in `c`. -/
inductive Mentioned (c : Cmdline) (args : List Str) : Str → Prop
  /-- A long option: what is between `--` and the first `=`. -/
  | long {r : Str} : '-' :: '-' :: r ∈ args → r.takeWhile (· ≠ '=') ≠ [] → Mentioned c args (r.takeWhile (· ≠ '='))
  /-- A disguised long option: what is between the first character and the first `=`; the empty name counts, too. -/
  | disguised {x : Char} {r : Str} : active c.style Style.allowLongDisguise = true → x = '-' ∨ x = '/' → x :: r ∈ args → r ≠ [] →
      Mentioned c args (r.takeWhile (· ≠ '='))
  /-- A whole token. -/
  | token {a : Str} : a ∈ args → a ≠ [] → Mentioned c args a
  /-- A letter of a token, as a short option. -/
  | letter {a : Str} {x : Char} : a ∈ args → x ∈ a → Mentioned c args ['-', x]
  /-- What an additional parser makes of a token. -/
  | additional {f : Str → Str × Str} {a : Str} : c.additional = some f → a ∈ args → Mentioned c args (f a).1
  /-- With an additional parser also the empty token counts. -/
  | blank {f : Str → Str × Str} : c.additional = some f → [] ∈ args → Mentioned c args []
  /-- The name under which a declared option is reported: the first long name … -/
  | first {d : OptionDesc} {name : Str} : d ∈ c.desc → d.longNames.head? = some name → '*' ∉ name → Mentioned c args name
  /-- … or the short name if there is no long name. -/
  | short {d : OptionDesc} : d ∈ c.desc → d.longNames = [] → Mentioned c args d.shortName

/-- The option `d` does not have the name `name`, and what it has in common with it is not enough because one of `ds` has it. -/
def Unnoticed (ds : List OptionDesc) (d : OptionDesc) (name : Str) (ab li si : Bool) : Prop :=
  ¬ Exact d name li si ∧ (Approximate d name ab li → ∃ d' ∈ ds, Exact d' name li si)

end PO.Spec
