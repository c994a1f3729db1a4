import Verif.Model.Desc
/-
Strings the C character functions may not be asked about (C124), in terms of their bytes.
-/
namespace PO
namespace Spec

/-- Some byte of `s` is negative as a `signed char`, and not -1. -/
def Stray (s : Str) : Prop := ∃ c ∈ s, 128 ≤ c.toNat ∧ c.toNat ≤ 254

/-- `s` is a string of bytes. -/
def Bytes (s : Str) : Prop := ∀ c ∈ s, c.toNat ≤ 255

/-- `name`, not empty, is what was asked for. -/
def Asked (icase : Bool) (name option : Str) : Prop :=
  name ≠ [] ∧ if icase then name.map Char.toLower = option.map Char.toLower else name = option

/-- Looking whether `option` is `d` meets a byte it may not be asked about, where `char` is signed:
in what was asked for; in a long name, none before it being what was asked for; in the short name, no long name being
what was asked for. -/
inductive Meets (d : OptionDesc) (option : Str) (longIcase shortIcase : Bool) : Prop
  | asked (h : longIcase = true) (hs : Stray option)
  | long (h : longIcase = true) (pre : List Str) (n : Str) (post : List Str) (hd : d.longNames = pre ++ n :: post)
      (hp : ∀ m ∈ pre, ¬ Asked longIcase m option) (hs : Stray n)
  | short (h : shortIcase = true) (hp : ∀ m ∈ d.longNames, ¬ Asked longIcase m option) (hs : Stray d.shortName)

end Spec
end PO
