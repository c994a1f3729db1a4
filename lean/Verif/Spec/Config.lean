import Verif.Model.Parsers
import Verif.Spec.Errors
/-
Specification vocabulary for configuration files (C24-C31).
-/
namespace PO.Spec

/-- The first long name, empty if there is none. -/
def _root_.PO.OptionDesc.firstLong (d : OptionDesc) : Str := d.longNames.headD []

/-- The declared names of a configuration file: the first long name of each option. A name `stem*`
declares the family of all names that properly extend `stem`; other names stand for themselves. -/
def Accepts (desc : List OptionDesc) (name : Str) : Prop :=
  ∃ d ∈ desc, (d.firstLong = name ∧ name.getLast? ≠ some '*') ∨
    ∃ stem, d.firstLong = stem ++ ['*'] ∧ stem <+: name ∧ stem ≠ name

/-- Two different declared wildcard names whose families overlap. -/
def Overlap (desc : List OptionDesc) : Prop :=
  ∃ d1 ∈ desc, ∃ d2 ∈ desc, ∃ s1 s2, d1.firstLong = s1 ++ ['*'] ∧ d2.firstLong = s2 ++ ['*'] ∧ s1 ≠ s2 ∧ s1 <+: s2

/-- Neither the first nor the last character is a blank, tab, CR or LF. -/
def Trimmed (s : Str) : Prop :=
  ∀ c, (s.head? = some c ∨ s.getLast? = some c) → c ≠ ' ' ∧ c ≠ '\t' ∧ c ≠ '\r' ∧ c ≠ '\n'

/-- A name/value pair that can be written on a line `name=value`. -/
structure Representable (n v : Str) : Prop where
  nameEq : '=' ∉ n
  nameHash : '#' ∉ n
  valueHash : '#' ∉ v
  nameNl : '\n' ∉ n
  valueNl : '\n' ∉ v
  nameTrim : Trimmed n
  valueTrim : Trimmed v
  notBracketed : ¬ (n.head? = some '[' ∧ v.getLast? = some ']')

/-- The line `name=value`. -/
def itemLine (i : Str × Str) : Str := i.1 ++ '=' :: i.2

/-- The line `[s]`. -/
def headerLine (s : Str) : Str := '[' :: s ++ [']']

/-- The prefix that a header `[s]` gives to the following names. -/
def sectionPrefix (s : Str) : Str := if s.getLast? = some '.' then s else s ++ ['.']

/-- `s` can be written as a header. -/
structure SectionName (s : Str) : Prop where
  nonempty : s ≠ []
  hash : '#' ∉ s
  nl : '\n' ∉ s

end PO.Spec
