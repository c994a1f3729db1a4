import Verif.Model.Cmdline
import Verif.Props.Lookup
import Mathlib.Data.List.Forall2
/-
Command lines that differ in letter case.
-/
namespace PO.CaseLines

/-- A dash and something other than a dash. -/
def Dashed (t : Str) : Prop := ∃ x r, t = '-' :: x :: r ∧ x ≠ '-'

/-- Some option has a name with an asterisk. -/
def Wild (c : Cmdline) : Prop := ∃ d ∈ c.desc, ∃ n ∈ d.longNames, '*' ∈ n

/-- `-x` is not the short name of several options. -/
def Clear (c : Cmdline) (t : Str) : Prop := ∀ f, findNothrow c.desc t false false true ≠ .error f

/-- Letter case is disregarded for long and short names, and the program has no parsers of its own. -/
structure Insensitive (c : Cmdline) : Prop where
  long : active c.style Style.longCaseInsensitive = true
  short : active c.style Style.shortCaseInsensitive = true
  extra : c.additional = none
  style : c.styleParser = none

/-- A token in another letter case. If short options are written with a dash, letter case may only differ in tokens with a dash if they have two
characters and are no short name of several options. -/
structure Token (c : Cmdline) (t t' : Str) : Prop where
  fold : SameUpToCase t t'
  short : active c.style Style.allowShort = true → active c.style Style.allowDashForShort = true → Dashed t →
    t = t' ∨ (t.length = 2 ∧ Clear c t ∧ Clear c t')

/-- Of two tokens only the names differ in letter case: both are the same, or they are written like options and what follows the equals sign, or the
letter of a short option, is the same. -/
def NameOnly (t t' : Str) : Prop :=
  t = t' ∨ ((t.head? = some '-' ∨ t.head? = some '/') ∧
    (∀ p, findChar t '=' = some p → t.drop (p + 1) = t'.drop (p + 1)) ∧ (t.head? = some '/' → t.drop 2 = t'.drop 2))

/-- Options that are the same but for letter case; `V` says how values may differ. Names of declared options without an asterisk are the same. -/
structure SameOption (c : Cmdline) (V : Str → Str → Prop) (o o' : Opt) : Prop where
  key : SameUpToCase o.stringKey o'.stringKey
  own : o.stringKey = o'.stringKey ∨ o.unregistered = true ∨ Wild c
  position : o.positionKey = o'.positionKey
  unregistered : o.unregistered = o'.unregistered
  caseFlag : o.caseInsensitive = o'.caseInsensitive
  value : List.Forall₂ V o.value o'.value
  tokens : List.Forall₂ SameUpToCase o.originalTokens o'.originalTokens

/-- Values that are the same, or a token that looks like an option in another letter case. -/
def SameValue (v v' : Str) : Prop := v = v' ∨ ((v.head? = some '-' ∨ v.head? = some '/') ∧ SameUpToCase v v')

/-- What kind of exception it is: its class, with the alternatives of an ambiguity left out, and no names and tokens. -/
def kind : Fail → Fail
  | .opt e => .opt { cls := match e.cls with | .ambiguousOption _ => .ambiguousOption [] | k => k, style := 0, subst := [] }
  | f => f

/-- Both are accepted and the results are related, or both are refused with the same kind of exception. -/
def Both {α : Type} (P : α → α → Prop) : Except Fail α → Except Fail α → Prop
  | .ok a, .ok b => P a b
  | .error f, .error g => kind f = kind g
  | _, _ => False

end PO.CaseLines
