import Verif.Model.Cmdline
/-
A description and a command line written with other letters, for C152.
-/
namespace PO.Letters

/-- Other letters for the same text. -/
abbrev ren (π : Char → Char) (s : Str) : Str := s.map π

/-- Different letters stay different, the four characters the parser knows stay themselves, and if the style disregards letter case, an
upper case letter and its lower case letter become such a pair again. -/
structure Harmless (π : Char → Char) (style : Nat) : Prop where
  inj : ∀ a b, π a = π b → a = b
  dash : π '-' = '-'
  slash : π '/' = '/'
  equals : π '=' = '='
  star : π '*' = '*'
  lower : active style Style.longCaseInsensitive = true ∨ active style Style.shortCaseInsensitive = true → ∀ a, π a.toLower = (π a).toLower

def renOption (π : Char → Char) (d : OptionDesc) : OptionDesc :=
  { d with shortName := ren π d.shortName, longNames := d.longNames.map (ren π) }

def renPositional (π : Char → Char) (p : Positional) : Positional := ⟨p.names.map (ren π), ren π p.trailing⟩

def renOpt (π : Char → Char) (o : Opt) : Opt :=
  { o with stringKey := ren π o.stringKey, value := o.value.map (ren π), originalTokens := o.originalTokens.map (ren π) }

def renClass (π : Char → Char) : ErrClass → ErrClass
  | .ambiguousOption l => .ambiguousOption (l.map (ren π))
  | k => k

def renSubst (π : Char → Char) (m : SMap Str) : SMap Str := m.map fun kv => (kv.1, ren π kv.2)

/-- The texts of an exception that come from the command line and the description. -/
def renFail (π : Char → Char) : Fail → Fail
  | .opt e => .opt { e with cls := renClass π e.cls, subst := renSubst π e.subst }
  | f => f

/-- The same outcome, in other letters. -/
def renWith {α β : Type} (π : Char → Char) (g : α → β) : Except Fail α → Except Fail β
  | .ok a => .ok (g a)
  | .error f => .error (renFail π f)

/-- The second parser is the first in other letters; parsers given by the program do the same in other letters. -/
structure Renamed (π : Char → Char) (c c' : Cmdline) : Prop where
  style : c'.style = c.style
  unregistered : c'.allowUnregistered = c.allowUnregistered
  desc : c'.desc = c.desc.map (renOption π)
  positional : c'.positional = c.positional.map (renPositional π)
  additional : match c.additional, c'.additional with
    | none, none => True
    | some f, some g => ∀ t, g (ren π t) = (ren π (f t).1, ren π (f t).2)
    | _, _ => False
  styleParser : match c.styleParser, c'.styleParser with
    | none, none => True
    | some p, some q => ∀ args, q (args.map (ren π)) = renWith π (fun r => (r.1.map (renOpt π), r.2.map (ren π))) (p args)
    | _, _ => False

end PO.Letters
