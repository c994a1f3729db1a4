import Verif.Spec.Letters
import Verif.Model.Parsers
import Verif.Spec.Config
/-
A description and a configuration file written with other letters, for C153.
-/
namespace PO.Letters

/-- Different letters stay different, the characters that a configuration file is made of stay themselves, and the blanks stay blanks. -/
structure HarmlessFile (π : Char → Char) : Prop where
  inj : ∀ a b, π a = π b → a = b
  hash : π '#' = '#'
  equals : π '=' = '='
  opening : π '[' = '['
  closing : π ']' = ']'
  dot : π '.' = '.'
  star : π '*' = '*'
  newline : π '\n' = '\n'
  blanks : ∀ a, (π a = ' ' ∨ π a = '\t' ∨ π a = '\r') ↔ (a = ' ' ∨ a = '\t' ∨ a = '\r')

def renParsed (π : Char → Char) (p : Parsed) : Parsed :=
  { desc := p.desc.map (renOption π), options := p.options.map (renOpt π), pre := p.pre }

end PO.Letters
