import Verif.Spec.Letters
import Verif.Model.Split
/-
A command line string in other letters, for C156.
-/
namespace PO.Letters

/-- What `split_unix` knows stays what it is: a separator, a quote and an escape character of the first splitter become one of the second,
other characters do not; exactly `n` becomes `n`, and the line end stays itself. -/
structure HarmlessUnix (π : Char → Char) (sep quote esc sep' quote' esc' : Str) : Prop where
  sep : ∀ c, π c ∈ sep' ↔ c ∈ sep
  quote : ∀ c, π c ∈ quote' ↔ c ∈ quote
  esc : ∀ c, π c ∈ esc' ↔ c ∈ esc
  letter : ∀ c, π c = 'n' ↔ c = 'n'
  newline : π '\n' = '\n'

/-- Exactly the six blanks of `isspace` become blanks, exactly `"` becomes `"` and exactly `\` becomes `\`. -/
structure HarmlessWinmain (π : Char → Char) : Prop where
  blank : ∀ c, π c ∈ [' ', '\t', '\n', '\x0b', '\x0c', '\r'] ↔ c ∈ [' ', '\t', '\n', '\x0b', '\x0c', '\r']
  quote : ∀ c, π c = '"' ↔ c = '"'
  backslash : ∀ c, π c = '\\' ↔ c = '\\'

end PO.Letters
