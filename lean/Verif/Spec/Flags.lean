import Verif.Spec.Cmdline
/-
A command line style as a set of flags (include/boost/program_options/cmdline.hpp:26-85).
-/
namespace PO
namespace Spec

/-- The single flags of `command_line_style`. -/
def flags : List Nat :=
  [Style.allowLong, Style.allowShort, Style.allowDashForShort, Style.allowSlashForShort, Style.longAllowAdjacent, Style.longAllowNext,
    Style.shortAllowAdjacent, Style.shortAllowNext, Style.allowSticky, Style.allowGuessing, Style.longCaseInsensitive,
    Style.shortCaseInsensitive, Style.allowLongDisguise]

/-- Flags joined with `|`. -/
def joined (l : List Nat) : Nat := l.foldl (· ||| ·) 0

/-- The flag has nothing to apply to: the four flags on where values are written (see C16), grouping and the choice of `-` or `/` if
there are no short options written that way, and `/` for long options only if these may be disguised. -/
def Idle (s f : Nat) : Prop :=
  f = Style.longAllowAdjacent ∨ f = Style.longAllowNext ∨ f = Style.shortAllowAdjacent ∨ f = Style.shortAllowNext ∨
  (f = Style.allowSticky ∧ ¬ (active s Style.allowShort = true ∧ active s Style.allowDashForShort = true)) ∨
  (f = Style.allowDashForShort ∧ active s Style.allowShort = false) ∨
  (f = Style.allowSlashForShort ∧ active s Style.allowShort = false ∧ active s Style.allowLongDisguise = false) ∨
  (f = Style.allowShort ∧ active s Style.allowDashForShort = false ∧ active s Style.allowSlashForShort = false)

end Spec
end PO
