import Verif.Spec.Flags
/-
Which tokens a flag of the style is about, for C151.
-/
namespace PO.Forms

/-- `--x`, with or without more. -/
def Long (tok : Str) : Prop := ∃ a r, tok = '-' :: '-' :: a :: r

/-- `-x`, with or without more. -/
def Dash (tok : Str) : Prop := ∃ a r, tok = '-' :: a :: r ∧ a ≠ '-'

/-- `/x`, with or without more. -/
def Slash (tok : Str) : Prop := ∃ a r, tok = '/' :: a :: r

/-- The flag is about a token like this one. The flags on where values are written are about none, the flags on how names are looked up
about every one. -/
def About (f : Nat) (tok : Str) : Prop :=
  (f = Style.allowLong ∧ Long tok) ∨
  (f = Style.allowShort ∧ (Dash tok ∨ Slash tok)) ∨
  (f = Style.allowDashForShort ∧ Dash tok) ∨
  (f = Style.allowSlashForShort ∧ Slash tok) ∨
  (f = Style.allowSticky ∧ Dash tok) ∨
  (f = Style.allowLongDisguise ∧ (Dash tok ∨ Slash tok)) ∨
  f = Style.allowGuessing ∨ f = Style.longCaseInsensitive ∨ f = Style.shortCaseInsensitive

/-- The same exception, perhaps with another prefix for option names. -/
def SameButPrefix (f g : Fail) : Prop :=
  f = g ∨ ∃ e e', f = .opt e ∧ g = .opt e' ∧ e.cls = e'.cls ∧ e.subst = e'.subst

/-- The same result, or the same exception, perhaps with another prefix for option names. -/
def Same {α : Type} : Except Fail α → Except Fail α → Prop
  | .ok a, .ok b => a = b
  | .error f, .error g => SameButPrefix f g
  | _, _ => False

end PO.Forms
