import Verif.Spec.Cmdline
/-
What a failed run leaves in the parser.
-/
namespace PO.Spec

/-- The exceptions a style parser throws before it takes the token away: an ambiguous name in a token, and a missing value after `=`. -/
def Sticky (f : Fail) : Prop :=
  ∃ e, f = .opt e ∧ ((∃ alts, e.cls = .ambiguousOption alts) ∨ e.cls = .cmdlineSyntax .emptyAdjacentParameter)

/-- The token is a disguised long option, `-name...` or `/name...`, and `tok'` is the same with two dashes. -/
def Undisguised (c : Cmdline) (tok tok' : Str) : Prop :=
  Enabled c Style.allowLongDisguise ∧ ∃ lead rest, tok = lead :: rest ∧ (lead = '-' ∧ rest.head? ≠ some '-' ∨ lead = '/') ∧ tok' = '-' :: '-' :: rest

/-- The exceptions that do not depend on the tokens behind the option: an unknown option, and a value for an option that takes none. -/
def Standalone (f : Fail) : Prop :=
  ∃ e, f = .opt e ∧ (e.cls = .unknownOption ∨ e.cls = .cmdlineSyntax .extraParameter)

/-- What is left when reading stops with this exception at the token `a`, followed by `as`: what comes after `a`, or after
some of the values of `a`; or, for some exceptions, `a` is still there, perhaps rewritten. -/
def LeftAt (c : Cmdline) (f : Fail) (a : Str) (as left : List Str) : Prop :=
  (left <:+ as ∧ (Standalone f → left = as)) ∨ Sticky f ∧ (left = a :: as ∨ ∃ a', Undisguised c a a' ∧ left = a' :: as)

end PO.Spec
