import Verif.Spec.GrammarAll
/-
What is read from the beginning of a command line, for C160.
-/
namespace PO.Prefixes

/-- The first options of the result `r`, where the last of them may lack values and tokens at its end. -/
inductive Begins : List Opt → List Opt → Prop
  | nil {r} : Begins [] r
  | same {r r'} (o : Opt) (t : Begins r' r) : Begins (o :: r') (o :: r)
  | fewer {r} (o : Opt) (vs ts : List Str) : Begins [o] ({ o with value := o.value ++ vs, originalTokens := o.originalTokens ++ ts } :: r)

/-- A value of an option is missing. -/
def MissingValue (c : Cmdline) (f : Fail) : Prop := ∃ n t, f = Spec.complaint c (.cmdlineSyntax .missingParameter) n t

/-- An exception about one token, where no name is ambiguous and no value is missing. -/
def AboutToken (c : Cmdline) (f : Fail) : Prop :=
  ∃ cls n t, f = Spec.complaint c cls n t ∧ cls ≠ .cmdlineSyntax .missingParameter ∧ ∀ alts, cls ≠ .ambiguousOption alts

end PO.Prefixes
