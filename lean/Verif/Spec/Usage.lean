import Verif.Spec.Refusal
/-
What the help says about an option, as a promise about the command line.
-/
namespace PO.Spec

/-- The command line is read as this one option with these values. -/
def ReadAs (c : Cmdline) (args : List Str) (key : Str) (vs : List Str) : Prop :=
  ∃ o, c.run args = .ok [o] ∧ o.stringKey = key ∧ o.value = vs ∧ o.originalTokens = args

/-- The command line is refused with an exception of this class that names the option by this token. -/
def RefusedAs (c : Cmdline) (args : List Str) (cls : ErrClass) (tok : Str) : Prop :=
  ∃ e, c.run args = .error (.opt e) ∧ e.cls = cls ∧ (str% "original_token", tok) ∈ e.subst

/-- What is shown after the names is the argument: none, an optional one in brackets, or one that must be given. `bare` is the
option without, `adj` with an adjacent value. -/
structure Keeps (c : Cmdline) (key bare : Str) (adj : Str → Str) (shown : Str) : Prop where
  none : shown = [] → ReadAs c [bare] key []
  optional : str% "[=" <+: shown → ReadAs c [bare] key [] ∧ ∀ v, v ≠ [] → ReadAs c [adj v] key [v]
  required : shown ≠ [] → ¬ str% "[=" <+: shown → RefusedAs c [bare] (.cmdlineSyntax .missingParameter) bare ∧
    (∀ v, v ≠ [] → ReadAs c [adj v] key [v]) ∧ ∀ v, Takeable c v → ReadAs c [bare, v] key [v]

/-- The help shows the argument as what it is: there is none, or it is shown in brackets exactly if it may be left out. In brackets are arguments with an implicit value that
has a text, and those whose name was chosen so. -/
def ShownRight (t : TypedValue) : Prop :=
  t.zeroTokens = true ∧ t.multitoken = false ∨
  ((∃ v s, t.implicit = some (v, s) ∧ s ≠ []) ∨ str% "[=" <+: t.valueName ↔ t.implicit ≠ none ∨ t.zeroTokens = true)

end PO.Spec
