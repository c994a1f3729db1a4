import Verif.Spec.Cmdline
/-
C142: what the comment in `cmdline::run` asks of a style parser (src/cmdline.cpp:210-221).
-/
namespace PO.Spec

/-- It takes tokens from the front, and returns options iff it takes tokens; the options have no position, and are not marked as
unregistered. -/
structure Orderly (p : StyleParser) : Prop where
  idle : ∀ args rest, p args = .ok ([], rest) → rest = args
  takes : ∀ args os rest, p args = .ok (os, rest) → os ≠ [] → ∃ taken, taken ≠ [] ∧ args = taken ++ rest
  fresh : ∀ args os rest, p args = .ok (os, rest) → ∀ o ∈ os, o.positionKey = -1 ∧ o.unregistered = false

/-- It also records the tokens it takes in the options it returns. -/
def Records (p : StyleParser) : Prop := ∀ args os rest, p args = .ok (os, rest) → os.flatMap (·.originalTokens) ++ rest = args

/-- `o` is among what the style parser returns for the tokens from some token on. -/
def ReturnedFor (p : StyleParser) (args : List Str) (o : Opt) : Prop :=
  ∃ pre suf os rest, args = pre ++ suf ∧ p suf = .ok (os, rest) ∧ o ∈ os

/-- The name of an option was written in a token, or given by the style parser. -/
inductive NamedBy (c : Cmdline) (p : StyleParser) (args : List Str) (name : Str) : Prop
  | token (tok : Str) (value tokens : List Str) (ht : tok ∈ args) (hw : Written c tok name value tokens)
  | parser (o : Opt) (ho : ReturnedFor p args o) (hk : o.stringKey = name)

end PO.Spec
