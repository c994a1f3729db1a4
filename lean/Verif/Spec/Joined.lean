import Verif.Spec.Usual
/-
Programs that read options from several sources, each of which knows some of the options.
-/
namespace PO.Spec

/-- The options of a program, declared without type or with `value<T>`: each has a name of its own. -/
structure OwnOptions (env : Env) (all : List OptionDesc) : Prop where
  plain : ∀ d ∈ all, PlainValue env d.semantic
  named : ∀ d ∈ all, d.own ≠ []
  distinct : ∀ d ∈ all, ∀ d' ∈ all, d'.own = d.own → d' = d

/-- What is read from a source that knows some of the options: they have no names in common, and only they are mentioned, by their own names. -/
structure SourceOf (all : List OptionDesc) (p : Parsed) : Prop where
  declares : ∀ d ∈ p.desc, d ∈ all
  distinct : NoClash p.desc
  mentions : ∀ n, Mentions p.options n → ∃ d ∈ p.desc, d.own = n

/-- The tokens of an option that count, from its tokens in each source: all of them if it composes, otherwise those of the first source that has any. -/
def heard (composing : Bool) : List (List (List Str)) → List (List Str)
  | [] => []
  | L :: rest => if composing = true then L ++ heard composing rest else if L = [] then heard composing rest else L

/-- The tokens of the option `d` that count. -/
def heardOf (srcs : List Parsed) (d : OptionDesc) : List (List Str) := heard d.semantic.isComposing (srcs.map fun p => tokensOf p.options d.own)

/-- The option is known to a source, it has to be given, no source has it, and it has no default. -/
def LackingIn (srcs : List Parsed) (d : OptionDesc) : Prop :=
  (∃ p ∈ srcs, d ∈ p.desc) ∧ d.semantic.isRequired = true ∧ (∀ p ∈ srcs, ¬ Mentions p.options d.own) ∧ d.semantic.applyDefault = none

end PO.Spec
