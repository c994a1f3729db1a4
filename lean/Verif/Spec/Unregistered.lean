import Verif.Spec.Grammar
/-
What is reported for options that are not known (C130; doc/howto.xml, "Allowing Unknown Options").
-/
namespace PO.Spec

/-- The token looks like an option, as written `i`, but does not have a known name. -/
def LooksUnknown (c : Cmdline) (tok : Str) (i : Item) : Prop := Spells c tok [i] ∧ i.name ≠ [] ∧ Unknown c i.name

/-- What is documented to be added to the result for the option `i`, with these original tokens. -/
def unknownOption (c : Cmdline) (i : Item) (tokens : List Str) : Opt :=
  { stringKey := i.name, value := i.value, originalTokens := tokens, unregistered := true, caseInsensitive := caseFlag c i.name }

/-- What is documented: one instance for each token that looks like an option, but does not have a known name. -/
inductive DocumentedUnknown (c : Cmdline) : List Str → List Opt → Prop
  | nil : DocumentedUnknown c [] []
  | unknown {tok i rest os} (h : LooksUnknown c tok i) (t : DocumentedUnknown c rest os) :
      DocumentedUnknown c (tok :: rest) (unknownOption c i [tok] :: os)
  | other {tok rest os} (h : ∀ i, ¬ LooksUnknown c tok i) (t : DocumentedUnknown c rest os) : DocumentedUnknown c (tok :: rest) os

/-- The unknown options among those written in a token. -/
inductive UnknownItems (c : Cmdline) : List Item → List Opt → Prop
  | nil : UnknownItems c [] []
  | unknown {i items os} (h0 : i.name ≠ []) (h : Unknown c i.name) (t : UnknownItems c items os) :
      UnknownItems c (i :: items) (unknownOption c i i.tokens :: os)
  | other {i items os} (h : i.name ≠ [] → ¬ Unknown c i.name) (t : UnknownItems c items os) : UnknownItems c (i :: items) os

/-- The unknown options on a command line: those written in a token that is not taken as a value, up to the terminator. -/
inductive UnknownOptions (c : Cmdline) : List Str → List Opt → Prop
  | nil : UnknownOptions c [] []
  | plain {tok rest os} (h : Plain c tok) (hd : tok ≠ ['-', '-']) (t : UnknownOptions c rest os) : UnknownOptions c (tok :: rest) os
  | terminator {rest} (h : Unclaimed c ['-', '-']) : UnknownOptions c (['-', '-'] :: rest) []
  | option {tok items taken os rest us more} (h : Spells c tok items) (hc : CompletesAll c items taken os) (hu : UnknownItems c items us)
      (t : UnknownOptions c rest more) : UnknownOptions c (tok :: taken ++ rest) (us ++ more)

/-- No token that looks like an unknown option is taken as a value, and no unknown option is written in a group with others. -/
inductive UnknownsApart (c : Cmdline) : List Str → Prop
  | nil : UnknownsApart c []
  | plain {tok rest} (h : Plain c tok) (hd : tok ≠ ['-', '-']) (t : UnknownsApart c rest) : UnknownsApart c (tok :: rest)
  | option {tok items taken os rest} (h : Spells c tok items) (hc : CompletesAll c items taken os)
      (hg : (∃ i ∈ items, i.name ≠ [] ∧ Unknown c i.name) → items.length = 1) (ht : ∀ v ∈ taken, ∀ i, ¬ LooksUnknown c v i)
      (t : UnknownsApart c rest) : UnknownsApart c (tok :: taken ++ rest)

end PO.Spec
