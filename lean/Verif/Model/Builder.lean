import Verif.Model.Value
/-
Declaring a value: the calls that configure a `typed_value<T>`, one after the other (`value<T>()->default_value(1)->composing()`).

The text of a value is made by `boost::lexical_cast<std::string>`, which the model takes as a parameter: `none` stands for `bad_lexical_cast`,
thrown if `operator<<` of the program fails. Not modelled: exceptions of copying values, strings and functions.
-/
namespace PO.Builder

/-- The members of `typed_value<T, charT>` (value_semantic.hpp:363-373), except `m_implicit`, which is set by the constructor and never read.
The program's `T` and `charT` are the members `type` and `wide`. -/
structure Obj where
  type : VType
  wide : Bool
  storeTo : Option Nat
  valueName : Str := []
  dflt : Option AVal := none
  dfltText : Str := []
  implicit : Option AVal := none
  implicitText : Str := []
  composing : Bool := false
  multitoken : Bool := false
  zeroTokens : Bool := false
  required : Bool := false
  notifier : Option Nat := none
  deriving DecidableEq

/-- The constructor (value_semantic.hpp:189-193). -/
def fresh (type : VType) (wide : Bool) (storeTo : Option Nat) : Obj := { type, wide, storeTo }

/-- A call of a member function that configures the object. A `notifier` without a target is an empty `function1`. -/
inductive Call
  | default (v : AVal)
  | defaultWithText (v : AVal) (text : Str)
  | implicit (v : AVal)
  | implicitWithText (v : AVal) (text : Str)
  | valueName (name : Str)
  | notifier (f : Option Nat)
  | composing
  | multitoken
  | zeroTokens
  | required
  deriving DecidableEq

/-- One call (value_semantic.hpp:199-204, 212-217, 223-229, 232-236, 248-253, 257-261, 266-270, 274-278, 287-291, 294-298): the object afterwards, and
whether `bad_lexical_cast` is thrown. The value is assigned before its text is made. -/
def perform (text : AVal → Option Str) (o : Obj) : Call → Obj × Bool
  | .default v =>
    match text v with
    | some s => ({ o with dflt := some v, dfltText := s }, false)
    | none => ({ o with dflt := some v }, true)
  | .defaultWithText v s => ({ o with dflt := some v, dfltText := s }, false)
  | .implicit v =>
    match text v with
    | some s => ({ o with implicit := some v, implicitText := s }, false)
    | none => ({ o with implicit := some v }, true)
  | .implicitWithText v s => ({ o with implicit := some v, implicitText := s }, false)
  | .valueName n => ({ o with valueName := n }, false)
  | .notifier f => ({ o with notifier := f }, false)
  | .composing => ({ o with composing := true }, false)
  | .multitoken => ({ o with multitoken := true }, false)
  | .zeroTokens => ({ o with zeroTokens := true }, false)
  | .required => ({ o with required := true }, false)

/-- Several calls; an exception skips the calls after it. -/
def performAll (text : AVal → Option Str) : Obj → List Call → Obj × Bool
  | o, [] => (o, false)
  | o, c :: cs =>
    match perform text o c with
    | (o', true) => (o', true)
    | (o', false) => performAll text o' cs

/-- `typed_value::name` (detail/value_semantic.hpp:22-38), from the members. -/
def Obj.name (o : Obj) : Str :=
  let var := if o.valueName = [] then str% "arg" else o.valueName
  if o.implicit ≠ none ∧ o.implicitText ≠ [] then
    let msg := str% "[=" ++ var ++ str% "(=" ++ o.implicitText ++ str% ")]"
    if o.dflt ≠ none ∧ o.dfltText ≠ [] then msg ++ str% " (=" ++ o.dfltText ++ str% ")" else msg
  else if o.dflt ≠ none ∧ o.dfltText ≠ [] then var ++ str% " (=" ++ o.dfltText ++ str% ")"
  else var

/-- The object as the rest of the model sees it. -/
def Obj.typed (o : Obj) : TypedValue where
  type := o.type
  wide := o.wide
  storeTo := o.storeTo
  valueName := o.valueName
  dflt := o.dflt.map fun v => (v, o.dfltText)
  implicit := o.implicit.map fun v => (v, o.implicitText)
  composing := o.composing
  multitoken := o.multitoken
  zeroTokens := o.zeroTokens
  required := o.required
  notifier := o.notifier

/-- `bool_switch(v)` (src/value_semantic.cpp:126-140): the calls it makes. -/
def switchCalls : List Call := [.default (.scalar (.bool false)), .zeroTokens]

end PO.Builder
