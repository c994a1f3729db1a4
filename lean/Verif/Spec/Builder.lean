import Verif.Model.Builder
/-
What a chain of calls declares.
-/
namespace PO.Spec
open PO.Builder

/-- The value and the text of a call that sets the default. -/
def setsDefault (text : AVal → Option Str) : Call → Option (AVal × Str)
  | .default v => (text v).map fun s => (v, s)
  | .defaultWithText v s => some (v, s)
  | _ => none

/-- The value and the text of a call that sets the implicit value. -/
def setsImplicit (text : AVal → Option Str) : Call → Option (AVal × Str)
  | .implicit v => (text v).map fun s => (v, s)
  | .implicitWithText v s => some (v, s)
  | _ => none

def setsName : Call → Option Str
  | .valueName n => some n
  | _ => none

def setsNotifier : Call → Option (Option Nat)
  | .notifier f => some f
  | _ => none

/-- What the calls declare: of each kind the last call counts, and a call without argument counts if it is there. -/
structure DeclaredBy (text : AVal → Option Str) (type : VType) (wide : Bool) (storeTo : Option Nat) (cs : List Call) (t : TypedValue) : Prop where
  type : t.type = type
  wide : t.wide = wide
  storeTo : t.storeTo = storeTo
  valueName : t.valueName = (cs.filterMap setsName).getLast?.getD []
  dflt : t.dflt = (cs.filterMap (setsDefault text)).getLast?
  implicit : t.implicit = (cs.filterMap (setsImplicit text)).getLast?
  composing : t.composing = true ↔ Call.composing ∈ cs
  multitoken : t.multitoken = true ↔ Call.multitoken ∈ cs
  zeroTokens : t.zeroTokens = true ↔ Call.zeroTokens ∈ cs
  required : t.required = true ↔ Call.required ∈ cs
  notifier : t.notifier = (cs.filterMap setsNotifier).getLast?.getD none

/-- Some call has a value whose text cannot be made. -/
def Unprintable (text : AVal → Option Str) (cs : List Call) : Prop :=
  ∃ v, (Call.default v ∈ cs ∨ Call.implicit v ∈ cs) ∧ text v = none

/-- The text that the help shows for the default, if any, belongs to the value that will be used, as the program said or as it is printed. -/
def TextsRight (text : AVal → Option Str) (cs : List Call) (o : Obj) : Prop :=
  (∀ v, o.dflt = some v → (Call.default v ∈ cs ∧ text v = some o.dfltText) ∨ Call.defaultWithText v o.dfltText ∈ cs) ∧
  (∀ v, o.implicit = some v → (Call.implicit v ∈ cs ∧ text v = some o.implicitText) ∨ Call.implicitWithText v o.implicitText ∈ cs)

end PO.Spec
