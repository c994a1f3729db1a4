import Verif.Model.Err
/-
Exceptions as objects: `error_with_option_name` and the classes derived from it, with the setters, the public template, the defaults
and the text kept for `what()`. A program may derive classes of its own, or throw `error_with_option_name` with its own template.
-/
namespace PO.Exception

/-- An object of `error_with_option_name` (errors.hpp:92-200) or of a class derived from it. `alternatives` is the member of
`ambiguous_option` (errors.hpp:296); `named` is false for `error_with_no_option_name` (errors.hpp:250-262). -/
structure Obj where
  alternatives : Option (List Str) := none
  named : Bool := true
  style : Nat := 0
  subst : SMap Str := []
  defaults : SMap (Str × Str) := []
  template : Str := []
  message : Str := []
  deriving DecidableEq, Repr

/-- `set_substitute` (errors.hpp:147-148). -/
def setSubstitute (o : Obj) (k v : Str) : Obj := { o with subst := SMap.set o.subst k v }

/-- `set_substitute_default` (errors.hpp:152-157). -/
def setDefault (o : Obj) (k src dst : Str) : Obj := { o with defaults := SMap.set o.defaults k (src, dst) }

/-- The constructor (src/value_semantic.cpp:245-260); `m_message` is empty. -/
def construct (alternatives : Option (List Str)) (named : Bool) (template option token : Str) (style : Nat) : Obj :=
  let o : Obj := { alternatives, named, style, template }
  let o := setDefault o (str% "canonical_option") (str% "option '%canonical_option%'") (str% "option")
  let o := setDefault o (str% "value") (str% "argument ('%value%')") (str% "argument")
  let o := setDefault o (str% "prefix") (str% "%prefix%") []
  setSubstitute (setSubstitute o (str% "option") option) (str% "original_token") token

/-- `set_prefix` (errors.hpp:170-171). -/
def setPrefix (o : Obj) (style : Nat) : Obj := { o with style }

/-- `set_option_name` (errors.hpp:174-175, 259), a virtual function. -/
def setOptionName (o : Obj) (n : Str) : Obj := if o.named then setSubstitute o (str% "option") n else o

/-- `set_original_token` (errors.hpp:180-181). -/
def setOriginalToken (o : Obj) (t : Str) : Obj := setSubstitute o (str% "original_token") t

/-- `add_context` (errors.hpp:161-168). -/
def addContext (o : Obj) (n t : Str) (style : Nat) : Obj := setPrefix (setOriginalToken (setOptionName o n) t) style

/-- `get_canonical_option_prefix` (src/value_semantic.cpp:283-301); `none`: `std::logic_error`. -/
def optionPrefix (o : Obj) : Option Str :=
  if o.style = Style.allowDashForShort then some (str% "-")
  else if o.style = Style.allowSlashForShort then some (str% "/")
  else if o.style = Style.allowLongDisguise then some (str% "-")
  else if o.style = Style.allowLong then some (str% "--")
  else if o.style = 0 then some []
  else none

/-- `m_substitutions.find(k)->second`, for the two keys that are set by the constructor. -/
def text (o : Obj) (k : Str) : Str := (SMap.get? o.subst k).getD []

/-- `get_canonical_option_name` (src/value_semantic.cpp:304-323), and `get_option_name` (errors.hpp:177-178). -/
def optionName (o : Obj) : Option Str :=
  if text o (str% "option") = [] then some (text o (str% "original_token"))
  else
    let token := stripPrefixes (text o (str% "original_token"))
    let name := stripPrefixes (text o (str% "option"))
    if o.style = Style.allowLong ∨ o.style = Style.allowLongDisguise then (optionPrefix o).map (· ++ name)
    else
      match token with
      | c :: _ => if o.style ≠ 0 then (optionPrefix o).map (· ++ [c]) else some name
      | [] => some name

/-- `replace_token` (src/value_semantic.cpp:271-281), a loop on `m_message`; `none`: not finished after `fuel` rounds. -/
def replace : Nat → Obj → Str → Str → Option Obj
  | fuel, o, src, dst =>
    match findSub o.message src with
    | none => some o
    | some pos =>
      match fuel with
      | 0 => none
      | fuel + 1 => replace fuel { o with message := o.message.take pos ++ dst ++ o.message.drop (pos + src.length) } src dst

/-- The first loop of `substitute_placeholders` (src/value_semantic.cpp:337-344). -/
def replaceDefaults (fuel : Nat) (substitutions : SMap Str) : SMap (Str × Str) → Obj → Option Obj
  | [], o => some o
  | (k, src, dst) :: ds, o =>
    if SMap.has substitutions k = false ∨ (SMap.get? substitutions k).getD [] = [] then
      match replace fuel o src dst with
      | none => none
      | some o => replaceDefaults fuel substitutions ds o
    else replaceDefaults fuel substitutions ds o

/-- The second loop (src/value_semantic.cpp:351-353). -/
def replaceAll (fuel : Nat) : SMap Str → Obj → Option Obj
  | [], o => some o
  | (k, v) :: ss, o =>
    match replace fuel o ('%' :: k ++ ['%']) v with
    | none => none
    | some o => replaceAll fuel ss o

/-- `error_with_option_name::substitute_placeholders` (src/value_semantic.cpp:326-354). -/
def substitute (fuel : Nat) (o : Obj) (template : Str) : Option Obj :=
  let o := { o with message := template }
  match optionName o, optionPrefix o with
  | some name, some pre =>
    let substitutions := SMap.set (SMap.set o.subst (str% "canonical_option") name) (str% "prefix") pre
    match replaceDefaults fuel substitutions o.defaults o with
    | none => none
    | some o => replaceAll fuel substitutions o
  | _, _ => none

/-- `what` (src/value_semantic.cpp:263-269) with the `substitute_placeholders` of `ambiguous_option` (357-393): the object afterwards; what is
returned is its `message`. `none`: not finished after `fuel` rounds, or an exception in a function that must not throw. -/
def what (fuel : Nat) (o : Obj) : Option Obj :=
  match o.alternatives with
  | none => substitute fuel o o.template
  | some alts =>
    if o.style = Style.allowDashForShort ∨ o.style = Style.allowSlashForShort then substitute fuel o o.template
    else
      match ambiguousTemplate alts o.template with
      | none => none
      | some t => substitute fuel o t

/-- The member functions, and assigning to the public member `m_error_template`. -/
inductive Call
  | setSubstitute (k v : Str)
  | setDefault (k src dst : Str)
  | setPrefix (style : Nat)
  | setOptionName (n : Str)
  | setOriginalToken (t : Str)
  | addContext (n t : Str) (style : Nat)
  | setTemplate (t : Str)
  | what
  deriving DecidableEq, Repr

/-- The calls in order, as far as `what()` returns; copies of the object are the object. -/
inductive Runs : Obj → List Call → Obj → Prop
  | nil (o) : Runs o [] o
  | setSubstitute {o k v cs o'} : Runs (setSubstitute o k v) cs o' → Runs o (.setSubstitute k v :: cs) o'
  | setDefault {o k src dst cs o'} : Runs (setDefault o k src dst) cs o' → Runs o (.setDefault k src dst :: cs) o'
  | setPrefix {o s cs o'} : Runs (setPrefix o s) cs o' → Runs o (.setPrefix s :: cs) o'
  | setOptionName {o n cs o'} : Runs (setOptionName o n) cs o' → Runs o (.setOptionName n :: cs) o'
  | setOriginalToken {o t cs o'} : Runs (setOriginalToken o t) cs o' → Runs o (.setOriginalToken t :: cs) o'
  | addContext {o n t s cs o'} : Runs (addContext o n t s) cs o' → Runs o (.addContext n t s :: cs) o'
  | setTemplate {o t cs o'} : Runs { o with template := t } cs o' → Runs o (.setTemplate t :: cs) o'
  | what {o o1 fuel cs o'} : what fuel o = some o1 → Runs o1 cs o' → Runs o (.what :: cs) o'

end PO.Exception
