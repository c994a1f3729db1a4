import Verif.Spec.Store
import Verif.Spec.Lookup
/-
What a `store` does with each name.
-/
namespace PO.Spec

/-- The options a name may stand for when values are stored: those with exactly that name, or else the wildcard families it
belongs to. -/
def candidates (desc : List OptionDesc) (name : Str) : List OptionDesc :=
  if exacts desc name false false ≠ [] then exacts desc name false false else approximates desc name false false false

/-- The explicit value of a name. -/
def given (xm : VarMap) (name : Str) : Any :=
  match xm.map.get? name with
  | some v => if v.defaulted = true then none else v.v
  | none => none

/-- The options `os` give `name` the value `a`: `name` stands for one option, and this option accepts all of its occurrences. -/
def Yields (desc : List OptionDesc) (xm : VarMap) (utf8 : Bool) (os : List Opt) (name : Str) (d : OptionDesc) (a : Any) : Prop :=
  candidates desc name = [d] ∧ parseAll d.semantic utf8 (given xm name) ((occurrences os name).map (·.value)) = .ok a

/-- All names in `os` that are not final yet get their values. -/
def AllYield (desc : List OptionDesc) (xm : VarMap) (utf8 : Bool) (os : List Opt) : Prop :=
  ∀ name, Mentions os name → name ∉ xm.final → ∃ d a, Yields desc xm utf8 os name d a

/-- What is wrong with the option `o` that follows `before`. -/
inductive Objects (desc : List OptionDesc) (xm : VarMap) (utf8 : Bool) (before : List Opt) (o : Opt) : Fail → Prop
  | unknown (h : candidates desc o.stringKey = []) :
      Objects desc xm utf8 before o (.opt { cls := .unknownOption, style := 0, subst := [(str% "option", []), (str% "original_token", [])] })
  | ambiguous (h : 2 ≤ (candidates desc o.stringKey).length) :
      Objects desc xm utf8 before o (.opt { cls := .ambiguousOption ((candidates desc o.stringKey).map (reportedKey · o.stringKey)), style := 0
                                            subst := [(str% "option", []), (str% "original_token", [])] })
  | value {e} (d : OptionDesc) (a : Any) (h : Yields desc xm utf8 before o.stringKey d a) (he : (d.semantic.parse a o.value utf8).2 = some e) :
      Objects desc xm utf8 before o e

/-- `o` is the first option that cannot be stored: those before it can. -/
structure FirstFault (p : Parsed) (xm : VarMap) (utf8 : Bool) (before : List Opt) (o : Opt) (after : List Opt) (e : Fail) : Prop where
  split : p.options = before ++ o :: after
  named : o.stringKey ≠ []
  registered : o.unregistered = false
  open_ : o.stringKey ∉ xm.final
  fine : AllYield p.desc xm utf8 before
  fault : Objects p.desc xm utf8 before o e

/-- `f` is the exception `e` after it was told the option's name and the token: one that is about an option keeps its class and what else it says; any other is
the same exception. -/
structure ToldWhere (e : Fail) (name token : Str) (style : Nat) (f : Fail) : Prop where
  other : (∀ x, e ≠ .opt x) → f = e
  class_ : ∀ x, e = .opt x → ∃ y, f = .opt y ∧ y.cls = x.cls ∧ y.style = style ∧ y.subst.get? (str% "original_token") = some token ∧
    (y.subst.get? (str% "option") = match x.cls with
      | .unknownOption => x.subst.get? (str% "option")
      | .ambiguousOption _ => x.subst.get? (str% "option")
      | _ => some name) ∧
    ∀ k, k ≠ str% "original_token" → k ≠ str% "option" → y.subst.get? k = x.subst.get? k

end PO.Spec
