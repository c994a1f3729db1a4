import Verif.Model.VarMap
/-
Overloads of `validate` that the program supplies for its own classes (doc/howto.xml, "Custom Validators"). The classes are those with a type number;
which object of the class a value is, is told by a number.
-/
namespace PO

/-- A function `validate(any& v, const vector<basic_string<charT>>& xs, T*, int)`: what it leaves in `v`, and the exception that leaves it if any. -/
abbrev Validator (α : Type) := Any → List α → Any × Option Fail

/-- `validators::check_first_occurrence(v); s = validators::get_single_string(xs);`, and then `v = any(T(..))` from the string or an exception: the way
validators are written in the documentation, in example/regex.cpp:44-66 and in the generic `validate` (detail/value_semantic.hpp:88-101). -/
def onceValidator {α : Type} (empty : α) (read : α → Except Fail SVal) : Validator α := fun v xs =>
  match v with
  | some _ => (v, some errMultipleOccurrences)
  | none =>
    match getSingle empty xs false with
    | .error f => (none, some f)
    | .ok s =>
      match read s with
      | .error f => (none, some f)
      | .ok r => (some (.scalar r), none)

/-- `any_cast<T>(a)` -/
def castScalar (t : SType) : Any → Except Fail SVal
  | some (.scalar r) => if r.type = t then .ok r else .error .badAnyCast
  | _ => .error .badAnyCast

/-- The loop of the vector `validate` (detail/value_semantic.hpp:144-159). `text` is the string in the local encoding, as `invalid_option_value` keeps
it (src/value_semantic.cpp:215-230). -/
def Validator.vecLoop {α : Type} (f : Validator α) (text : α → Str) (t : SType) : List SVal → List α → List SVal × Option Fail
  | acc, [] => (acc, none)
  | acc, x :: xs =>
    match f none [x] with
    | (_, some .badLexicalCast) => (acc, some (errInvalidValue (text x)))
    | (_, some e) => (acc, some e)
    | (a, none) =>
      match castScalar t a with
      | .error e => (acc, some e)
      | .ok r => vecLoop f text t (acc ++ [r]) xs

/-- `validate` for `T`, `vector<T>` (detail/value_semantic.hpp:133-160) and `optional<T>` (162-190) with the overload `f` for `T`. -/
def Validator.lift {α : Type} (f : Validator α) (text : α → Str) : VType → Validator α
  | .scalar _ => f
  | .vector t => fun v xs =>
    match v with
    | none =>
      let r := f.vecLoop text t [] xs
      (some (.vector t r.1), r.2)
    | some (.vector t' vs) =>
      if t' = t then
        let r := f.vecLoop text t vs xs
        (some (.vector t r.1), r.2)
      else (v, some (.ub .wrongVectorType))
    | some _ => (v, some (.ub .wrongVectorType))
  | .optional t => fun v xs =>
    match v with
    | some _ => (v, some errMultipleOccurrences)
    | none =>
      match xs with
      | [] => (none, some (errValidation .atLeastOneValueRequired))
      | _ :: _ :: _ => (none, some (errValidation .multipleValuesNotAllowed))
      | [_] =>
        match f none xs with
        | (_, some e) => (none, some e)
        | (a, none) =>
          match castScalar t a with
          | .error e => (none, some e)
          | .ok r => (some (.optional t (some r)), none)

/-- The overloads of `validate` for a class: on narrow and on wide strings. -/
structure Overloads where
  narrow : Validator Str
  wide : Validator WStr

namespace TypedValue

/-- `xparse` (detail/value_semantic.hpp:192-205) with any `validate`. -/
def xparseWith {α : Type} (validate : Validator α) (t : TypedValue) (v : Any) (toks : List α) : Any × Option Fail :=
  match toks, t.implicit with
  | [], some (iv, _) => (some iv, none)
  | _, _ => validate v toks

/-- `value_semantic_codecvt_helper<char>::parse` and `<wchar_t>::parse` (src/value_semantic.cpp:37-83). -/
def parseWith (env : Env) (o : Overloads) (t : TypedValue) (v : Any) (toks : List Str) (utf8 : Bool) : Any × Option Fail :=
  if t.wide then
    match toks.mapM (if utf8 then env.fromUtf8 else env.fromLocal) with
    | none => (v, some .conversion)
    | some ws => xparseWith (o.wide.lift (convertValue env) t.type) t v ws
  else if utf8 then
    match toks.mapM (fun s => (env.fromUtf8 s).bind env.toLocal) with
    | none => (v, some .conversion)
    | some ls => xparseWith (o.narrow.lift id t.type) t v ls
  else xparseWith (o.narrow.lift id t.type) t v toks

/-- `value<T>` where the program has overloads for the class: everything but `parse` is as for other classes. -/
def withOverloads (env : Env) (o : Overloads) (t : TypedValue) : ValueSemantic := { t.toSemantic env with parse := t.parseWith env o }

end TypedValue
end PO
