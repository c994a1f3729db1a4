import Verif.Model.Err
/-
Value semantics: include/boost/program_options/value_semantic.hpp, detail/value_semantic.hpp and
src/value_semantic.cpp.
-/
namespace PO

/-- A wide string: a list of `wchar_t` code values. -/
abbrev WStr := List Nat

/-- Facilities outside the library that the value semantics call: character-set conversion
(src/convert.cpp; `none` is an exception) and `boost::lexical_cast<T>` for the types other than
`bool` and `std::string`, indexed by a type number (`none` is `bad_lexical_cast`). -/
structure Env where
  fromUtf8 : Str → Option WStr
  toUtf8 : WStr → Option Str
  fromLocal : Str → Option WStr
  toLocal : WStr → Option Str
  lex : Nat → Str → Option Int
  wlex : Nat → WStr → Option Int

/-- Element types `T` covered: `bool`, `std::string`, `std::wstring`, and types read with
`lexical_cast`. -/
inductive SType
  | bool | str | wstr | lex (ty : Nat)
  deriving DecidableEq, Repr

/-- A value of one of these types. -/
inductive SVal
  | bool (b : Bool) | str (s : Str) | wstr (w : WStr) | lex (ty : Nat) (v : Int)
  deriving DecidableEq, Repr

def SVal.type : SVal → SType
  | .bool _ => .bool
  | .str _ => .str
  | .wstr _ => .wstr
  | .lex ty _ => .lex ty

/-- The types `T` of `typed_value<T>` covered: scalars, `std::vector` and `optional` of scalars. -/
inductive VType
  | scalar (t : SType) | vector (t : SType) | optional (t : SType)
  deriving DecidableEq, Repr

/-- Contents of a non-empty `boost::any`. -/
inductive AVal
  | scalar (v : SVal) | vector (t : SType) (vs : List SVal) | optional (t : SType) (v : Option SVal)
  deriving DecidableEq, Repr

def AVal.type : AVal → VType
  | .scalar v => .scalar v.type
  | .vector t _ => .vector t
  | .optional t _ => .optional t

/-- `boost::any`; `none` is the empty `any`. -/
abbrev Any := Option AVal

/-- What `notify` does to the program: assign a variable, or call a notifier. -/
inductive Event
  | assign (addr : Nat) (v : AVal)
  | callback (id : Nat) (v : AVal)
  deriving DecidableEq, Repr

/-- The interface `value_semantic` (value_semantic.hpp:23-72). `parse` returns the `any` as left
behind even when an exception is thrown. `applyDefault = some v` means that `apply_default` stores
`v` and returns true. `notify` lists the effects performed, and the exception if one escapes. -/
structure ValueSemantic where
  name : Str
  minTokens : Nat
  maxTokens : Nat
  isComposing : Bool
  isRequired : Bool
  parse : Any → List Str → Bool → Any × Option Fail
  applyDefault : Option Any
  notify : Any → List Event × Option Fail

/-- `std::numeric_limits<unsigned>::max()`. -/
def uintMax : Nat := 4294967295

/-- `get_single_string` (detail/value_semantic.hpp:59-72). -/
def getSingle {α : Type} (empty : α) (v : List α) (allowEmpty : Bool) : Except Fail α :=
  match v with
  | _ :: _ :: _ => .error (errValidation .multipleValuesNotAllowed)
  | [x] => .ok x
  | [] => if allowEmpty then .ok empty else .error (errValidation .atLeastOneValueRequired)

/-- `convert_value` (src/value_semantic.cpp:25-33). -/
def convertValue (env : Env) (w : WStr) : Str :=
  (env.toLocal w).getD (str% "<unrepresentable unicode string>")

/-- The string literal as a wide string. -/
def widen (s : Str) : WStr := s.map Char.toNat

/-- `tolower` on wide characters, "C" locale. -/
def wlower (w : WStr) : WStr := w.map (fun n => if 65 ≤ n ∧ n ≤ 90 then n + 32 else n)

/-- The word test of `validate(any&, const vector<string>&, bool*, int)`
(src/value_semantic.cpp:157-162). -/
def boolWord (s : Str) : Option Bool :=
  if s = [] ∨ s = str% "on" ∨ s = str% "yes" ∨ s = str% "1" ∨ s = str% "true" then some true
  else if s = str% "off" ∨ s = str% "no" ∨ s = str% "0" ∨ s = str% "false" then some false
  else none

/-- The same test on wide strings (src/value_semantic.cpp:179-184). -/
def wboolWord (s : WStr) : Option Bool :=
  if s = [] ∨ s = widen (str% "on") ∨ s = widen (str% "yes") ∨ s = widen (str% "1") ∨ s = widen (str% "true") then some true
  else if s = widen (str% "off") ∨ s = widen (str% "no") ∨ s = widen (str% "0") ∨ s = widen (str% "false") then some false
  else none

/-- The scalar `validate` overloads on narrow strings, after `check_first_occurrence` succeeded:
bool (src/value_semantic.cpp:148-163), string (187-192), generic
(detail/value_semantic.hpp:88-101; also used for `std::wstring`, where the model refuses). -/
def validateScalar (env : Env) (t : SType) (xs : List Str) : Except Fail SVal :=
  match t with
  | .bool =>
    match getSingle [] xs true with
    | .error f => .error f
    | .ok s =>
      match boolWord (toLower s) with
      | some b => .ok (.bool b)
      | none => .error (errInvalidBool (toLower s))
  | .str =>
    match getSingle [] xs false with
    | .error f => .error f
    | .ok s => .ok (.str s)
  | .wstr =>
    match getSingle [] xs false with
    | .error f => .error f
    | .ok s => .error (errInvalidValue s)
  | .lex ty =>
    match getSingle [] xs false with
    | .error f => .error f
    | .ok s =>
      match env.lex ty s with
      | some v => .ok (.lex ty v)
      | none => .error (errInvalidValue s)

/-- The scalar `validate` overloads on wide strings: bool (src/value_semantic.cpp:171-185),
`std::string` (195-200: note that the stored value is a `std::wstring`), generic
(detail/value_semantic.hpp:88-101; for `std::wstring` the cast is the identity). -/
def wvalidateScalar (env : Env) (t : SType) (xs : List WStr) : Except Fail SVal :=
  match t with
  | .bool =>
    match getSingle [] xs true with
    | .error f => .error f
    | .ok s =>
      match wboolWord (wlower s) with
      | some b => .ok (.bool b)
      | none => .error (errInvalidBool (convertValue env (wlower s)))
  | .str =>
    match getSingle [] xs false with
    | .error f => .error f
    | .ok s => .ok (.wstr s)
  | .wstr =>
    match getSingle [] xs false with
    | .error f => .error f
    | .ok s => .ok (.wstr s)
  | .lex ty =>
    match getSingle [] xs false with
    | .error f => .error f
    | .ok s =>
      match env.wlex ty s with
      | some v => .ok (.lex ty v)
      | none => .error (errInvalidValue (convertValue env s))

/-- The loop of the vector `validate` (detail/value_semantic.hpp:144-159): elements read before a
failing one stay in the vector. `any_cast<T>(a)` throws `bad_any_cast` when the scalar validator
stored another type. -/
def validateVecLoop {α : Type} (scalar : List α → Except Fail SVal) (t : SType) :
    List SVal → List α → List SVal × Option Fail
  | acc, [] => (acc, none)
  | acc, x :: xs =>
    match scalar [x] with
    | .error f => (acc, some f)
    | .ok v => if v.type = t then validateVecLoop scalar t (acc ++ [v]) xs else (acc, some .badAnyCast)

/-- `validate` for `T`: scalar overloads preceded by `check_first_occurrence`
(src/value_semantic.cpp:205-211), vectors (detail/value_semantic.hpp:133-160) and optionals
(162-190). Generic in the character type through `scalar`. -/
def validate {α : Type} (scalar : SType → List α → Except Fail SVal) (t : VType) (v : Any)
    (xs : List α) : Any × Option Fail :=
  match t with
  | .scalar st =>
    match v with
    | some _ => (v, some errMultipleOccurrences)
    | none =>
      match scalar st xs with
      | .error f => (none, some f)
      | .ok r => (some (.scalar r), none)
  | .vector st =>
    match v with
    | none =>
      let r := validateVecLoop (scalar st) st [] xs
      (some (.vector st r.1), r.2)
    | some (.vector st' vs) =>
      if st' = st then
        let r := validateVecLoop (scalar st) st vs xs
        (some (.vector st r.1), r.2)
      else (v, some (.ub .wrongVectorType))
    | some _ => (v, some (.ub .wrongVectorType))
  | .optional st =>
    match v with
    | some _ => (v, some errMultipleOccurrences)
    | none =>
      match xs with
      | [x] =>
        match scalar st [x] with
        | .error f => (none, some f)
        | .ok r => if r.type = st then (some (.optional st (some r)), none) else (none, some .badAnyCast)
      | [] => (none, some (errValidation .atLeastOneValueRequired))
      | _ :: _ :: _ => (none, some (errValidation .multipleValuesNotAllowed))

/-- A `typed_value<T, charT>` as configured by its builder methods (value_semantic.hpp:187-298).
`storeTo` is the address of the variable, `notifier` identifies the function. -/
structure TypedValue where
  type : VType
  wide : Bool := false
  storeTo : Option Nat := none
  valueName : Str := []
  dflt : Option (AVal × Str) := none
  implicit : Option (AVal × Str) := none
  composing : Bool := false
  multitoken : Bool := false
  zeroTokens : Bool := false
  required : Bool := false
  notifier : Option Nat := none

namespace TypedValue

/-- `min_tokens` (value_semantic.hpp:306-313). -/
def minTokens (t : TypedValue) : Nat := if t.zeroTokens || t.implicit.isSome then 0 else 1

/-- `max_tokens` (value_semantic.hpp:315-323). -/
def maxTokens (t : TypedValue) : Nat :=
  if t.multitoken then uintMax else if t.zeroTokens then 0 else 1

/-- `name` (detail/value_semantic.hpp:22-38); the global `arg` has its initial value "arg". -/
def name (t : TypedValue) : Str :=
  let var := if t.valueName = [] then str% "arg" else t.valueName
  let dtext := match t.dflt with | some (_, s) => s | none => []
  let itext := match t.implicit with | some (_, s) => s | none => []
  if itext ≠ [] then
    let msg := str% "[=" ++ var ++ str% "(=" ++ itext ++ str% ")]"
    if dtext ≠ [] then msg ++ str% " (=" ++ dtext ++ str% ")" else msg
  else if dtext ≠ [] then var ++ str% " (=" ++ dtext ++ str% ")"
  else var

/-- `xparse` (detail/value_semantic.hpp:192-205). -/
def xparse {α : Type} (scalar : SType → List α → Except Fail SVal) (t : TypedValue) (v : Any)
    (toks : List α) : Any × Option Fail :=
  match toks, t.implicit with
  | [], some (iv, _) => (some iv, none)
  | _, _ => validate scalar t.type v toks

/-- `value_semantic_codecvt_helper<char>::parse` (src/value_semantic.cpp:37-60) and
`value_semantic_codecvt_helper<wchar_t>::parse` (61-83). -/
def parse (env : Env) (t : TypedValue) (v : Any) (toks : List Str) (utf8 : Bool) : Any × Option Fail :=
  if t.wide then
    match toks.mapM (if utf8 then env.fromUtf8 else env.fromLocal) with
    | none => (v, some .conversion)
    | some ws => xparse (wvalidateScalar env) t v ws
  else if utf8 then
    match toks.mapM (fun s => (env.fromUtf8 s).bind env.toLocal) with
    | none => (v, some .conversion)
    | some ls => xparse (validateScalar env) t v ls
  else xparse (validateScalar env) t v toks

/-- `notify` (detail/value_semantic.hpp:40-51); `any_cast<T>` yields null when the `any` is empty
or holds another type. -/
def notify (t : TypedValue) (v : Any) : List Event × Option Fail :=
  if t.storeTo.isNone && t.notifier.isNone then ([], none)
  else
    match v with
    | none => ([], some (.ub .nullNotify))
    | some a =>
      if a.type = t.type then
        ((t.storeTo.map (fun p => Event.assign p a)).toList ++
          (t.notifier.map (fun f => Event.callback f a)).toList, none)
      else ([], some (.ub .nullNotify))

/-- The `value_semantic` object. -/
def toSemantic (env : Env) (t : TypedValue) : ValueSemantic where
  name := t.name
  minTokens := t.minTokens
  maxTokens := t.maxTokens
  isComposing := t.composing
  isRequired := t.required
  parse := t.parse env
  applyDefault := t.dflt.map (fun d => some d.1)
  notify := t.notify

end TypedValue

/-- `bool_switch(v)` (src/value_semantic.cpp:126-140); the textual default of `false` is "0". -/
def boolSwitch (storeTo : Option Nat := none) : TypedValue :=
  { type := .scalar .bool, storeTo
    dflt := some (.scalar (.bool false), str% "0"), zeroTokens := true }

/-- `untyped_value` (value_semantic.hpp:124-157, src/value_semantic.cpp:87-124): parsed through
`value_semantic_codecvt_helper<char>::parse`; `notify` does nothing. -/
def untypedValue (env : Env) (zeroTokens : Bool) : ValueSemantic where
  name := str% "arg"
  minTokens := if zeroTokens then 0 else 1
  maxTokens := if zeroTokens then 0 else 1
  isComposing := false
  isRequired := false
  parse := fun v toks utf8 =>
    let go := fun (toks : List Str) =>
      match v with
      | some _ => (v, some errMultipleOccurrences)
      | none =>
        match toks with
        | [] => (some (.scalar (.str [])), none)
        | [x] => (some (.scalar (.str x)), none)
        | _ :: _ :: _ => (none, some errMultipleValues)
    if utf8 then
      match toks.mapM (fun s => (env.fromUtf8 s).bind env.toLocal) with
      | none => (v, some .conversion)
      | some ls => go ls
    else go toks
  applyDefault := none
  notify := fun _ => ([], none)

end PO
