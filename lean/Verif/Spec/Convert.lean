import Verif.Model.Value
import Mathlib.Data.List.Forall2
/-
What the value tokens of an option are converted to, and what is wrong with those that cannot be converted. Nothing here refers to the
code of the validators; the conversions of character sets and `lexical_cast` are those of the environment.
-/
namespace PO.Spec

/-- A value token as the option sees it: in the local character set, or wide. -/
inductive Word
  | narrow (s : Str)
  | wide (w : WStr)
  deriving DecidableEq

/-- The text that arrives at the option for a token, which comes in UTF-8 or in the local character set. -/
inductive Arrives (env : Env) : (wide utf8 : Bool) → Str → Word → Prop
  | same (tok : Str) : Arrives env false false tok (.narrow tok)
  | recoded (tok s : Str) (w : WStr) (h1 : env.fromUtf8 tok = some w) (h2 : env.toLocal w = some s) : Arrives env false true tok (.narrow s)
  | widened (tok : Str) (w : WStr) (h : env.fromLocal tok = some w) : Arrives env true false tok (.wide w)
  | decoded (tok : Str) (w : WStr) (h : env.fromUtf8 tok = some w) : Arrives env true true tok (.wide w)

def yesWords : List Str := [[], str% "on", str% "yes", str% "1", str% "true"]

def noWords : List Str := [str% "off", str% "no", str% "0", str% "false"]

/-- In lower case; of the wide characters, only the capital letters of ASCII change. -/
def lowered : Word → Word
  | .narrow s => .narrow (s.map Char.toLower)
  | .wide w => .wide (w.map fun n => if 65 ≤ n ∧ n ≤ 90 then n + 32 else n)

/-- A word as a text of either kind. -/
def isWord (word : Str) : Word → Prop
  | .narrow s => s = word
  | .wide w => w = word.map Char.toNat

/-- How a text is quoted in messages. -/
def quoted (env : Env) : Word → Str
  | .narrow s => s
  | .wide w => match env.toLocal w with
    | some s => s
    | none => str% "<unrepresentable unicode string>"

/-- The value of one text for an option of type `t`. A wide string option (`wvalue<std::string>`) makes a wide string of it. -/
inductive Converts (env : Env) : SType → Word → SVal → Prop
  | yes (x : Word) (word : Str) (h : word ∈ yesWords) (hx : isWord word (lowered x)) : Converts env .bool x (.bool true)
  | no (x : Word) (word : Str) (h : word ∈ noWords) (hx : isWord word (lowered x)) : Converts env .bool x (.bool false)
  | string (s : Str) : Converts env .str (.narrow s) (.str s)
  | widened (w : WStr) : Converts env .str (.wide w) (.wstr w)
  | wstring (w : WStr) : Converts env .wstr (.wide w) (.wstr w)
  | cast (ty : Nat) (s : Str) (v : Int) (h : env.lex ty s = some v) : Converts env (.lex ty) (.narrow s) (.lex ty v)
  | wcast (ty : Nat) (w : WStr) (v : Int) (h : env.wlex ty w = some v) : Converts env (.lex ty) (.wide w) (.lex ty v)

/-- A text that is no value of type `t`: the kind of the complaint, and the text it quotes. Note the lower case. -/
inductive Rejects (env : Env) : SType → Word → ValidKind → Str → Prop
  | bool (x : Word) (h : ∀ word ∈ yesWords ++ noWords, ¬ isWord word (lowered x)) : Rejects env .bool x .invalidBoolValue (quoted env (lowered x))
  | cast (ty : Nat) (s : Str) (h : env.lex ty s = none) : Rejects env (.lex ty) (.narrow s) .invalidOptionValue s
  | wcast (ty : Nat) (w : WStr) (h : env.wlex ty w = none) : Rejects env (.lex ty) (.wide w) .invalidOptionValue (quoted env (.wide w))
  | wstring (s : Str) : Rejects env .wstr (.narrow s) .invalidOptionValue s

/-- Options for one value, which may be given once. -/
inductive Single : VType → SType → Prop
  | scalar (t : SType) : Single (.scalar t) t
  | optional (t : SType) : Single (.optional t) t

/-- The elements an option for several values has already. -/
inductive Elements (t : SType) : Any → List SVal → Prop
  | none : Elements t none []
  | some (vs : List SVal) : Elements t (some (.vector t vs)) vs

/-- The option `t` that has the value `prev` already, given the texts `xs`, gets the value `a`. -/
inductive Takes (env : Env) (t : TypedValue) (prev : Any) : List Word → AVal → Prop
  /-- no value: the implicit one -/
  | implicit (iv : AVal) (s : Str) (h : t.implicit = some (iv, s)) : Takes env t prev [] iv
  | scalar (st : SType) (x : Word) (v : SVal) (h : t.type = .scalar st) (hp : prev = none) (hc : Converts env st x v) :
      Takes env t prev [x] (.scalar v)
  /-- no value, but boolean: true -/
  | present (h : t.type = .scalar .bool) (hp : prev = none) (hi : t.implicit = none) : Takes env t prev [] (.scalar (.bool true))
  | vector (st : SType) (xs : List Word) (vs ws : List SVal) (h : t.type = .vector st) (hp : Elements st prev vs)
      (hi : xs = [] → t.implicit = none) (hc : List.Forall₂ (fun x w => Converts env st x w ∧ w.type = st) xs ws) :
      Takes env t prev xs (.vector st (vs ++ ws))
  | optional (st : SType) (x : Word) (v : SVal) (h : t.type = .optional st) (hp : prev = none) (hc : Converts env st x v) (ht : v.type = st) :
      Takes env t prev [x] (.optional st (some v))

/-- An exception about an option, before its name and token are known; `value` is the text it quotes. -/
def objection (cls : ErrClass) (value : Option Str) : Fail :=
  .opt { cls, style := 0, subst := (str% "option", []) :: (str% "original_token", []) ::
    match value with
    | some v => [(str% "value", v)]
    | none => [] }

/-- The option `t` that has the value `prev` already refuses the texts `xs` with an exception, and is left with some value. -/
inductive Refuses (env : Env) (t : TypedValue) (prev : Any) : List Word → Any → Fail → Prop
  | again (st : SType) (xs : List Word) (a : AVal) (h : Single t.type st) (hp : prev = some a) (hi : xs = [] → t.implicit = none) :
      Refuses env t prev xs prev (objection .multipleOccurrences none)
  | several (st : SType) (x y : Word) (zs : List Word) (h : Single t.type st) (hp : prev = none) :
      Refuses env t prev (x :: y :: zs) none (objection (.validation .multipleValuesNotAllowed) none)
  | missing (st : SType) (h : Single t.type st) (hb : t.type ≠ .scalar .bool) (hp : prev = none) (hi : t.implicit = none) :
      Refuses env t prev [] none (objection (.validation .atLeastOneValueRequired) none)
  | wrong (st : SType) (x : Word) (k : ValidKind) (s : Str) (h : Single t.type st) (hp : prev = none) (hr : Rejects env st x k s) :
      Refuses env t prev [x] none (objection (.validation k) (some s))
  /-- the elements before the wrong one are kept -/
  | wrongElement (st : SType) (good : List Word) (x : Word) (rest : List Word) (vs ws : List SVal) (k : ValidKind) (s : Str)
      (h : t.type = .vector st) (hp : Elements st prev vs) (hc : List.Forall₂ (fun x w => Converts env st x w ∧ w.type = st) good ws)
      (hr : Rejects env st x k s) :
      Refuses env t prev (good ++ x :: rest) (some (.vector st (vs ++ ws))) (objection (.validation k) (some s))
  /-- a value of another type cannot be taken out of the `any` -/
  | otherType (st : SType) (x : Word) (v : SVal) (h : t.type = .optional st) (hp : prev = none) (hc : Converts env st x v) (ht : v.type ≠ st) :
      Refuses env t prev [x] none .badAnyCast
  | otherElement (st : SType) (good : List Word) (x : Word) (v : SVal) (rest : List Word) (vs ws : List SVal)
      (h : t.type = .vector st) (hp : Elements st prev vs) (hc : List.Forall₂ (fun x w => Converts env st x w ∧ w.type = st) good ws)
      (hx : Converts env st x v) (ht : v.type ≠ st) :
      Refuses env t prev (good ++ x :: rest) (some (.vector st (vs ++ ws))) .badAnyCast
  /-- undefined behaviour: the value it has is not a vector of these -/
  | notVector (st : SType) (xs : List Word) (a : AVal) (h : t.type = .vector st) (hp : prev = some a) (ha : a.type ≠ .vector st)
      (hi : xs = [] → t.implicit = none) : Refuses env t prev xs prev (.ub .wrongVectorType)

end PO.Spec
