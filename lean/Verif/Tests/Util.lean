import Verif.Model.VarMap
/-
Helpers for transcribing the project's own tests (/repo/test) as `#guard`s. These are tests of the
model's fidelity, not proofs.
-/
namespace PO.Test
open PO

def parseInt (s : Str) : Option Int := (String.ofList s).toInt?

/-- An environment for tests: plain ASCII conversions, `lexical_cast<int>` for every type number. -/
def env : Env where
  fromUtf8 s := some (widen s)
  toUtf8 w := some (w.map Char.ofNat)
  fromLocal s := some (widen s)
  toLocal w := some (w.map Char.ofNat)
  lex _ s := parseInt s
  wlex _ w := parseInt (w.map Char.ofNat)

def L (s : String) : Str := s.toList

def vstr : TypedValue := { type := .scalar .str }
def vint : TypedValue := { type := .scalar (.lex 0) }
def vvec : TypedValue := { type := .vector .str }

def sem (t : TypedValue) : ValueSemantic := t.toSemantic env
def unt : ValueSemantic := untypedValue env true

def od (names : String) (s : ValueSemantic) (descr : String := "") : OptionDesc :=
  match OptionDesc.make (L names) s (L descr) with
  | .ok d => d
  | .error _ => { shortName := [], longNames := [], description := [], semantic := s }

def words (s : String) : List Str := ((s.splitOn " ").filter (· ≠ "")).map (·.toList)

/-- `apply_syntax` of test/cmdline_test.cpp:66-95. -/
def syntaxOf (s : String) : List OptionDesc :=
  (words s).map fun w =>
    let n := String.ofList w.dropLast
    match w.getLast? with
    | some '=' => od n (sem vstr)
    | some '?' => od n (sem { vstr with implicit := some (.scalar (.str (L "default")), L "default") })
    | some '*' => od n (sem { vvec with multitoken := true })
    | some '+' => od n (sem { vvec with multitoken := true })
    | _ => od (String.ofList w) unt

inductive Status
  | success | unknown | ambiguous | stx (k : SyntaxKind) | other (f : Fail)
  deriving DecidableEq

def statusOf : Fail → Status
  | .opt { cls := .unknownOption, .. } => .unknown
  | .opt { cls := .ambiguousOption _, .. } => .ambiguous
  | .opt { cls := .cmdlineSyntax k, .. } => .stx k
  | f => .other f

def showOpt (o : Opt) : String :=
  if o.positionKey ≠ -1 then String.ofList (o.value.headD [])
  else String.ofList o.stringKey ++ ":" ++ "-".intercalate (o.value.map String.ofList)

/-- `test_cmdline` of test/cmdline_test.cpp:97-158, for one case. -/
def runCase (syn : String) (style : Nat) (input : String) : Status × String :=
  match ({ desc := syntaxOf syn } : Cmdline).setStyle style with
  | .error f => (.other f, "")
  | .ok c =>
    match c.run (words input) with
    | .error f => (statusOf f, "")
    | .ok os => (.success, " ".intercalate (os.map showOpt))

def okEq (r : Status × String) (s : String) : Bool := r.1 = .success && r.2 == s
def failEq (r : Status × String) (s : Status) : Bool := decide (r.1 = s)

end PO.Test
