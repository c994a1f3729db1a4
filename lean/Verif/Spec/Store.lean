import Verif.Model.VarMap
import Verif.Spec.Errors
/-
Specification vocabulary for the variables map (C33-C44, C46, C58).
-/
namespace PO.Spec

/-- The option list gives `name` a value: some option, not flagged unregistered, has that key. -/
def Mentions (os : List Opt) (name : Str) : Prop :=
  ∃ o ∈ os, o.stringKey = name ∧ name ≠ [] ∧ o.unregistered = false

/-- The occurrences of `name` in an option list. -/
def occurrences (os : List Opt) (name : Str) : List Opt :=
  os.filter fun o => o.stringKey = name ∧ name ≠ [] ∧ o.unregistered = false

/-- Feeding the token lists to a value semantic one after the other. -/
def parseAll (s : ValueSemantic) (utf8 : Bool) : Any → List (List Str) → Except Fail Any
  | v, [] => .ok v
  | v, toks :: rest =>
    match s.parse v toks utf8 with
    | (_, some f) => .error f
    | (a, none) => parseAll s utf8 a rest

/-- The name of an option: its first long name, or its short name with the dash if it has no long one. A family has no name of its own. -/
def _root_.PO.OptionDesc.own (d : OptionDesc) : Str :=
  match d.longNames.head? with
  | some n => if '*' ∈ n then [] else n
  | none => d.shortName

/-- The first declared option with key `name` that has a default. -/
def firstDefault (desc : List OptionDesc) (name : Str) : Option (ValueSemantic × Any) :=
  desc.findSome? fun d => if d.own = name ∧ name ≠ [] then d.semantic.applyDefault.map fun a => (d.semantic, a) else none

/-- A sequence of `store` calls, each of which succeeds. -/
inductive Stores : VarMap → List (Parsed × Bool) → VarMap → Prop
  | nil (m) : Stores m [] m
  | cons {m m1 m2 p u rest} (h : store p m u = (m1, none)) (t : Stores m1 rest m2) : Stores m ((p, u) :: rest) m2

/-- A sequence of `store` calls, whatever their outcome (the exceptions are caught). -/
def storesAny : VarMap → List (Parsed × Bool) → VarMap
  | m, [] => m
  | m, (p, u) :: rest => storesAny (store p m u).1 rest

/-- How an option is displayed for a source in the given style: its first long name with the dashes of long names, if it has a long name and the
style is one of these; its letter with the dash or slash of short names, if it has one and the style is one of these; otherwise its first long
name, or its short name with the dash it was declared with, if it has no long one. -/
inductive Shows (d : OptionDesc) (pre : Nat) : Str → Prop
  | long (n : Str) (h : d.longNames.head? = some n) (hp : pre = Style.allowLong) : Shows d pre ('-' :: '-' :: n)
  | disguised (n : Str) (h : d.longNames.head? = some n) (hp : pre = Style.allowLongDisguise) : Shows d pre ('-' :: n)
  | slash (a c : Char) (h : d.shortName = [a, c]) (hp : pre = Style.allowSlashForShort) : Shows d pre ['/', c]
  | dash (a c : Char) (h : d.shortName = [a, c]) (hp : pre = Style.allowDashForShort) : Shows d pre ['-', c]
  | name (n : Str) (h : d.longNames.head? = some n) (hl : pre ≠ Style.allowLong) (hd : pre ≠ Style.allowLongDisguise)
      (hs : d.shortName.length = 2 → pre ≠ Style.allowSlashForShort ∧ pre ≠ Style.allowDashForShort) : Shows d pre n
  | short (h : d.longNames = []) (hs : d.shortName.length = 2 → pre ≠ Style.allowSlashForShort ∧ pre ≠ Style.allowDashForShort) :
      Shows d pre d.shortName

/-- A stored description declares the option `key` as required, and it is displayed as `n` for that source. -/
def RequiredAs (srcs : List (Parsed × Bool)) (key n : Str) : Prop :=
  ∃ q ∈ srcs, ∃ d ∈ q.1.desc, key ≠ [] ∧ d.own = key ∧ d.semantic.isRequired = true ∧ Shows d q.1.pre n

/-- The exception about a missing required option, which is displayed as `display`. -/
def missingRequired (display : Str) : Fail :=
  about .requiredOption [] display 0

end PO.Spec
