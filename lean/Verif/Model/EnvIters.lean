import Verif.Model.Parsers
/-
Programs with several `environment_iterator` objects on one environment: the iterators are made, copied, assigned, advanced and compared.
-/
namespace PO.EnvIters

/-- `environment_iterator` (environment_iterator.hpp:15-50, eof_iterator.hpp:96-97). `pos`: where `m_environment` points to, counted from the
beginning of `environ`; `none` for an object made by the default constructor, which does not set it (environment_iterator.hpp:28-31). -/
structure Iter where
  pos : Option Nat := none
  atEof : Bool := false
  value : Str × Str := ([], [])
  deriving DecidableEq, Repr

/-- `environment_iterator::get` (environment_iterator.hpp:33-46), also `++i` (eof_iterator.hpp:78-81). `environ` lists the entries before the null
pointer. `none`: the pointer is not set, points behind the null pointer, or there is no `=` (an assertion). -/
def get (environ : List Str) (i : Iter) : Option Iter :=
  match i.pos with
  | none => none
  | some k =>
    match environ[k]? with
    | none => if k = environ.length then some { i with atEof := true } else none
    | some e =>
      match findChar e '=' with
      | none => none
      | some n => some { i with value := (e.take n, e.drop (n + 1)), pos := some (k + 1) }

/-- `environment_iterator(environ)` (environment_iterator.hpp:22-26). -/
def first (environ : List Str) : Option Iter := get environ { pos := some 0 }

/-- `environment_iterator()` (environment_iterator.hpp:28-31). -/
def past : Iter := { atEof := true }

/-- `i == j` (eof_iterator.hpp:83-89). -/
def equal (i j : Iter) : Bool := if i.atEof && j.atEof then true else false

/-- What a program does with iterators; they are numbered in the order in which they are made. -/
inductive Op
  | create
  | createPast
  | copy (i : Nat)
  | assign (i j : Nat)
  | advance (i : Nat)
  deriving DecidableEq, Repr

/-- One statement. `none`: it is about an iterator that does not exist, or its behaviour is undefined. -/
def step (environ : List Str) (s : List Iter) : Op → Option (List Iter)
  | .create => (first environ).map fun i => s ++ [i]
  | .createPast => some (s ++ [past])
  | .copy i => (s[i]?).map fun x => s ++ [x]
  | .assign i j =>
    match s[i]?, s[j]? with
    | some _, some y => some (s.set i y)
    | _, _ => none
  | .advance i => (s[i]?).bind fun x => (get environ x).map fun y => s.set i y

def run (environ : List Str) : List Iter → List Op → Option (List Iter)
  | s, [] => some s
  | s, op :: ops => (step environ s op).bind fun s => run environ s ops

end PO.EnvIters
