import Verif.Model.Exception
/-
One exception object asked by several threads: `what()` is const, but it writes the text of the object, `m_message`. The calls are cut
into the single reads and writes of `m_message`, which the threads do in any order. (In C++ such calls are a data race and the behaviour is
undefined; here each read and write is whole, which is the best a program may hope for.)
-/
namespace PO.Threads
open Exception

/-- The text that `substitute_placeholders` assigns to `m_message` first (src/value_semantic.cpp:328, 357-393). `none`: `back()` of an empty vector. -/
def assigned (o : Obj) : Option Str :=
  match o.alternatives with
  | none => some o.template
  | some alts =>
    if o.style = Style.allowDashForShort ∨ o.style = Style.allowSlashForShort then some o.template
    else ambiguousTemplate alts o.template

/-- What `substitute_placeholders` (src/value_semantic.cpp:326-354) does with `m_message`: the text it assigns first, and the arguments of its
calls of `replace_token`, each with its parameter. All of it comes from members that `what()` only reads. `none`: `std::logic_error` in a function
that must not throw, or `back()` of an empty vector. -/
def plan (o : Obj) : Option (Str × List (Str × Str × Str)) :=
  match assigned o, optionName o, optionPrefix o with
  | some t, some name, some pre =>
    let substitutions := SMap.set (SMap.set o.subst (str% "canonical_option") name) (str% "prefix") pre
    some (t, (o.defaults.filter fun d => (SMap.get? substitutions d.1).getD [] = []) ++
      substitutions.map fun p => (p.1, '%' :: p.1 ++ ['%'], p.2))
  | _, _, _ => none

/-- How far a thread is with its call of `what()`. -/
inductive Place
  /-- not in a call -/
  | idle
  /-- before `find` of `replace_token` (src/value_semantic.cpp:275) in the first of the calls that are left -/
  | search (calls : List (Str × Str × Str))
  /-- before `m_message.replace(pos, …)` (src/value_semantic.cpp:279) -/
  | put (pos : Nat) (k src dst : Str) (calls : List (Str × Str × Str))
  /-- the call has returned `m_message.c_str()` (src/value_semantic.cpp:268); the thread has not yet read the text -/
  | returned
  deriving DecidableEq, Repr

/-- The object's text, and for every thread its place and the texts it has read, the last one first. -/
structure State where
  message : Str
  place : Nat → Place
  read : Nat → List Str

/-- Thread `i` is at `p` now. -/
def State.goto (s : State) (i : Nat) (p : Place) : State := { s with place := fun j => if j = i then p else s.place j }

/-- The next thing thread `i` does. `none`: the program is ended, since `string::replace` throws `std::out_of_range` for a position behind the end, in
a function that must not throw. -/
def step (template : Str) (calls : List (Str × Str × Str)) (s : State) (i : Nat) : Option State :=
  match s.place i with
  | .idle => some ({ s with message := template }.goto i (.search calls))
  | .search [] => some (s.goto i .returned)
  | .search ((k, src, dst) :: cs) =>
    match findSub s.message src with
    | none => some (s.goto i (.search cs))
    | some pos => some (s.goto i (.put pos k src dst cs))
  | .put pos k src dst cs =>
    if pos ≤ s.message.length then
      some ({ s with message := s.message.take pos ++ dst ++ s.message.drop (pos + src.length) }.goto i (.search ((k, src, dst) :: cs)))
    else none
  | .returned => some ({ s with read := fun j => if j = i then s.message :: s.read j else s.read j }.goto i .idle)

/-- The threads take their steps in the order of the list. -/
def run (template : Str) (calls : List (Str × Str × Str)) : State → List Nat → Option State
  | s, [] => some s
  | s, i :: is => (step template calls s i).bind fun s => run template calls s is

/-- Nobody has asked yet. -/
def State.start (o : Obj) : State := { message := o.message, place := fun _ => .idle, read := fun _ => [] }

end PO.Threads
