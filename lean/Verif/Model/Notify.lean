import Verif.Model.VarMap
/-
`notify` in a program: variables are assigned in its state, and notifiers are called, which may throw.
-/
namespace PO

/-- The program that uses the library: what an assignment to the variable with an address does to its state, and what a notifier does, which
may end with an exception. -/
structure Host (σ : Type) where
  assign : Nat → AVal → σ → σ
  call : Nat → AVal → σ → σ × Option Fail

namespace Host
variable {σ : Type}

/-- The statements of `value_semantic::notify`, one after the other (for `typed_value`: detail/value_semantic.hpp:44-50). -/
def perform (h : Host σ) : List Event → σ → σ × Option Fail
  | [], s => (s, none)
  | .assign p a :: es, s => perform h es (h.assign p a s)
  | .callback f a :: es, s =>
    match h.call f a s with
    | (s', some e) => (s', some e)
    | (s', none) => perform h es s'

/-- The second loop of `notify` (src/variables_map.cpp:231-246). An exception leaves it. -/
def notifyLoop (h : Host σ) : SMap VarValue → σ → σ × Option Fail
  | [], s => (s, none)
  | (_, v) :: rest, s =>
    match v.semantic with
    | none => notifyLoop h rest s
    | some sem =>
      match h.perform (sem.notify v.v).1 s with
      | (s', some e) => (s', some e)
      | (s', none) =>
        match (sem.notify v.v).2 with
        | some f => (s', some f)
        | none => notifyLoop h rest s'

/-- `variables_map::notify` (src/variables_map.cpp:213-247) in a program. -/
def notify (h : Host σ) (m : VarMap) (s : σ) : σ × Option Fail :=
  match VarMap.missingRequired m.map m.required with
  | some display => (s, some (errRequired display))
  | none => h.notifyLoop m.map s

end Host
end PO
