import Verif.Model.Exception
/-
The pointers that `what()` of an exception returns. `what` (src/value_semantic.cpp:263-269) is a const member function that fills the mutable member
`m_message` (errors.hpp:190) anew each time, and returns a pointer into it. Assigning to a string invalidates the pointers into it ([string.require]).
-/
namespace PO.Pointer
open Exception

/-- The exception objects in the order in which they were created, each with the number of the buffer that its `m_message` has (`none`: destroyed); the pointers
that were returned, each with its object and the buffer it points into; the number of the next buffer. -/
structure Mem where
  objs : List (Option (Obj × Nat)) := []
  ptrs : List (Nat × Nat) := []
  fresh : Nat := 0
  deriving Repr

inductive Act
  /-- a new exception -/
  | create (alternatives : Option (List Str)) (named : Bool) (template option token : Str) (style : Nat)
  /-- one of the member functions that are not const -/
  | tell (i : Nat) (c : Call)
  | what (i : Nat)
  /-- a copy, as made by `throw`, by catching by value and by `std::make_exception_ptr`; there are no moves, as the destructor is declared (errors.hpp:124) -/
  | copy (i : Nat)
  /-- `i = j` -/
  | assign (i j : Nat)
  | destroy (i : Nat)
  deriving DecidableEq, Repr

/-- The member functions that are not const (errors.hpp:147-181), and assigning to `m_error_template`. -/
def told (o : Obj) : Call → Option Obj
  | .setSubstitute k v => some (setSubstitute o k v)
  | .setDefault k src dst => some (setDefault o k src dst)
  | .setPrefix s => some (setPrefix o s)
  | .setOptionName n => some (setOptionName o n)
  | .setOriginalToken t => some (setOriginalToken o t)
  | .addContext n t s => some (addContext o n t s)
  | .setTemplate t => some { o with template := t }
  | .what => none

/-- The living object `i`. -/
def Mem.at? (m : Mem) (i : Nat) : Option (Obj × Nat) := (m.objs[i]?).join

/-- One statement. `what()` returns after some number of rounds, and gives `m_message` a new buffer; so does assignment of another object. -/
inductive Step : Mem → Act → Mem → Prop
  | create (m : Mem) (alts named template option token style) :
      Step m (.create alts named template option token style)
        { m with objs := m.objs ++ [some (construct alts named template option token style, m.fresh)], fresh := m.fresh + 1 }
  | tell {m : Mem} {i o b c o'} (h : m.at? i = some (o, b)) (hc : told o c = some o') :
      Step m (.tell i c) { m with objs := m.objs.set i (some (o', b)) }
  | what {m : Mem} {i o b fuel o'} (h : m.at? i = some (o, b)) (hw : Exception.what fuel o = some o') :
      Step m (.what i) { objs := m.objs.set i (some (o', m.fresh)), ptrs := m.ptrs ++ [(i, m.fresh)], fresh := m.fresh + 1 }
  | copy {m : Mem} {i o b} (h : m.at? i = some (o, b)) :
      Step m (.copy i) { m with objs := m.objs ++ [some (o, m.fresh)], fresh := m.fresh + 1 }
  | assign {m : Mem} {i j x o b} (hi : m.at? i = some x) (hj : m.at? j = some (o, b)) (hn : i ≠ j) :
      Step m (.assign i j) { m with objs := m.objs.set i (some (o, m.fresh)), fresh := m.fresh + 1 }
  | self {m : Mem} {i x} (hi : m.at? i = some x) : Step m (.assign i i) m
  | destroy {m : Mem} {i x} (hi : m.at? i = some x) : Step m (.destroy i) { m with objs := m.objs.set i none }

/-- The statements in order. -/
inductive Does : Mem → List Act → Mem → Prop
  | done (m) : Does m [] m
  | next {m m1 m2 act rest} (h : Step m act m1) (t : Does m1 rest m2) : Does m (act :: rest) m2

/-- The text the `k`th returned pointer points to; `none`: there is no such text any more. -/
def shows (m : Mem) (k : Nat) : Option Str :=
  match m.ptrs[k]? with
  | none => none
  | some (i, b) =>
    match m.at? i with
    | none => none
    | some (o, b') => if b = b' then some o.message else none

end PO.Pointer
