import Verif.Model.VarMap
/-
Maps linked to each other: `abstract_variables_map` with its pointer `m_next` (include/boost/program_options/variables_map.hpp:106-139,
src/variables_map.cpp:157-193), and what a program can do with several `variables_map` objects.
-/
namespace PO.Links

/-- A `variables_map` object (variables_map.hpp:146-181): its contents (`std::map` base, `m_final`, `m_required`) and `m_next` (138), the address of
another object or null. -/
structure Obj where
  map : VarMap := {}
  next : Option Nat := none

/-- The objects of the program, in the order of their construction; `none` is one that has been destroyed. Addresses are places in this list, so the
memory of a destroyed object is never used for another one (simplification: a dangling pointer stays one). -/
abbrev Memory := List (Option Obj)

/-- The object at an address, if it is alive. -/
def at? (mem : Memory) (a : Nat) : Option Obj := (mem[a]?).join

/-- What `vm[name]` comes to: a value, or an access to an object that does not exist any more. -/
inductive Found
  | value (v : VarValue)
  | dangling

/-- `abstract_variables_map::operator[]` (src/variables_map.cpp:166-180), at most `fuel` nested calls; `none` if these are not enough. -/
def look : Nat → Memory → Nat → Str → Option Found
  | 0, _, _, _ => none
  | fuel + 1, mem, a, name =>
    match at? mem a with
    | none => some .dangling
    | some o =>
      let v := o.map.get name
      match o.next with
      | none => some (.value v)
      | some b =>
        if v.empty then look fuel mem b name
        else if v.defaulted then
          match look fuel mem b name with
          | some (.value v2) => some (.value (if !v2.empty && !v2.defaulted then v2 else v))
          | r => r
        else some (.value v)

/-- `vm[name]`. One call for each object and one more; that nothing returns that needs more is part of property C138. -/
def lookup (mem : Memory) (a : Nat) (name : Str) : Option Found := look (mem.length + 1) mem a name

/-- What a program does with its maps. -/
inductive Op
  /-- `variables_map vm;` or `variables_map vm(&other);` (src/variables_map.cpp:157-164, 188-193) -/
  | create (next : Option Nat)
  /-- `variables_map vm(other);`, the implicit copy constructor -/
  | copy (a : Nat)
  /-- `vm = other;`, the implicit copy assignment -/
  | assign (a b : Nat)
  /-- `vm.next(&other);` or `vm.next(0);` (src/variables_map.cpp:182-186) -/
  | link (a : Nat) (next : Option Nat)
  /-- `vm.clear();` (src/variables_map.cpp:195-200) -/
  | clear (a : Nat)
  /-- `store(options, vm)`, the exception being caught if there is one (src/variables_map.cpp:23-149) -/
  | store (a : Nat) (p : Parsed) (utf8 : Bool)
  /-- `vm` goes out of scope -/
  | destroy (a : Nat)

/-- Is this a pointer the program may pass on: null, or the address of an object? -/
def valid (mem : Memory) : Option Nat → Bool
  | none => true
  | some b => (at? mem b).isSome

/-- One statement of the program; `none` if it is applied to an object that is not alive. -/
def step (mem : Memory) : Op → Option Memory
  | .create next => if valid mem next then some (mem ++ [some { next := next }]) else none
  | .copy a => (at? mem a).map fun o => mem ++ [some o]
  | .assign a b =>
    match at? mem a, at? mem b with
    | some _, some o => some (mem.set a (some o))
    | _, _ => none
  | .link a next => if valid mem next then (at? mem a).map fun o => mem.set a (some { o with next }) else none
  | .clear a => (at? mem a).map fun o => mem.set a (some { o with map := o.map.clear })
  | .store a p utf8 => (at? mem a).map fun o => mem.set a (some { o with map := (PO.store p o.map utf8).1 })
  | .destroy a => (at? mem a).map fun _ => mem.set a none

/-- The statements of a program in order. -/
def exec : Memory → List Op → Option Memory
  | mem, [] => some mem
  | mem, op :: ops =>
    match step mem op with
    | none => none
    | some mem => exec mem ops

end PO.Links
