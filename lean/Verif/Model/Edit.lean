import Verif.Model.VarMap
/-
A `variables_map` is a `std::map<std::string, variable_value>` (include/boost/program_options/variables_map.hpp:146-147, public base): programs insert
values of their own, erase names, and change values, between stores (the comment at src/variables_map.cpp:235-243 speaks of such programs).
-/
namespace PO

/-- `std::map::erase(name)`. -/
def SMap.erase {α : Type} (m : SMap α) (s : Str) : SMap α := m.filter fun e => e.1 ≠ s

namespace Edit

/-- What a program does with a map. -/
inductive Act
  /-- `store(options, vm)`, or with a wide source (`utf8`) -/
  | store (p : Parsed) (utf8 : Bool)
  /-- `vm.insert(std::make_pair(name, variable_value(v, defaulted)))` -/
  | insert (name : Str) (v : Any) (defaulted : Bool)
  /-- `vm.erase(name)` -/
  | erase (name : Str)
  /-- `vm.at(name).value() = v` (variables_map.hpp:86, 207-212) -/
  | change (name : Str) (v : Any)
  /-- `vm.clear()` -/
  | clear

/-- `std::map::insert` does nothing if there is such a name; the constructor of `variable_value` (variables_map.hpp:58-60) leaves the value semantic null.
`erase` and `insert` are those of `std::map`: `m_final` and `m_required` stay as they are. `at` throws if there is no such name;
the exception is taken as caught. -/
def perform (m : VarMap) : Act → VarMap × Option Fail
  | .store p utf8 => PO.store p m utf8
  | .insert name v defaulted =>
    (match m.map.get? name with
      | some _ => m
      | none => { m with map := m.map.set name { v, defaulted } }, none)
  | .erase name => ({ m with map := m.map.erase name }, none)
  | .change name v =>
    match m.map.get? name with
    | some r => ({ m with map := m.map.set name { r with v } }, none)
    | none => (m, none)
  | .clear => (m.clear, none)

/-- `a.swap(b)`: the function of `std::map`, which exchanges the contents of the two maps but none of the members of `variables_map`. -/
def swap (a b : VarMap) : VarMap × VarMap := ({ a with map := b.map }, { b with map := a.map })

end Edit
end PO
