import Verif.Model.Parsers
/-
src/variables_map.cpp
-/
namespace PO

/-- `variable_value` (variables_map.hpp:58-102). -/
structure VarValue where
  v : Any := none
  defaulted : Bool := false
  semantic : Option ValueSemantic := none

/-- `variable_value::as<T>` (variables_map.hpp:65-75); `any_cast` throws for another type and for the empty `any`. -/
def VarValue.as (v : VarValue) (t : VType) : Except Fail AVal :=
  match v.v with
  | some a => if a.type = t then .ok a else .error .badAnyCast
  | none => .error .badAnyCast

/-- `variable_value::empty` (variables_map.hpp:188-192). -/
def VarValue.empty (v : VarValue) : Bool := v.v.isNone

/-- `variables_map` (variables_map.hpp:146-181): the map, `m_final` and `m_required`. -/
structure VarMap where
  map : SMap VarValue := []
  final : SSet := []
  required : SMap Str := []

/-- One round of the first loop of `store` (src/variables_map.cpp:52-93) on the map and
`new_final`. An exception is returned with the state left behind. -/
def storeOne (desc : List OptionDesc) (pre : Nat) (utf8 : Bool) (final : SSet)
    (m : SMap VarValue) (newFinal : SSet) (o : Opt) : (SMap VarValue × SSet) × Option Fail :=
  let name := o.stringKey
  if name = [] then ((m, newFinal), none)
  else if o.unregistered then ((m, newFinal), none)
  else if final.has name then ((m, newFinal), none)
  else
    let tok := match o.originalTokens with | t :: _ => t | [] => []
    match findOrThrow desc name false false false with
    | .error f => ((m, newFinal), some (f.addContext name tok pre))
    | .ok d =>
      let v0 : VarValue := (m.get? name).getD {}
      let v : VarValue := if v0.defaulted then {} else v0
      match d.semantic.parse v.v o.value utf8 with
      | (a, some f) => ((m.set name { v with v := a }, newFinal), some (f.addContext name tok pre))
      | (a, none) =>
        ((m.set name { v with v := a, semantic := some d.semantic },
          if d.semantic.isComposing then newFinal else newFinal.insert name), none)

/-- The first loop of `store` (src/variables_map.cpp:52-93). -/
def storeLoop (desc : List OptionDesc) (pre : Nat) (utf8 : Bool) (final : SSet) :
    List Opt → SMap VarValue → SSet → (SMap VarValue × SSet) × Option Fail
  | [], m, nf => ((m, nf), none)
  | o :: os, m, nf =>
    match storeOne desc pre utf8 final m nf o with
    | (s, some f) => (s, some f)
    | ((m', nf'), none) => storeLoop desc pre utf8 final os m' nf'

/-- One round of the second loop of `store` (src/variables_map.cpp:109-142). -/
def applyOne (pre : Nat) (m : SMap VarValue) (req : SMap Str) (d : OptionDesc) :
    SMap VarValue × SMap Str :=
  let key := d.key []
  if key = [] then (m, req)
  else
    let m1 :=
      if m.has key then m
      else
        match d.semantic.applyDefault with
        | some a => m.set key { v := a, defaulted := true, semantic := some d.semantic }
        | none => m
    let req1 :=
      if d.semantic.isRequired then
        let name := d.canonicalDisplayName pre
        let old := (req.get? key).getD []
        if name.length > old.length then req.set key name else req.set key old
      else req
    (m1, req1)

def applyAll (pre : Nat) : List OptionDesc → SMap VarValue → SMap Str → SMap VarValue × SMap Str
  | [], m, req => (m, req)
  | d :: ds, m, req =>
    let (m', req') := applyOne pre m req d
    applyAll pre ds m' req'

/-- `store(options, xm, utf8)` (src/variables_map.cpp:23-143). -/
def store (p : Parsed) (xm : VarMap) (utf8 : Bool := false) : VarMap × Option Fail :=
  match storeLoop p.desc p.pre utf8 xm.final p.options xm.map [] with
  | ((m, _), some f) => ({ xm with map := m }, some f)
  | ((m, nf), none) =>
    let (m', req') := applyAll p.pre p.desc m xm.required
    ({ map := m', final := xm.final.insertAll nf, required := req' }, none)

/-- `store(const wparsed_options&, variables_map&)` (src/variables_map.cpp:146-149). -/
def wstore (p : WParsed) (xm : VarMap) : VarMap × Option Fail := store p.utf8 xm true

namespace VarMap

/-- `variables_map::get` (src/variables_map.cpp:202-211). -/
def get (m : VarMap) (name : Str) : VarValue := (m.map.get? name).getD {}

/-- `variables_map::clear` (src/variables_map.cpp:195-200). -/
def clear (_ : VarMap) : VarMap := {}

/-- `abstract_variables_map::operator[]` (src/variables_map.cpp:166-180) on a map and the chain of
maps behind it (`m_next`, `m_next->m_next`, ...). -/
def lookupChain (m : VarMap) : List VarMap → Str → VarValue
  | [], name => m.get name
  | n :: ns, name =>
    let v := m.get name
    if v.empty then lookupChain n ns name
    else if v.defaulted then
      let v2 := lookupChain n ns name
      if !v2.empty && !v2.defaulted then v2 else v
    else v

/-- First loop of `notify` (src/variables_map.cpp:216-229). -/
def missingRequired (m : SMap VarValue) : SMap Str → Option Str
  | [] => none
  | (opt, display) :: rest =>
    match m.get? opt with
    | none => some display
    | some v => if v.empty then some display else missingRequired m rest

/-- Second loop of `notify` (src/variables_map.cpp:231-246). -/
def notifyLoop : SMap VarValue → List Event × Option Fail
  | [] => ([], none)
  | (_, v) :: rest =>
    match v.semantic with
    | none => notifyLoop rest
    | some s =>
      match s.notify v.v with
      | (es, some f) => (es, some f)
      | (es, none) =>
        let (es', f) := notifyLoop rest
        (es ++ es', f)

/-- `variables_map::notify` (src/variables_map.cpp:213-247). -/
def notify (m : VarMap) : List Event × Option Fail :=
  match missingRequired m.map m.required with
  | some display => ([], some (errRequired display))
  | none => notifyLoop m.map

end VarMap
end PO
