import Verif.Model.Links
/-
Specification vocabulary for linked maps (C138). Nothing here looks anything up.
-/
namespace PO.Spec
open Links

/-- Starting at a pointer and following `m_next` one comes through living objects with these contents, in this order, and then to this pointer. -/
inductive Leads (mem : Memory) : Option Nat → List VarMap → Option Nat → Prop
  | stay (p : Option Nat) : Leads mem p [] p
  | pass {a : Nat} {o : Obj} {ms : List VarMap} {p : Option Nat} (h : at? mem a = some o) (t : Leads mem o.next ms p) :
      Leads mem (some a) (o.map :: ms) p

/-- The map has an explicit value for the name. -/
def Sets (m : VarMap) (name : Str) : Prop := ∃ r, m.map.get? name = some r ∧ r.v ≠ none ∧ r.defaulted = false

/-- The map has a value for the name, explicit or default. -/
def Has (m : VarMap) (name : Str) : Prop := ∃ r, m.map.get? name = some r ∧ r.v ≠ none

/-- The documented answer of maps one behind the other: the first explicit value; if there is none, the first value; if there is none, an empty
one. -/
inductive Answer (name : Str) : List VarMap → VarValue → Prop
  | explicit {before m after r} (h : ∀ b ∈ before, ¬ Sets b name) (hs : Sets m name) (hr : m.map.get? name = some r) :
      Answer name (before ++ m :: after) r
  | default {before m after r} (h : ∀ b ∈ before ++ m :: after, ¬ Sets b name) (hb : ∀ b ∈ before, ¬ Has b name) (hs : Has m name)
      (hr : m.map.get? name = some r) : Answer name (before ++ m :: after) r
  | nothing {ms r} (h : ∀ b ∈ ms, ¬ Has b name) (hr : r.v = none) : Answer name ms r

/-- From `a` one comes to the pointer `p` through maps none of which has an explicit value for the name. -/
def Reaches (mem : Memory) (name : Str) (a : Nat) (p : Option Nat) : Prop :=
  ∃ ms, Leads mem (some a) ms p ∧ ∀ m ∈ ms, ¬ Sets m name

/-- From `a` one comes to a circle of maps, none of them, nor any before it, with an explicit value for the name. -/
def Circles (mem : Memory) (name : Str) (a : Nat) : Prop :=
  ∃ b ms, Reaches mem name a (some b) ∧ ms ≠ [] ∧ Leads mem (some b) ms (some b) ∧ ∀ m ∈ ms, ¬ Sets m name

/-- Every pointer to an object goes to one that was created, though it may be gone. -/
def Sane (mem : Memory) : Prop := ∀ a o b, at? mem a = some o → o.next = some b → b < mem.length

/-- Links go from newer objects to older ones that are alive. -/
def Backwards (mem : Memory) : Prop := ∀ a o b, at? mem a = some o → o.next = some b → b < a ∧ (at? mem b).isSome

/-- A statement that destroys nothing, links to older objects only and assigns from older objects only. -/
def Careful : Op → Prop
  | .link a (some b) => b < a
  | .assign a b => b ≤ a
  | .destroy _ => False
  | _ => True

end PO.Spec
