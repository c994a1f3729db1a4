import Verif.Model.Lifetime
/-
Which objects are owned, and which plain pointers lead nowhere (C125).
-/
namespace PO.Spec
open Lifetime

/-- The shared pointers that the objects of the program hold, and those held by objects on the heap that have not been destroyed, to `x`. -/
def pointersTo (s : State) (x : Nat) : Nat :=
  (s.descs.map fun d => (d.map fun (o : Desc) => o.options.count x + o.groups.count x).getD 0).sum +
  (s.maps.map fun m => (m.map fun (v : VMap) => v.entries.countP fun (e : Entry) => e.sem == some x).getD 0).sum +
  (s.heap.map fun c => if c.count = 0 then 0 else c.kids.count x).sum

/-- `x` is owned, directly or through other objects, by a description or a map that the program has not destroyed. -/
inductive Owned (s : State) : Nat → Prop
  | option {d : Nat} {o : Desc} {x : Nat} (h : s.descs[d]? = some (some o)) (hx : x ∈ o.options) : Owned s x
  | group {d : Nat} {o : Desc} {x : Nat} (h : s.descs[d]? = some (some o)) (hx : x ∈ o.groups) : Owned s x
  | value {m : Nat} {v : VMap} {e : Entry} {x : Nat} (h : s.maps[m]? = some (some v)) (he : e ∈ v.entries) (hx : e.sem = some x) : Owned s x
  | inside {y : Nat} {c : Cell} {x : Nat} (h : Owned s y) (hc : s.heap[y]? = some c) (hx : x ∈ c.kids) : Owned s x

/-- From map `v` the chain of maps without a given value of that name leads to a map that has been destroyed. -/
inductive LeadsNowhere (s : State) (name : Nat) : VMap → Prop
  | here {v : VMap} {n : Nat} (hg : ∀ e ∈ v.entries, e.name = name → e.given = false) (hn : v.next = some n) (hd : s.maps[n]? = some none) :
      LeadsNowhere s name v
  | later {v : VMap} {n : Nat} {w : VMap} (hg : ∀ e ∈ v.entries, e.name = name → e.given = false) (hn : v.next = some n) (hw : s.maps[n]? = some (some w))
      (h : LeadsNowhere s name w) : LeadsNowhere s name v

/-- The operations that follow a plain pointer to an object the program has destroyed. -/
inductive Outlived (s : State) : Op → Prop
  | runDesc {r : Nat} {p : Parser} (hr : s.parsers[r]? = some (some p)) (hd : s.descs[p.desc]? = some none) : Outlived s (.run r)
  | runPositional {r : Nat} {p : Parser} {n : Nat} (hr : s.parsers[r]? = some (some p)) (hn : p.positional = some n) (hp : s.positionals[n]? = some false) :
      Outlived s (.run r)
  | store {q m : Nat} {as : List Assign} {d : Nat} {v : VMap} (hq : s.parsed[q]? = some (some d)) (hm : s.maps[m]? = some (some v)) (hd : s.descs[d]? = some none) :
      Outlived s (.store q m as)
  | lookup {m name : Nat} {v : VMap} (hm : s.maps[m]? = some (some v)) (hl : LeadsNowhere s name v) : Outlived s (.lookup m name)

/-- The operations that never end: a description with options is added to itself, or a name is looked up in a circle of maps none of which has a
given value of that name. -/
inductive Endless (s : State) : Op → Prop
  | addGroup {d : Nat} {o : Desc} (hd : s.descs[d]? = some (some o)) (ho : o.options ≠ []) : Endless s (.addGroup d d)
  | lookup {m name : Nat} (f : Nat → VMap) (hm : s.maps[m]? = some (some (f 0)))
      (hg : ∀ i, ∀ e ∈ (f i).entries, e.name = name → e.given = false)
      (hn : ∀ i, ∃ n, (f i).next = some n ∧ s.maps[n]? = some (some (f (i + 1)))) : Endless s (.lookup m name)

/-- A state that some program gets to, from nothing. -/
def Reachable (s : State) : Prop := ∃ ops, exec {} ops = .ok s

end PO.Spec
