/-
Who owns what, and for how long: the objects of a program that uses the library, the shared pointers with their use counts,
and the plain pointers. Names of options are numbers here, and what is parsed does not matter.
-/
namespace PO.Lifetime

/-- An object on the heap: how many shared pointers to it there are, and the shared pointers it holds itself. It is destroyed
when the count gets to 0. A `value_semantic` holds none, an `option_description` that to its semantic
(options_description.hpp:155), an `options_description` made by `add` those to its options and its groups (275, 286). -/
structure Cell where
  count : Nat
  kids : List Nat
  deriving DecidableEq, Repr

abbrev Heap := List Cell

/-- Copying a shared pointer; `none` if the object has been destroyed. -/
def copyPtr (h : Heap) (x : Nat) : Option Heap :=
  match h[x]? with
  | none => none
  | some c => if c.count = 0 then none else some (h.set x { c with count := c.count + 1 })

/-- Copying a vector of shared pointers. -/
def copyPtrs : Heap → List Nat → Option Heap
  | h, [] => some h
  | h, x :: xs =>
    match copyPtr h x with
    | none => none
    | some h => copyPtrs h xs

/-- The sum of all use counts. -/
def total (h : Heap) : Nat := (h.map Cell.count).sum

/-- Destroying shared pointers, at most `fuel` of them: the count is decremented, and at 0 the object and the shared pointers it
holds are destroyed. `none` if an object is destroyed a second time. -/
def releaseUpTo : Nat → Heap → List Nat → Option Heap
  | _, h, [] => some h
  | 0, _, _ :: _ => none
  | fuel + 1, h, x :: xs =>
    match h[x]? with
    | none => none
    | some c =>
      match c.count with
      | 0 => none
      | 1 => releaseUpTo fuel (h.set x { c with count := 0 }) (c.kids ++ xs)
      | n + 2 => releaseUpTo fuel (h.set x { c with count := n + 1 }) xs

/-- Destroying shared pointers. Every step decrements one of the counts, so no more steps than this are possible. -/
def release (h : Heap) (xs : List Nat) : Option Heap := releaseUpTo (total h) h xs

/-- Using an object and all that it points to; false if it has been destroyed. An object only points to older ones. -/
def usable (h : Heap) : Nat → Nat → Bool
  | 0, _ => false
  | fuel + 1, x =>
    match h[x]? with
    | none => false
    | some c => c.count != 0 && c.kids.all (usable h fuel)

def use (h : Heap) (xs : List Nat) : Bool := xs.all (usable h h.length)

/-- `options_description`, an object of the program: `m_options` and `groups`. -/
structure Desc where
  options : List Nat := []
  groups : List Nat := []
  deriving DecidableEq, Repr

/-- `basic_command_line_parser`: plain pointers to the description and the positional options (detail/cmdline.hpp:143-144). -/
structure Parser where
  desc : Nat
  positional : Option Nat
  deriving DecidableEq, Repr

/-- An element of a `variables_map`: the shared pointer `m_value_semantic` (variables_map.hpp:95), which may be null, and whether there is a
value that is no default. -/
structure Entry where
  name : Nat
  sem : Option Nat
  given : Bool
  deriving DecidableEq, Repr

/-- `variables_map` with the plain pointer `m_next` (variables_map.hpp:138). -/
structure VMap where
  entries : List Entry := []
  next : Option Nat := none
  deriving DecidableEq, Repr

/-- The objects of the program by the order of their construction; `none` and `false` when they have been destroyed. `parsed_options` has a
plain pointer to the description (parsers.hpp:48). -/
structure State where
  heap : Heap := []
  descs : List (Option Desc) := []
  positionals : List Bool := []
  parsers : List (Option Parser) := []
  parsed : List (Option Nat) := []
  maps : List (Option VMap) := []
  deriving DecidableEq, Repr

inductive Result
  | ok (s : State)
  /-- the program uses an object that it has destroyed itself, or that it never had -/
  | misuse
  /-- the library follows a pointer to something that has been destroyed, or destroys something twice -/
  | dangling
  /-- the call does not return -/
  | loops
  deriving DecidableEq, Repr

/-- One assignment made by `store`: the element of that name gets the semantic of the option with index `option`, or none (an element that was
made, or reset, for an option whose value is then refused: src/variables_map.cpp:76-84). -/
structure Assign where
  name : Nat
  option : Option Nat
  given : Bool
  deriving DecidableEq, Repr

inductive Op
  | newDesc
  | declare (d : Nat)
  | addShared (d e i : Nat)
  | addGroup (d e : Nat)
  | copyDesc (d : Nat)
  | destroyDesc (d : Nat)
  | newPositional
  | destroyPositional (p : Nat)
  | newParser (d : Nat) (p : Option Nat)
  | run (r : Nat)
  | destroyParser (r : Nat)
  | parseSource (d : Nat)
  | destroyParsed (q : Nat)
  | newMap (next : Option Nat)
  | setNext (m : Nat) (next : Option Nat)
  | store (q m : Nat) (as : List Assign)
  | put (m name : Nat)
  | copyMap (m : Nat)
  | clear (m : Nat)
  | destroyMap (m : Nat)
  | notify (m : Nat)
  | lookup (m name : Nat)
  | print (d : Nat)
  deriving DecidableEq, Repr

/-- `m[name]` with a new semantic: the elements, and the shared pointer that is replaced. -/
def putEntry (name : Nat) (sem : Option Nat) (given : Bool) : List Entry → List Entry × Option Nat
  | [] => ([{ name, sem, given }], none)
  | e :: es =>
    if e.name = name then ({ e with sem, given } :: es, e.sem)
    else
      let r := putEntry name sem given es
      (e :: r.1, r.2)

/-- The shared pointers in the elements of a map. -/
def semantics (es : List Entry) : List Nat := es.filterMap Entry.sem

/-- `v.m_value_semantic = d.semantic();` (src/variables_map.cpp:84, 127) or `v = variable_value();` (79). -/
def assign (o : Desc) (h : Heap) (es : List Entry) (a : Assign) : Option (Heap × List Entry) :=
  match a.option with
  | none =>
    let r := putEntry a.name none a.given es
    (release h r.2.toList).map (·, r.1)
  | some i =>
    match o.options[i]? with
    | none => some (h, es)
    | some x =>
      match h[x]?.map Cell.kids with
      | some [s] =>
        let r := putEntry a.name (some s) a.given es
        match copyPtr h s with
        | none => none
        | some h => (release h r.2.toList).map (·, r.1)
      | _ => none

def assignAll (o : Desc) : Heap → List Entry → List Assign → Option (Heap × List Entry)
  | h, es, [] => some (h, es)
  | h, es, a :: as =>
    match assign o h es a with
    | none => none
    | some (h, es) => assignAll o h es as

/-- Is there a value in the map that is no default? -/
def isGiven (es : List Entry) (name : Nat) : Bool := es.any (fun e => e.name == name && e.given)

/-- `abstract_variables_map::operator[]` (src/variables_map.cpp:166-180): the chain is followed unless the map has a value that is no default;
at most `fuel` maps. -/
def lookup (maps : List (Option VMap)) (name : Nat) : Nat → VMap → Option Bool
  | fuel, v =>
    if isGiven v.entries name then some true
    else
      match v.next with
      | none => some true
      | some n =>
        match fuel, maps[n]?.join with
        | _, none => some false
        | 0, some _ => none
        | fuel + 1, some v => lookup maps name fuel v

/-- An object that is there, or nothing. -/
def State.desc? (s : State) (d : Nat) : Option Desc := s.descs[d]?.join
def State.parser? (s : State) (r : Nat) : Option Parser := s.parsers[r]?.join
def State.parsed? (s : State) (q : Nat) : Option Nat := s.parsed[q]?.join
def State.map? (s : State) (m : Nat) : Option VMap := s.maps[m]?.join
def State.positional? (s : State) (p : Nat) : Bool := s.positionals[p]? == some true

def orDangling (o : Option Heap) (f : Heap → State) : Result :=
  match o with
  | none => .dangling
  | some h => .ok (f h)

/-- One step of a program. -/
def step (s : State) : Op → Result
  | .newDesc => .ok { s with descs := s.descs ++ [some {}] }
  -- `operator()` of `options_description_easy_init` (src/options_description.cpp:260-296): a new semantic, a new option; `add` (320-325)
  | .declare d =>
    match s.desc? d with
    | none => .misuse
    | some o =>
      .ok { s with heap := s.heap ++ [⟨1, []⟩, ⟨1, [s.heap.length]⟩]
                   descs := s.descs.set d (some { o with options := o.options ++ [s.heap.length + 1] }) }
  -- `d.add(e.options()[i])` (src/options_description.cpp:320-325)
  | .addShared d e i =>
    match s.desc? d, s.desc? e with
    | some o, some p =>
      match p.options[i]? with
      | none => .misuse
      | some x =>
        orDangling (copyPtr s.heap x) fun h =>
          { s with heap := h, descs := s.descs.set d (some { o with options := o.options ++ [x] }) }
    | _, _ => .misuse
  -- `d.add(e)` (src/options_description.cpp:327-339): a copy of `e` on the heap, then its options one by one
  | .addGroup d e =>
    match s.desc? d, s.desc? e with
    | some o, some p =>
      if d = e ∧ p.options ≠ [] then .loops
      else
        match copyPtrs s.heap (p.options ++ p.groups) with
        | none => .dangling
        | some h =>
          orDangling (copyPtrs (h ++ [⟨1, p.options ++ p.groups⟩]) p.options) fun h' =>
            { s with heap := h'
                     descs := s.descs.set d (some { options := o.options ++ p.options, groups := o.groups ++ [h.length] }) }
    | _, _ => .misuse
  | .copyDesc d =>
    match s.desc? d with
    | none => .misuse
    | some o => orDangling (copyPtrs s.heap (o.options ++ o.groups)) fun h => { s with heap := h, descs := s.descs ++ [some o] }
  | .destroyDesc d =>
    match s.desc? d with
    | none => .misuse
    | some o => orDangling (release s.heap (o.groups ++ o.options)) fun h => { s with heap := h, descs := s.descs.set d none }
  | .newPositional => .ok { s with positionals := s.positionals ++ [true] }
  | .destroyPositional p => if s.positional? p then .ok { s with positionals := s.positionals.set p false } else .misuse
  -- `command_line_parser(…).options(desc).positional(p)`: the addresses are kept (detail/parsers.hpp:31-48, src/cmdline.cpp:177-189)
  | .newParser d p =>
    if (s.desc? d).isSome && p.all s.positional? then .ok { s with parsers := s.parsers ++ [some { desc := d, positional := p }] }
    else .misuse
  -- `run` (src/cmdline.cpp:207-398, detail/parsers.hpp:84-98): all options are looked at, and the positional options
  | .run r =>
    match s.parser? r with
    | none => .misuse
    | some p =>
      match s.desc? p.desc with
      | none => .dangling
      | some o =>
        if p.positional.all s.positional? && use s.heap o.options then .ok { s with parsed := s.parsed ++ [some p.desc] } else .dangling
  | .destroyParser r =>
    match s.parser? r with
    | none => .misuse
    | some _ => .ok { s with parsers := s.parsers.set r none }
  -- `parse_config_file` (src/parsers.cpp:102-130) and `parse_environment` (src/parsers.cpp:200-218)
  | .parseSource d =>
    match s.desc? d with
    | none => .misuse
    | some o => if use s.heap o.options then .ok { s with parsed := s.parsed ++ [some d] } else .dangling
  | .destroyParsed q =>
    match s.parsed? q with
    | none => .misuse
    | some _ => .ok { s with parsed := s.parsed.set q none }
  | .newMap next =>
    if next.all (fun n => (s.map? n).isSome) then .ok { s with maps := s.maps ++ [some { next }] } else .misuse
  -- `next` (src/variables_map.cpp:182-186)
  | .setNext m next =>
    match s.map? m with
    | none => .misuse
    | some v =>
      if next.all (fun n => (s.map? n).isSome) then .ok { s with maps := s.maps.set m (some { v with next }) } else .misuse
  -- `store` (src/variables_map.cpp:23-138)
  | .store q m as =>
    match s.parsed? q, s.map? m with
    | some d, some v =>
      match s.desc? d with
      | none => .dangling
      | some o =>
        if use s.heap o.options then
          match assignAll o s.heap v.entries as with
          | none => .dangling
          | some (h, es) => .ok { s with heap := h, maps := s.maps.set m (some { v with entries := es }) }
        else .dangling
    | _, _ => .misuse
  -- an element that the program adds itself: `vm.insert({name, variable_value(…)})`
  | .put m name =>
    match s.map? m with
    | none => .misuse
    | some v =>
      if v.entries.any (·.name == name) then .ok s
      else .ok { s with maps := s.maps.set m (some { v with entries := v.entries ++ [{ name, sem := none, given := true }] }) }
  | .copyMap m =>
    match s.map? m with
    | none => .misuse
    | some v => orDangling (copyPtrs s.heap (semantics v.entries)) fun h => { s with heap := h, maps := s.maps ++ [some v] }
  -- `clear` (src/variables_map.cpp:195-200): `m_next` is kept
  | .clear m =>
    match s.map? m with
    | none => .misuse
    | some v =>
      orDangling (release s.heap (semantics v.entries)) fun h => { s with heap := h, maps := s.maps.set m (some { v with entries := [] }) }
  | .destroyMap m =>
    match s.map? m with
    | none => .misuse
    | some v => orDangling (release s.heap (semantics v.entries)) fun h => { s with heap := h, maps := s.maps.set m none }
  -- `notify` (src/variables_map.cpp:213-250)
  | .notify m =>
    match s.map? m with
    | none => .misuse
    | some v => if use s.heap (semantics v.entries) then .ok s else .dangling
  | .lookup m name =>
    match s.map? m with
    | none => .misuse
    | some v =>
      match lookup s.maps name s.maps.length v with
      | none => .loops
      | some true => .ok s
      | some false => .dangling
  -- `print` (src/options_description.cpp:672-698): options and groups with all that is in them
  | .print d =>
    match s.desc? d with
    | none => .misuse
    | some o => if use s.heap (o.options ++ o.groups) then .ok s else .dangling

/-- A program: its steps in order, as far as they go. -/
def exec (s : State) : List Op → Result
  | [] => .ok s
  | op :: ops =>
    match step s op with
    | .ok s => exec s ops
    | r => r

end PO.Lifetime
