import Verif.Model.VarMap
/-
`notify` in a program whose notifiers work on the map that is being notified: they may store further sources in it, remove records, or call
`notify` again. The loop of `notify` holds an iterator meanwhile.

An iterator of a `std::map` stays valid while its record exists, and its successor is the first record with a greater name that exists when it is
incremented. Using it after its record was removed is undefined behaviour, here the outcome `dangling`.

Simplified: a notifier is given by the list of what it does, which may depend on everything there is when it is called. Exceptions of its stores it
catches; one that it lets pass it throws at its end. What an inner `notify` throws passes through. Notifiers get a copy of the value. Assigning to
the map, or swapping it, is left out.
-/
namespace PO.Reentrant

/-- What a notifier does, one thing after the other: something to the state of the program, or an operation on the map (`po::store`,
`variables_map::clear` (src/variables_map.cpp:195-200), `std::map::erase`, `po::notify`). -/
inductive Act (σ : Type)
  | compute (g : σ → σ)
  | store (p : Parsed) (utf8 : Bool)
  | clear
  | erase (name : Str)
  | notify

/-- The program that uses the library: what an assignment to the variable with an address does to its state, and what a notifier does, and
whether it ends with an exception. -/
structure Program (σ : Type) where
  assign : Nat → AVal → σ → σ
  call : Nat → AVal → σ → VarMap → List (Act σ) × Option Fail

/-- How it ends: as it should; with an exception; with the use of an iterator whose record is gone; or not within the number of steps. -/
inductive End
  | done
  | threw (f : Fail)
  | dangling
  | unfinished

/-- One round of the loop: the name and the record, the map it was found in, what its notifiers did, and the map after that. -/
structure Turn (σ : Type) where
  name : Str
  record : VarValue
  before : VarMap
  acts : List (Act σ)
  after : VarMap

/-- What has happened: the state of the program and the map at the end, the names of the records that were removed, what the notifiers did, and
the rounds of the loop for records of the library. -/
structure Run (σ : Type) where
  s : σ
  m : VarMap
  removed : List Str := []
  acts : List (Act σ) := []
  turns : List (Turn σ) := []
  fin : End := .done

variable {σ : Type}

/-- What a notifier does to the map. -/
def perform (notify : σ → VarMap → Run σ) : List (Act σ) → σ → VarMap → Run σ
  | [], s, m => { s, m }
  | .compute g :: as, s, m => perform notify as (g s) m
  | .store p utf8 :: as, s, m => perform notify as s (PO.store p m utf8).1
  | .clear :: as, s, m =>
    let r := perform notify as s m.clear
    { r with removed := m.map.map (·.1) ++ r.removed }
  | .erase name :: as, s, m =>
    let r := perform notify as s { m with map := m.map.filter fun e => e.1 ≠ name }
    { r with removed := (if m.map.has name then [name] else []) ++ r.removed }
  | .notify :: as, s, m =>
    let i := notify s m
    match i.fin with
    | .done =>
      let r := perform notify as i.s i.m
      { r with removed := i.removed ++ r.removed }
    | _ => { s := i.s, m := i.m, removed := i.removed, fin := i.fin }

/-- The statements of `value_semantic::notify`, one after the other (for `typed_value`: detail/value_semantic.hpp:44-50). -/
def deliver (P : Program σ) (notify : σ → VarMap → Run σ) : List Event → σ → VarMap → Run σ
  | [], s, m => { s, m }
  | .assign p a :: es, s, m => deliver P notify es (P.assign p a s) m
  | .callback f a :: es, s, m =>
    let c := P.call f a s m
    let r := perform notify c.1 s m
    match r.fin with
    | .done =>
      match c.2 with
      | some e => { r with acts := c.1, fin := .threw e }
      | none =>
        let r' := deliver P notify es r.s r.m
        { r' with removed := r.removed ++ r'.removed, acts := c.1 ++ r'.acts }
    | _ => { r with acts := c.1 }

/-- `++k`: the first record behind the name `k`. -/
def next (m : SMap VarValue) (k : Str) : Option (Str × VarValue) := m.find? fun e => strLt k e.1

/-- The second loop of `notify` (src/variables_map.cpp:231-246), at most so many rounds; the iterator is at the given record. -/
def walk (P : Program σ) (notify : σ → VarMap → Run σ) : Nat → Option (Str × VarValue) → σ → VarMap → Run σ
  | _, none, s, m => { s, m }
  | 0, some _, s, m => { s, m, fin := .unfinished }
  | n + 1, some (k, v), s, m =>
    match v.semantic with
    | none => walk P notify n (next m.map k) s m
    | some sem =>
      let r := deliver P notify (sem.notify v.v).1 s m
      let turn : Turn σ := { name := k, record := v, before := m, acts := r.acts, after := r.m }
      match r.fin with
      | .done =>
        match (sem.notify v.v).2 with
        | some f => { s := r.s, m := r.m, removed := r.removed, turns := [turn], fin := .threw f }
        | none =>
          if k ∈ r.removed then { s := r.s, m := r.m, removed := r.removed, turns := [turn], fin := .dangling }
          else
            let r' := walk P notify n (next r.m.map k) r.s r.m
            { r' with removed := r.removed ++ r'.removed, turns := turn :: r'.turns }
      | e => { s := r.s, m := r.m, removed := r.removed, turns := [turn], fin := e }

/-- `variables_map::notify` (src/variables_map.cpp:213-247), at most so many rounds of each loop and so many calls inside each other. -/
def notify (P : Program σ) : Nat → σ → VarMap → Run σ
  | 0, s, m => { s, m, fin := .unfinished }
  | n + 1, s, m =>
    match VarMap.missingRequired m.map m.required with
    | some display => { s, m, fin := .threw (errRequired display) }
    | none => walk P (notify P n) n m.map.head? s m

end PO.Reentrant
