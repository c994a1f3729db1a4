import Verif.Props.Lifetime
/-
What a state calls destroyed is what the program has destroyed (C125).
-/
namespace PO
open Lifetime Spec

namespace Destroyed

theorem append {α : Type} {l : List (Option α)} {a : α} {x : Nat} : (l ++ [some a])[x]? = some none ↔ l[x]? = some none := by
  rw [List.getElem?_append]
  split
  · rfl
  · rename_i h
    rw [List.getElem?_eq_none (l := l) (by omega)]
    cases h' : x - l.length <;> simp

theorem set {α : Type} {l : List (Option α)} {d : Nat} {o : α} (h : l[d]?.join = some o) {a : α} {x : Nat} :
    (l.set d (some a))[x]? = some none ↔ l[x]? = some none := by
  rw [join_some] at h
  rw [List.getElem?_set]
  split
  · rename_i e
    subst e
    rw [h]
    split <;> simp
  · rfl

theorem kill {α : Type} {l : List (Option α)} {d : Nat} {o : α} (h : l[d]?.join = some o) {x : Nat} :
    (l.set d none)[x]? = some none ↔ l[x]? = some none ∨ d = x := by
  rw [join_some] at h
  have hl : d < l.length := (List.getElem?_eq_some_iff.1 h).1
  rw [List.getElem?_set]
  split
  · rename_i e
    subst e
    simp [hl]
  · rename_i e
    simp [e]

theorem descs {s s' : State} {op : Op} (h : step s op = .ok s') (x : Nat) :
    s'.descs[x]? = some none ↔ s.descs[x]? = some none ∨ op = .destroyDesc x := by
  cases op <;> simp only [step, orDangling] at h <;> (repeat' split at h) <;> cases h <;>
    (try simp only [State.desc?] at *) <;>
    simp (disch := assumption) [append, set, kill]

theorem maps {s s' : State} {op : Op} (h : step s op = .ok s') (x : Nat) :
    s'.maps[x]? = some none ↔ s.maps[x]? = some none ∨ op = .destroyMap x := by
  cases op <;> simp only [step, orDangling] at h <;> (repeat' split at h) <;> cases h <;>
    (try simp only [State.map?] at *) <;>
    simp (disch := assumption) [append, set, kill]

theorem parsers {s s' : State} {op : Op} (h : step s op = .ok s') (x : Nat) :
    s'.parsers[x]? = some none ↔ s.parsers[x]? = some none ∨ op = .destroyParser x := by
  cases op <;> simp only [step, orDangling] at h <;> (repeat' split at h) <;> cases h <;>
    (try simp only [State.parser?] at *) <;>
    simp (disch := assumption) [append, kill]

theorem parsed {s s' : State} {op : Op} (h : step s op = .ok s') (x : Nat) :
    s'.parsed[x]? = some none ↔ s.parsed[x]? = some none ∨ op = .destroyParsed x := by
  cases op <;> simp only [step, orDangling] at h <;> (repeat' split at h) <;> cases h <;>
    (try simp only [State.parsed?] at *) <;>
    simp (disch := assumption) [append, kill]

theorem appendTrue {l : List Bool} {x : Nat} : (l ++ [true])[x]? = some false ↔ l[x]? = some false := by
  rw [List.getElem?_append]
  split
  · rfl
  · rename_i h
    rw [List.getElem?_eq_none (l := l) (by omega)]
    cases h' : x - l.length <;> simp

theorem setFalse {l : List Bool} {p : Nat} (h : (l[p]? == some true) = true) {x : Nat} :
    (l.set p false)[x]? = some false ↔ l[x]? = some false ∨ p = x := by
  have h := eq_of_beq h
  have hl : p < l.length := (List.getElem?_eq_some_iff.1 h).1
  rw [List.getElem?_set]
  split
  · rename_i e
    subst e
    simp [hl]
  · rename_i e
    simp [e]

theorem positionals {s s' : State} {op : Op} (h : step s op = .ok s') (x : Nat) :
    s'.positionals[x]? = some false ↔ s.positionals[x]? = some false ∨ op = .destroyPositional x := by
  cases op <;> simp only [step, orDangling] at h <;> (repeat' split at h) <;> cases h <;>
    (try simp only [State.positional?] at *) <;>
    simp (disch := assumption) [appendTrue, setFalse]

/-- What every step keeps or makes so is, after a program, what was so before it or what one of its steps has made so. -/
theorem run {P : State → Prop} {o : Op} (hs : ∀ {s s' op}, step s op = .ok s' → (P s' ↔ P s ∨ op = o)) (ops : List Op) :
    ∀ {s s'}, exec s ops = .ok s' → (P s' ↔ P s ∨ o ∈ ops) := by
  induction ops with
  | nil => intro s s' h; cases h; simp
  | cons op ops ih =>
    intro s s' h
    rw [exec] at h
    cases h1 : step s op with
    | ok s1 =>
      rw [h1] at h
      rw [ih h, hs h1, List.mem_cons, or_assoc, eq_comm (a := op)]
    | misuse => rw [h1] at h; cases h
    | dangling => rw [h1] at h; cases h
    | loops => rw [h1] at h; cases h

end Destroyed

/-- C125: after any program an object counts as destroyed exactly if the program has destroyed it; nothing that the library does ends the life of
one of these objects, and nothing brings one back. -/
theorem C125_destroyed_iff {ops : List Op} {s : State} (h : exec {} ops = .ok s) (x : Nat) :
    (s.descs[x]? = some none ↔ .destroyDesc x ∈ ops) ∧ (s.positionals[x]? = some false ↔ .destroyPositional x ∈ ops) ∧
    (s.parsers[x]? = some none ↔ .destroyParser x ∈ ops) ∧ (s.parsed[x]? = some none ↔ .destroyParsed x ∈ ops) ∧
    (s.maps[x]? = some none ↔ .destroyMap x ∈ ops) := by
  refine ⟨?_, ?_, ?_, ?_, ?_⟩
  · simpa using Destroyed.run (P := fun s => s.descs[x]? = some none) (fun h => Destroyed.descs h x) ops h
  · simpa using Destroyed.run (P := fun s => s.positionals[x]? = some false) (fun h => Destroyed.positionals h x) ops h
  · simpa using Destroyed.run (P := fun s => s.parsers[x]? = some none) (fun h => Destroyed.parsers h x) ops h
  · simpa using Destroyed.run (P := fun s => s.parsed[x]? = some none) (fun h => Destroyed.parsed h x) ops h
  · simpa using Destroyed.run (P := fun s => s.maps[x]? = some none) (fun h => Destroyed.maps h x) ops h

/-- A parser is given positional options that are destroyed before it runs. -/
example : exec {} [.newDesc, .newPositional, .newParser 0 (some 0), .destroyPositional 0, .run 0] = .dangling ∧
    exec {} [.newDesc, .newPositional, .newParser 0 (some 0), .run 0, .destroyPositional 0] =
      .ok { descs := [some {}], positionals := [false], parsers := [some ⟨0, some 0⟩], parsed := [some 0] } := by decide +kernel

end PO
