import Verif.Model.Notify
/-
Telling a program the values of its options.
-/
namespace PO.Spec
variable {σ : Type}

/-- The state after the value of an option is stored in its variable, if it has one. -/
def stored (h : Host σ) (t : TypedValue) (a : AVal) (s : σ) : σ :=
  match t.storeTo with
  | some p => h.assign p a s
  | none => s

/-- Telling the value of one option: its variable is assigned, and then its notifier called, which may end with an exception. -/
inductive Told (h : Host σ) (env : Env) (v : VarValue) (s : σ) : σ → Option Fail → Prop
  | foreign (hn : v.semantic = none) : Told h env v s s none
  | untyped (zero : Bool) (hs : v.semantic = some (untypedValue env zero)) : Told h env v s s none
  | unbound (t : TypedValue) (hs : v.semantic = some (t.toSemantic env)) (h1 : t.storeTo = none) (h2 : t.notifier = none) : Told h env v s s none
  | variable_ (t : TypedValue) (hs : v.semantic = some (t.toSemantic env)) (h2 : t.notifier = none) (a : AVal) (hv : v.v = some a)
      (ht : a.type = t.type) : Told h env v s (stored h t a s) none
  | notifier (t : TypedValue) (hs : v.semantic = some (t.toSemantic env)) (f : Nat) (hf : t.notifier = some f) (a : AVal) (hv : v.v = some a)
      (ht : a.type = t.type) (s' : σ) (r : Option Fail) (hc : h.call f a (stored h t a s) = (s', r)) : Told h env v s s' r

/-- Telling the values of some options one after the other; none of the notifiers throws. -/
inductive ToldAll (h : Host σ) (env : Env) : List (Str × VarValue) → σ → σ → Prop
  | nil (s : σ) : ToldAll h env [] s s
  | cons {k : Str} {v : VarValue} {rest : List (Str × VarValue)} {s s1 s2 : σ} (hv : Told h env v s s1 none) (hr : ToldAll h env rest s1 s2) :
      ToldAll h env ((k, v) :: rest) s s2

/-- The program has variables, which notifiers do not touch. -/
structure Memory (h : Host σ) (mem : σ → Nat → Option AVal) : Prop where
  written : ∀ p a s, mem (h.assign p a s) p = some a
  others : ∀ p a s q, q ≠ p → mem (h.assign p a s) q = mem s q
  untouched : ∀ f a s, mem (h.call f a s).1 = mem s

/-- The option of a record writes the variable `p`. -/
def WritesTo (env : Env) (v : VarValue) (p : Nat) : Prop := ∃ t : TypedValue, v.semantic = some (t.toSemantic env) ∧ t.storeTo = some p

/-- Every record is of an untyped or a typed option of the program, or not of the library at all. -/
def KnownRecords (env : Env) (m : VarMap) : Prop :=
  ∀ e ∈ m.map, e.2.semantic = none ∨ (∃ zero, e.2.semantic = some (untypedValue env zero)) ∨ ∃ t : TypedValue, e.2.semantic = some (t.toSemantic env)

end PO.Spec
