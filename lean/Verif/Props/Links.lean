import Verif.Lemmas.Links
import Verif.Props.Store
/-
C138: maps that are linked to each other.
-/
namespace PO
open Spec Links

/-! ### Every lookup -/

/-- **C138, values.** If the links lead to their end, or to a map with an explicit value for the name, `vm[name]` returns the documented answer of the
maps on the way. -/
theorem C138_value (mem : Memory) (a : Nat) (name : Str) (ms : List VarMap) (p : Option Nat) (h : Leads mem (some a) ms p)
    (he : p = none ∨ ∃ m ∈ ms, Sets m name) : ∃ v, lookup mem a name = some (.value v) ∧ Answer name ms v :=
  lookup_value h a rfl he

/-- In no other case does it return; -/
theorem C138_returns_iff (mem : Memory) (a : Nat) (name : Str) :
    (∃ n v, look n mem a name = some (.value v)) ↔ ∃ ms p, Leads mem (some a) ms p ∧ (p = none ∨ ∃ m ∈ ms, Sets m name) := by
  constructor
  · rintro ⟨n, v, h⟩
    obtain ⟨ms, p, -, h1, h2⟩ := look_value n a v h
    exact ⟨ms, p, h1, h2⟩
  · rintro ⟨ms, p, h1, h2⟩
    obtain ⟨v, h3, -⟩ := C138_value mem a name ms p h1 h2
    exact ⟨_, v, h3⟩

/-- it reads an object that is gone exactly if the links lead to one, through maps without an explicit value; -/
theorem C138_dangling_iff (mem : Memory) (a : Nat) (name : Str) :
    (∃ n, look n mem a name = some .dangling) ↔ ∃ b, Reaches mem name a (some b) ∧ at? mem b = none := by
  constructor
  · rintro ⟨n, h⟩; exact look_dangling n a h
  · rintro ⟨b, ⟨ms, h1, h2⟩, h3⟩
    exact ⟨_, lookup_dangling h1 a rfl h2 b rfl h3⟩

/-- and it calls itself for ever exactly if they lead into a circle of such maps. -/
theorem C138_endless_iff (mem : Memory) (a : Nat) (name : Str) : (∀ n, look n mem a name = none) ↔ Circles mem name a :=
  ⟨fun h => look_circles (h _), fun h n => circles_endless h n⟩

/-- One call for each object and one more are always enough if any number is. -/
theorem C138_enough (mem : Memory) (a : Nat) (name : Str) (n : Nat) (r : Found) (h : look n mem a name = some r) : lookup mem a name = some r :=
  look_lookup h

/-! ### What a program does with its maps -/

theorem at_set (mem : Memory) (x : Nat) (y : Option Obj) (b : Nat) :
    at? (mem.set x y) b = if b = x ∧ x < mem.length then y else at? mem b := by
  unfold at?
  rw [List.getElem?_set]
  by_cases h : x = b
  · subst h
    by_cases hl : x < mem.length
    · simp [hl]
    · rw [List.getElem?_eq_none (by omega)]
      simp [hl]
  · rw [if_neg h, if_neg (by rintro ⟨rfl, -⟩; exact h rfl)]

theorem at_append (mem : Memory) (y : Option Obj) (b : Nat) :
    at? (mem ++ [y]) b = if b = mem.length then y else at? mem b := by
  unfold at?
  by_cases h : b < mem.length
  · rw [List.getElem?_append_left h, if_neg (by omega)]
  · by_cases e : b = mem.length
    · subst e; simp
    · rw [if_neg e, List.getElem?_eq_none (by simp; omega), List.getElem?_eq_none (by omega)]

theorem at_lt {mem : Memory} {a : Nat} {o : Obj} (h : at? mem a = some o) : a < mem.length := by
  unfold at? at h
  by_contra hlt
  rw [List.getElem?_eq_none (by omega)] at h
  cases h

theorem valid_some {mem : Memory} {b : Nat} (h : valid mem (some b) = true) : ∃ o, at? mem b = some o := Option.isSome_iff_exists.1 h

theorem sane_step {mem mem' : Memory} (hs : Sane mem) (op : Op) (h : step mem op = some mem') : Sane mem' ∧ mem.length ≤ mem'.length := by
  have hset : ∀ x o, (∀ b, o.next = some b → b < mem.length) → Sane (mem.set x (some o)) ∧ mem.length ≤ (mem.set x (some o)).length := by
    intro x o ho
    refine ⟨fun a o' b h1 h2 => ?_, by simp⟩
    rw [List.length_set]
    rw [at_set] at h1
    split at h1
    · cases h1; exact ho b h2
    · exact hs a o' b h1 h2
  have happ : ∀ o, (∀ b, o.next = some b → b < mem.length) → Sane (mem ++ [some o]) ∧ mem.length ≤ (mem ++ [some o]).length := by
    intro o ho
    refine ⟨fun a o' b h1 h2 => ?_, by simp⟩
    rw [List.length_append, List.length_singleton]
    rw [at_append] at h1
    split at h1
    · cases h1; exact Nat.lt_succ_of_lt (ho b h2)
    · exact Nat.lt_succ_of_lt (hs a o' b h1 h2)
  cases op with
  | create next =>
    rw [step] at h
    split at h
    · rename_i hv
      cases h
      refine happ _ fun b hb => ?_
      dsimp only at hb
      subst hb
      obtain ⟨o, ho⟩ := valid_some hv
      exact at_lt ho
    · cases h
  | copy a =>
    rw [step] at h
    cases ho : at? mem a with
    | none => rw [ho] at h; cases h
    | some o => rw [ho] at h; cases h; exact happ _ (hs a o · ho)
  | assign a b =>
    rw [step] at h
    split at h
    · rename_i o _ ho
      cases h; exact hset _ _ (hs b _ · ho)
    · cases h
  | link a next =>
    rw [step] at h
    split at h
    · rename_i hv
      cases ho : at? mem a with
      | none => rw [ho] at h; cases h
      | some o =>
        rw [ho] at h; cases h
        refine hset _ _ fun b hb => ?_
        dsimp only at hb
        subst hb
        obtain ⟨o, ho⟩ := valid_some hv
        exact at_lt ho
    · cases h
  | clear a =>
    rw [step] at h
    cases ho : at? mem a with
    | none => rw [ho] at h; cases h
    | some o => rw [ho] at h; cases h; exact hset _ _ (hs a o · ho)
  | store a p u =>
    rw [step] at h
    cases ho : at? mem a with
    | none => rw [ho] at h; cases h
    | some o => rw [ho] at h; cases h; exact hset _ _ (hs a o · ho)
  | destroy a =>
    rw [step] at h
    cases ho : at? mem a with
    | none => rw [ho] at h; cases h
    | some o =>
      rw [ho] at h; cases h
      refine ⟨fun a' o' b h1 h2 => ?_, by simp⟩
      rw [List.length_set]
      rw [at_set] at h1
      split at h1
      · cases h1
      · exact hs a' o' b h1 h2

theorem sane_exec {ops : List Op} {mem mem' : Memory} (hs : Sane mem) (h : exec mem ops = some mem') : Sane mem' := by
  induction ops generalizing mem with
  | nil => cases h; exact hs
  | cons op ops ih =>
    rw [exec] at h
    split at h
    · cases h
    · exact ih (sane_step hs op ‹_›).1 h

/-- No program ever makes a link to something that is not an object, or was none. -/
theorem program_sane {ops : List Op} {mem : Memory} (h : exec [] ops = some mem) : Sane mem :=
  sane_exec (fun a o b h1 _ => by simp [at?] at h1) h

/-- Memories that agree on the objects reached. -/
theorem look_agree {mem mem' : Memory} {name : Str} (n : Nat) (a : Nat) (h : ∀ b, Reaches mem name a (some b) → at? mem' b = at? mem b) :
    look n mem' a name = look n mem a name := by
  induction n generalizing a with
  | zero => rfl
  | succ n ih =>
    rw [look, look, h a ⟨[], .stay _, fun _ hm => absurd hm List.not_mem_nil⟩]
    cases ho : at? mem a with
    | none => rfl
    | some o =>
      dsimp only
      cases hn : o.next with
      | none => rfl
      | some b =>
        dsimp only
        by_cases hs : Sets o.map name
        · have h1 := (sets_iff _ _).1 hs
          rw [if_neg (by simp [h1]), if_neg (by simp [h1]), if_neg (by simp [h1]), if_neg (by simp [h1])]
        · rw [ih b]
          rintro c ⟨ms, h1, h2⟩
          refine h c ⟨o.map :: ms, .pass ho (hn ▸ h1), ?_⟩
          intro m hm
          rcases List.mem_cons.1 hm with rfl | hm
          · exact hs
          · exact h2 m hm

theorem lookup_agree {mem mem' : Memory} {name : Str} (a : Nat) (h : ∀ b, Reaches mem name a (some b) → at? mem' b = at? mem b) :
    lookup mem' a name = lookup mem a name := by
  rw [← look_enough (mem := mem') (n := mem.length + mem'.length + 1) (by omega), look_agree _ a h, look_enough (by omega)]

theorem lookup_set {mem : Memory} {name : Str} {x : Nat} {y : Option Obj} (a : Nat) (h : ¬ Reaches mem name a (some x)) :
    lookup (mem.set x y) a name = lookup mem a name := by
  refine lookup_agree a fun b hb => ?_
  rw [at_set, if_neg]
  rintro ⟨rfl, -⟩
  exact h hb

theorem leads_lt {mem : Memory} (hs : Sane mem) {p q : Option Nat} {ms : List VarMap} (h : Leads mem p ms q) (hp : ∀ a, p = some a → a < mem.length) :
    ∀ b, q = some b → b < mem.length := by
  induction h with
  | stay => exact hp
  | pass ho _ ih => exact ih (hs _ _ · ho)

theorem lookup_append {mem : Memory} {name : Str} {y : Option Obj} (hs : Sane mem) (a : Nat) (ha : a < mem.length) :
    lookup (mem ++ [y]) a name = lookup mem a name := by
  refine lookup_agree a fun b hb => ?_
  obtain ⟨ms, h1, -⟩ := hb
  have := leads_lt hs h1 (by rintro _ ⟨⟩; exact ha) b rfl
  rw [at_append, if_neg (by omega)]

/-- The object a statement works on. -/
def changed : Op → Option Nat
  | .create _ | .copy _ => none
  | .assign a _ | .link a _ | .clear a | .store a _ _ | .destroy a => some a

/-- **C138, the others.** A statement changes the answers of those objects only from which the links lead to the one it works on, through maps without
an explicit value. -/
theorem C138_untouched (mem mem' : Memory) (op : Op) (hs : Sane mem) (h : step mem op = some mem') (a : Nat) (ha : a < mem.length) (name : Str)
    (hx : ∀ x, changed op = some x → ¬ Reaches mem name a (some x)) : lookup mem' a name = lookup mem a name := by
  cases op with
  | create next =>
    rw [step] at h
    split at h
    · cases h; exact lookup_append hs a ha
    · cases h
  | copy b =>
    rw [step] at h
    cases ho : at? mem b with
    | none => rw [ho] at h; cases h
    | some o => rw [ho] at h; cases h; exact lookup_append hs a ha
  | assign x b =>
    rw [step] at h
    split at h
    · cases h; exact lookup_set a (hx x rfl)
    · cases h
  | link x next =>
    rw [step] at h
    split at h
    · cases ho : at? mem x with
      | none => rw [ho] at h; cases h
      | some o => rw [ho] at h; cases h; exact lookup_set a (hx x rfl)
    · cases h
  | clear x =>
    rw [step] at h
    cases ho : at? mem x with
    | none => rw [ho] at h; cases h
    | some o => rw [ho] at h; cases h; exact lookup_set a (hx x rfl)
  | store x p u =>
    rw [step] at h
    cases ho : at? mem x with
    | none => rw [ho] at h; cases h
    | some o => rw [ho] at h; cases h; exact lookup_set a (hx x rfl)
  | destroy x =>
    rw [step] at h
    cases ho : at? mem x with
    | none => rw [ho] at h; cases h
    | some o => rw [ho] at h; cases h; exact lookup_set a (hx x rfl)

/-- **C138, copies.** A copy answers like the original, for every name. -/
theorem C138_copy (mem mem' : Memory) (hs : Sane mem) (a : Nat) (h : step mem (.copy a) = some mem') (name : Str) :
    lookup mem' mem.length name = lookup mem a name := by
  rw [step] at h
  cases ho : at? mem a with
  | none => rw [ho] at h; cases h
  | some o =>
    rw [ho] at h; cases h
    rw [lookup_unfold, lookup_unfold mem, ho, at_append, if_pos rfl]
    dsimp only
    cases hn : o.next with
    | none => rfl
    | some b =>
      dsimp only
      rw [lookup_append hs b (hs a o b ho hn)]

theorem reaches_of_next {mem : Memory} {name : Str} {b c : Nat} {o : Obj} {p : Option Nat} (ho : at? mem b = some o) (hn : o.next = some c)
    (hs : ¬ Sets o.map name) (h : Reaches mem name c p) : Reaches mem name b p := by
  obtain ⟨ms, h1, h2⟩ := h
  refine ⟨o.map :: ms, .pass ho (hn ▸ h1), ?_⟩
  intro m hm
  rcases List.mem_cons.1 hm with rfl | hm
  · exact hs
  · exact h2 m hm

/-- **C138, assignment.** After `a = b` the object answers as `b` did, if the links of `b` do not lead to `a`; -/
theorem C138_assign (mem mem' : Memory) (a b : Nat) (h : step mem (.assign a b) = some mem') (name : Str)
    (hr : a = b ∨ ¬ Reaches mem name b (some a)) : lookup mem' a name = lookup mem b name := by
  rw [step] at h
  split at h
  · rename_i o0 o h0 ho
    cases h
    by_cases hab : a = b
    · subst hab
      refine lookup_agree a fun c _ => ?_
      rw [at_set]
      split
      · rename_i hc; rw [hc.1, ho]
      · rfl
    · have hr : ¬ Reaches mem name b (some a) := hr.resolve_left hab
      rw [lookup_unfold, lookup_unfold mem, ho, at_set, if_pos ⟨rfl, at_lt h0⟩]
      dsimp only
      cases hn : o.next with
      | none => rfl
      | some c =>
        dsimp only
        by_cases hsets : Sets o.map name
        · have h1 := (sets_iff _ _).1 hsets
          rw [if_neg (by simp [h1]), if_neg (by simp [h1]), if_neg (by simp [h1]), if_neg (by simp [h1])]
        · rw [lookup_set c fun hc => hr (reaches_of_next ho hn hsets hc)]
  · cases h

/-- The way to an object is the same when that object is changed. -/
theorem leads_to {mem : Memory} {x : Nat} {y : Option Obj} {p q : Option Nat} {ms : List VarMap} (h : Leads mem p ms q) (hq : q = some x) :
    ∃ ms', ms' ⊆ ms ∧ Leads (mem.set x y) p ms' (some x) := by
  induction h with
  | stay => subst hq; exact ⟨[], fun _ h => h, .stay _⟩
  | @pass a o ms q ho t ih =>
    by_cases ha : a = x
    · subst ha; exact ⟨[], fun _ h => absurd h List.not_mem_nil, .stay _⟩
    · obtain ⟨ms', h1, h2⟩ := ih hq
      refine ⟨o.map :: ms', List.cons_subset_cons _ h1, .pass ?_ h2⟩
      rw [at_set, if_neg fun hh => ha hh.1, ho]

/-- otherwise (for instance, if `b` was made with `variables_map b(&a)`) it is a circle afterwards, and the lookup does not return. -/
theorem C138_assign_circle (mem mem' : Memory) (a b : Nat) (h : step mem (.assign a b) = some mem') (name : Str) (hab : a ≠ b)
    (hr : Reaches mem name b (some a)) : ∀ n, look n mem' a name = none := by
  rw [step] at h
  split at h
  · rename_i o0 o h0 ho
    cases h
    rw [C138_endless_iff]
    obtain ⟨ms, h1, h2⟩ := hr
    generalize hp : some b = p at h1
    cases h1 with
    | stay => cases hp; exact absurd rfl hab
    | @pass b' o' ms _ ho' t =>
      cases hp
      rw [ho] at ho'; cases ho'
      obtain ⟨ms', e1, e2⟩ := leads_to (y := some o) t rfl
      refine ⟨a, o.map :: ms', ⟨[], .stay _, fun _ hm => absurd hm List.not_mem_nil⟩, by simp, .pass ?_ e2, ?_⟩
      · rw [at_set, if_pos ⟨rfl, at_lt h0⟩]
      · intro m hm
        rcases List.mem_cons.1 hm with rfl | hm
        · exact h2 _ (by simp)
        · exact h2 m (List.mem_cons_of_mem _ (e1 hm))
  · cases h

theorem leads_cons {mem : Memory} {a : Nat} {o : Obj} (ho : at? mem a = some o) {ms : List VarMap} {p : Option Nat} :
    Leads mem (some a) (o.map :: ms) p ↔ Leads mem o.next ms p := by
  constructor
  · intro h
    generalize hq : o.map :: ms = l at h
    cases h with
    | stay => cases hq
    | pass h' t => rw [ho] at h'; cases h'; cases hq; exact t
  · exact .pass ho

/-- **C138, clear.** A cleared map has no value of its own; its link stays. -/
theorem C138_clear (mem mem' : Memory) (a : Nat) (o : Obj) (ho : at? mem a = some o) (h : step mem (.clear a) = some mem') (name : Str) :
    lookup mem' a name = match o.next with
      | none => some (.value {})
      | some b => lookup mem' b name := by
  rw [step, ho] at h
  cases h
  rw [lookup_unfold, at_set, if_pos ⟨rfl, at_lt ho⟩]
  dsimp only
  cases o.next <;> rfl

/-- **C138, links.** After `a.next(p)` the way from `a` is its own contents and then the way from `p`; -/
theorem C138_link (mem mem' : Memory) (a : Nat) (o : Obj) (ho : at? mem a = some o) (next : Option Nat) (h : step mem (.link a next) = some mem')
    (ms : List VarMap) (p : Option Nat) : Leads mem' (some a) (o.map :: ms) p ↔ Leads mem' next ms p := by
  rw [step, ho] at h
  split at h
  · cases h
    have e : at? (mem.set a (some { o with next })) a = some { o with next } := by rw [at_set, if_pos ⟨rfl, at_lt ho⟩]
    exact leads_cons e
  · cases h

/-- likewise of a new map, which is empty; -/
theorem C138_create (mem mem' : Memory) (next : Option Nat) (h : step mem (.create next) = some mem') (ms : List VarMap) (p : Option Nat) :
    Leads mem' (some mem.length) ({} :: ms) p ↔ Leads mem' next ms p := by
  rw [step] at h
  split at h
  · cases h
    have e : at? (mem ++ [some { next := next }]) mem.length = some { next := next } := by rw [at_append, if_pos rfl]
    exact leads_cons e
  · cases h

/-- and storing into a map changes nothing but its own contents. -/
theorem C138_store (mem mem' : Memory) (a : Nat) (o : Obj) (ho : at? mem a = some o) (q : Parsed) (utf8 : Bool) (h : step mem (.store a q utf8) = some mem')
    (ms : List VarMap) (p : Option Nat) : Leads mem' (some a) ((store q o.map utf8).1 :: ms) p ↔ Leads mem' o.next ms p := by
  rw [step, ho] at h
  cases h
  have e : at? (mem.set a (some { o with map := (store q o.map utf8).1 })) a = some { o with map := (store q o.map utf8).1 } := by
    rw [at_set, if_pos ⟨rfl, at_lt ho⟩]
  exact leads_cons e

/-- **C138, destruction.** When an object is gone, exactly those lookups read it whose links lead to it through maps without an explicit value, besides
those that read a destroyed object already. -/
theorem C138_destroy (mem mem' : Memory) (x : Nat) (h : step mem (.destroy x) = some mem') (a : Nat) (name : Str) :
    lookup mem' a name = some .dangling ↔ Reaches mem name a (some x) ∨ lookup mem a name = some .dangling := by
  rw [step] at h
  cases ho : at? mem x with
  | none => rw [ho] at h; cases h
  | some o =>
    rw [ho] at h; cases h
    by_cases hr : Reaches mem name a (some x)
    · refine iff_of_true ?_ (.inl hr)
      obtain ⟨ms, h1, h2⟩ := hr
      obtain ⟨ms', e1, e2⟩ := leads_to (y := none) h1 rfl
      refine lookup_dangling e2 a rfl (fun m hm => h2 m (e1 hm)) x rfl ?_
      rw [at_set, if_pos ⟨rfl, at_lt ho⟩]
    · rw [lookup_set a hr]
      exact ⟨.inr, fun h => h.resolve_left hr⟩

/-! ### Whole programs -/

theorem backwards_step {mem mem' : Memory} (hb : Backwards mem) (op : Op) (hc : Careful op) (h : step mem op = some mem') : Backwards mem' := by
  have hset : ∀ x o o0, at? mem x = some o0 → (∀ b, o.next = some b → b < x ∧ (at? mem b).isSome) → Backwards (mem.set x (some o)) := by
    intro x o o0 h0 ho a o' b h1 h2
    have alive : ∀ b, (at? mem b).isSome → (at? (mem.set x (some o)) b).isSome := by
      intro b hb'
      rw [at_set]
      split
      · rfl
      · exact hb'
    rw [at_set] at h1
    split at h1
    · rename_i hx
      cases h1
      obtain ⟨h3, h4⟩ := ho b h2
      exact ⟨hx.1 ▸ h3, alive b h4⟩
    · obtain ⟨h3, h4⟩ := hb a o' b h1 h2
      exact ⟨h3, alive b h4⟩
  have happ : ∀ o, (∀ b, o.next = some b → (at? mem b).isSome) → Backwards (mem ++ [some o]) := by
    intro o ho a o' b h1 h2
    have alive : ∀ b, (at? mem b).isSome → (at? (mem ++ [some o]) b).isSome := by
      intro b hb'
      rw [at_append]
      split
      · rfl
      · exact hb'
    rw [at_append] at h1
    split at h1
    · rename_i ha
      cases h1
      have h3 := ho b h2
      obtain ⟨x, hx⟩ := Option.isSome_iff_exists.1 h3
      exact ⟨ha ▸ at_lt hx, alive b h3⟩
    · obtain ⟨h3, h4⟩ := hb a o' b h1 h2
      exact ⟨h3, alive b h4⟩
  cases op with
  | create next =>
    rw [step] at h
    split at h
    · rename_i hv
      cases h
      refine happ _ fun b hb' => ?_
      dsimp only at hb'
      subst hb'; exact hv
    · cases h
  | copy a =>
    rw [step] at h
    cases ho : at? mem a with
    | none => rw [ho] at h; cases h
    | some o => rw [ho] at h; cases h; exact happ _ fun b hb' => (hb a o b ho hb').2
  | assign a b =>
    rw [step] at h
    split at h
    · rename_i o0 o h0 ho
      cases h
      refine hset _ _ o0 h0 fun c hc' => ?_
      obtain ⟨h3, h4⟩ := hb b o c ho hc'
      exact ⟨Nat.lt_of_lt_of_le h3 hc, h4⟩
    · cases h
  | link a next =>
    rw [step] at h
    split at h
    · rename_i hv
      cases ho : at? mem a with
      | none => rw [ho] at h; cases h
      | some o =>
        rw [ho] at h; cases h
        refine hset _ _ o ho fun b hb' => ?_
        dsimp only at hb'
        subst hb'
        exact ⟨hc, hv⟩
    · cases h
  | clear a =>
    rw [step] at h
    cases ho : at? mem a with
    | none => rw [ho] at h; cases h
    | some o => rw [ho] at h; cases h; exact hset _ _ o ho fun b hb' => hb a o b ho hb'
  | store a p u =>
    rw [step] at h
    cases ho : at? mem a with
    | none => rw [ho] at h; cases h
    | some o => rw [ho] at h; cases h; exact hset _ _ o ho fun b hb' => hb a o b ho hb'
  | destroy a => cases hc

theorem backwards_exec {ops : List Op} {mem mem' : Memory} (hb : Backwards mem) (hc : ∀ op ∈ ops, Careful op) (h : exec mem ops = some mem') :
    Backwards mem' := by
  induction ops generalizing mem with
  | nil => cases h; exact hb
  | cons op ops ih =>
    rw [exec] at h
    split at h
    · cases h
    · exact ih (backwards_step hb op (hc op (by simp)) ‹_›) (fun op hop => hc op (List.mem_cons_of_mem _ hop)) h

theorem backwards_end {mem : Memory} (hb : Backwards mem) (a : Nat) : (at? mem a).isSome → ∃ ms, Leads mem (some a) ms none := by
  induction a using Nat.strongRecOn with
  | ind a ih =>
    intro ha
    obtain ⟨o, ho⟩ := Option.isSome_iff_exists.1 ha
    cases hn : o.next with
    | none => exact ⟨[o.map], .pass ho (hn ▸ .stay _)⟩
    | some b =>
      obtain ⟨h1, h2⟩ := hb a o b ho hn
      obtain ⟨ms, h3⟩ := ih b h1 h2
      exact ⟨o.map :: ms, .pass ho (hn ▸ h3)⟩

/-- The full claim: whatever a program has done with its maps, `vm[name]` on a living one returns the documented answer of the maps its links lead
through. -/
def C138_claim : Prop := ∀ ops mem, exec [] ops = some mem → ∀ a name, (at? mem a).isSome → ∃ ms v, Leads mem (some a) ms none ∧
  lookup mem a name = some (.value v) ∧ Answer name ms v

/-- **C138, what holds:** it is so in programs that link and assign from older maps only and keep all of them. -/
theorem C138_programs_partial (ops : List Op) (mem : Memory) (h : exec [] ops = some mem) (hc : ∀ op ∈ ops, Careful op) (a : Nat) (name : Str)
    (ha : (at? mem a).isSome) : ∃ ms v, Leads mem (some a) ms none ∧ lookup mem a name = some (.value v) ∧ Answer name ms v := by
  obtain ⟨ms, h1⟩ := backwards_end (backwards_exec (fun a o b h1 _ => by simp [at?] at h1) hc h) a ha
  obtain ⟨v, h2, h3⟩ := C138_value mem a name ms none h1 (.inl rfl)
  exact ⟨ms, v, h1, h2, h3⟩

/-- **C138 is violated:** a map that others are linked to can be destroyed; -/
theorem C138_negation : ¬ C138_claim := by
  intro h
  obtain ⟨ms, v, -, h2, -⟩ := h [.create none, .create (some 0), .destroy 0] _ rfl 1 (Test.L "name") rfl
  have : lookup [none, some { next := some 0 }] 1 (Test.L "name") = some .dangling := rfl
  have h3 := this.symm.trans h2
  cases h3

/-- and a map assigned from one that is linked to it is linked to itself: `base = local` after `variables_map local(&base)`. -/
theorem C138_negation_circle : ∃ mem, exec [] [.create none, .create (some 0), .assign 0 1] = some mem ∧ ∀ name n, look n mem 0 name = none := by
  refine ⟨_, rfl, fun name => ?_⟩
  rw [C138_endless_iff]
  exact ⟨0, [{}], ⟨[], .stay _, fun _ hm => absurd hm List.not_mem_nil⟩, by simp, .pass (o := { next := some 0 }) rfl (.stay _),
    by rintro m hm; rw [List.mem_singleton.1 hm]; rintro ⟨r, hr, -⟩; cases hr⟩

/-- The links count for `vm[name]` only: `vm.count(name)` is 0, and `notify` misses a required option, though `vm[name]` has an explicit value. -/
theorem C138_only_lookup : ∃ ops mem o v, exec [] ops = some mem ∧ at? mem 1 = some o ∧ lookup mem 1 (Test.L "name") = some (.value v) ∧
    v.v = some (.scalar (.str (Test.L "a"))) ∧ v.defaulted = false ∧ o.map.map.get? (Test.L "name") = none ∧ o.map.notify.2 = some (errRequired (Test.L "name")) := by
  let d := Test.od "name" (Test.sem { Test.vstr with required := true })
  exact ⟨[.create none, .store 0 Ex.src1 false, .create (some 0), .store 1 { desc := [d], options := [] } false], _, _, _, rfl, rfl, rfl, by rfl, by rfl, by rfl, by rfl⟩

/-! A local map before a common one: its own explicit value first, then the explicit value behind it rather than its own default. -/

def Ex.linkedMaps : List Op :=
  [.create none, .store 0 Ex.src2 false, .create (some 0), .store 1 { desc := Ex.descs, options := [Ex.o "name" ["a"]] } false]
def Ex.linked : Memory := (exec [] Ex.linkedMaps).getD []

example : exec [] Ex.linkedMaps = some Ex.linked ∧ (∀ op ∈ Ex.linkedMaps, Careful op) ∧
    (∃ v, lookup Ex.linked 1 (Test.L "name") = some (.value v) ∧ v.v = some (.scalar (.str (Test.L "a")))) ∧
    (∃ v, lookup Ex.linked 1 (Test.L "level") = some (.value v) ∧ v.v = some (.scalar (.str (Test.L "high")))) ∧
    (∃ v, lookup Ex.linked 1 (Test.L "other") = some (.value v) ∧ v.v = none) := by
  refine ⟨rfl, ?_, ⟨_, rfl, by rfl⟩, ⟨_, rfl, by rfl⟩, ⟨_, rfl, by rfl⟩⟩
  intro op hop
  simp only [Ex.linkedMaps, List.mem_cons, List.not_mem_nil, or_false] at hop
  rcases hop with rfl | rfl | rfl | rfl <;> trivial

/-- An explicit value in front of the circle: this name is still found. -/
example : ∃ mem v, exec [] (Ex.linkedMaps ++ [.assign 0 1]) = some mem ∧ lookup mem 0 (Test.L "name") = some (.value v) ∧
    v.v = some (.scalar (.str (Test.L "a"))) ∧ lookup mem 0 (Test.L "level") = none :=
  ⟨_, _, rfl, rfl, by rfl, by rfl⟩

end PO
