import Verif.Spec.Links
import Mathlib.Data.Fintype.EquivFin
/-
Lookups in linked maps (C138).
-/
namespace PO
open Spec Links

theorem sets_iff (m : VarMap) (name : Str) : Sets m name ↔ (m.get name).empty = false ∧ (m.get name).defaulted = false := by
  unfold Sets VarMap.get VarValue.empty
  cases m.map.get? name with
  | none => simp
  | some r => cases hv : r.v <;> simp [hv]

theorem has_iff (m : VarMap) (name : Str) : Has m name ↔ (m.get name).empty = false := by
  unfold Has VarMap.get VarValue.empty
  cases m.map.get? name with
  | none => simp
  | some r => cases hv : r.v <;> simp [hv]

theorem Spec.Sets.has {m : VarMap} {name : Str} (h : Sets m name) : Has m name := by
  obtain ⟨r, h1, h2, -⟩ := h; exact ⟨r, h1, h2⟩

theorem has_get {m : VarMap} {name : Str} (h : Has m name) : m.map.get? name = some (m.get name) := by
  obtain ⟨r, h1, -⟩ := h
  unfold VarMap.get; rw [h1]; rfl

theorem Spec.Leads.append {mem : Memory} {p q r : Option Nat} {ms ms' : List VarMap} (h : Leads mem p ms q) (h' : Leads mem q ms' r) :
    Leads mem p (ms ++ ms') r := by
  induction h with
  | stay => exact h'
  | pass ho _ ih => exact .pass ho (ih h')

theorem Spec.Leads.fromSome {mem : Memory} {p q : Option Nat} {ms : List VarMap} (h : Leads mem p ms q) {b : Nat} (hq : q = some b) :
    ∃ c, p = some c := by
  cases h with
  | stay => exact ⟨b, hq⟩
  | pass => exact ⟨_, rfl⟩

/-! ### More calls do not change an answer -/

theorem look_succ {mem : Memory} {name : Str} (n : Nat) (a : Nat) (r : Found) (h : look n mem a name = some r) :
    look (n + 1) mem a name = some r := by
  induction n generalizing a r with
  | zero => cases h
  | succ n ih =>
    rw [look] at h ⊢
    cases ho : at? mem a with
    | none => rw [ho] at h; exact h
    | some o =>
      rw [ho] at h
      dsimp only at h ⊢
      cases hn : o.next with
      | none => rw [hn] at h; exact h
      | some b =>
        rw [hn] at h
        dsimp only at h ⊢
        split at h
        · rw [if_pos ‹_›]; exact ih _ _ h
        · rw [if_neg ‹_›]
          split at h
          · rw [if_pos ‹_›]
            cases hl : look n mem b name with
            | none => rw [hl] at h; cases h
            | some x => rw [hl] at h; rw [ih _ _ hl]; exact h
          · rw [if_neg ‹_›]; exact h

theorem look_le {mem : Memory} {name : Str} {n k : Nat} (hk : n ≤ k) {a : Nat} {r : Found} (h : look n mem a name = some r) :
    look k mem a name = some r := by
  induction k with
  | zero => cases Nat.le_zero.1 hk; exact h
  | succ k ih =>
    by_cases e : n = k + 1
    · subst e; exact h
    · exact look_succ _ _ _ (ih (by omega))

/-! ### What an unfinished lookup has come through -/

/-- The objects come through, by address. -/
inductive Trail (mem : Memory) (name : Str) : Nat → List Nat → Nat → Prop
  | stay (a : Nat) : Trail mem name a [] a
  | pass {a : Nat} {o : Obj} {b : Nat} {as : List Nat} {c : Nat} (h : at? mem a = some o) (hs : ¬ Sets o.map name) (hn : o.next = some b)
      (t : Trail mem name b as c) : Trail mem name a (a :: as) c

theorem Trail.leads {mem : Memory} {name : Str} {a c : Nat} {as : List Nat} (h : Trail mem name a as c) :
    ∃ ms, ms.length = as.length ∧ Leads mem (some a) ms (some c) ∧ ∀ m ∈ ms, ¬ Sets m name := by
  induction h with
  | stay => exact ⟨[], rfl, .stay _, fun _ hm => absurd hm List.not_mem_nil⟩
  | pass ho hs hn _ ih =>
    obtain ⟨ms, h1, h2, h3⟩ := ih
    refine ⟨_ :: ms, by simp [h1], .pass ho (hn ▸ h2), ?_⟩
    intro m hm
    rcases List.mem_cons.1 hm with rfl | hm
    · exact hs
    · exact h3 m hm

theorem Trail.split {mem : Memory} {name : Str} {a c : Nat} {l : List Nat} {x : Nat} {r : List Nat} (h : Trail mem name a (l ++ x :: r) c) :
    Trail mem name a l x ∧ Trail mem name x (x :: r) c := by
  induction l generalizing a with
  | nil =>
    cases h with
    | pass ho hs hn t => exact ⟨.stay _, .pass ho hs hn t⟩
  | cons y l ih =>
    rw [List.cons_append] at h
    generalize hq : y :: (l ++ x :: r) = q at h
    cases h with
    | stay => cases hq
    | pass ho hs hn t =>
      cases hq
      obtain ⟨h1, h2⟩ := ih t
      exact ⟨.pass ho hs hn h1, h2⟩

theorem Trail.bound {mem : Memory} {name : Str} {a c : Nat} {as : List Nat} (h : Trail mem name a as c) : ∀ x ∈ as, x < mem.length := by
  induction h with
  | stay => exact fun _ hm => absurd hm List.not_mem_nil
  | pass ho _ _ _ ih =>
    intro x hx
    rcases List.mem_cons.1 hx with rfl | hx
    · unfold at? at ho
      by_contra hlt
      rw [List.getElem?_eq_none (by omega)] at ho
      cases ho
    · exact ih x hx

theorem look_none {mem : Memory} {name : Str} (n : Nat) (a : Nat) (h : look n mem a name = none) :
    ∃ as c, as.length = n ∧ Trail mem name a as c := by
  induction n generalizing a with
  | zero => exact ⟨[], a, rfl, .stay a⟩
  | succ n ih =>
    rw [look] at h
    cases ho : at? mem a with
    | none => rw [ho] at h; cases h
    | some o =>
      rw [ho] at h
      dsimp only at h
      cases hn : o.next with
      | none => rw [hn] at h; cases h
      | some b =>
        rw [hn] at h
        dsimp only at h
        have key : ¬ Sets o.map name ∧ look n mem b name = none := by
          rw [sets_iff]
          split at h
          · rename_i he; exact ⟨fun hh => (Bool.eq_false_iff.1 hh.1) he, h⟩
          · split at h
            · rename_i hd
              refine ⟨fun hh => (Bool.eq_false_iff.1 hh.2) hd, ?_⟩
              cases hl : look n mem b name with
              | none => rfl
              | some x => rw [hl] at h; cases x <;> cases h
            · cases h
        obtain ⟨as, c, h1, h2⟩ := ih b key.2
        exact ⟨a :: as, c, by simp [h1], .pass ho key.1 hn h2⟩

theorem repeats (as : List Nat) (h : ¬ as.Nodup) : ∃ l x r s, as = l ++ x :: (r ++ x :: s) := by
  induction as with
  | nil => exact absurd List.nodup_nil h
  | cons a as ih =>
    by_cases ha : a ∈ as
    · obtain ⟨r, s, rfl⟩ := List.append_of_mem ha
      exact ⟨[], a, r, s, rfl⟩
    · obtain ⟨l, x, r, s, rfl⟩ := ih fun hn => h (List.nodup_cons.2 ⟨ha, hn⟩)
      exact ⟨a :: l, x, r, s, rfl⟩

theorem crowded (as : List Nat) (k : Nat) (h : ∀ x ∈ as, x < k) (hl : k < as.length) : ¬ as.Nodup := by
  intro hn
  have := List.Nodup.length_le_card (α := Fin k) (l := as.attach.map fun x => ⟨x.1, h x.1 x.2⟩) (by
    refine List.Nodup.map ?_ (List.nodup_attach.2 hn)
    intro x y hxy
    exact Subtype.ext (by simpa using hxy))
  simp at this
  omega

theorem look_circles {mem : Memory} {name : Str} {a : Nat} (h : lookup mem a name = none) : Circles mem name a := by
  obtain ⟨as, c, h1, h2⟩ := look_none _ _ h
  obtain ⟨l, x, r, s, rfl⟩ := repeats as (crowded as mem.length h2.bound (by omega))
  obtain ⟨h3, h4⟩ := h2.split
  have h5 : Trail mem name x ((x :: r) ++ x :: s) c := h4
  obtain ⟨h6, -⟩ := h5.split
  obtain ⟨ms, -, e1, e2⟩ := h3.leads
  obtain ⟨ms', e3, e4, e5⟩ := h6.leads
  refine ⟨x, ms', ⟨ms, e1, e2⟩, ?_, e4, e5⟩
  rintro rfl
  simp at e3

/-- A lookup that has to come through that many objects needs more calls. -/
theorem look_through {mem : Memory} {name : Str} {p : Option Nat} {ms : List VarMap} {q : Option Nat} (h : Leads mem p ms q) (a : Nat) (hp : p = some a)
    (b : Nat) (hq : q = some b) (hs : ∀ m ∈ ms, ¬ Sets m name) (n : Nat) (hn : n ≤ ms.length) : look n mem a name = none := by
  induction h generalizing a n with
  | stay => cases Nat.le_zero.1 hn; rfl
  | @pass a' o ms p ho t ih =>
    cases hp
    cases n with
    | zero => rfl
    | succ n =>
      obtain ⟨c, hc⟩ := t.fromSome hq
      have hl := ih c hc hq (fun m hm => hs m (List.mem_cons_of_mem _ hm)) n (by simpa using hn)
      rw [look, ho]
      dsimp only
      rw [hc]
      dsimp only
      rw [hl]
      have hs' := hs o.map (by simp)
      rw [sets_iff] at hs'
      split
      · rfl
      · split
        · rfl
        · rename_i h1 h2
          exact absurd ⟨by simpa using h1, by simpa using h2⟩ hs'

theorem circles_endless {mem : Memory} {name : Str} {a : Nat} (h : Circles mem name a) (n : Nat) : look n mem a name = none := by
  obtain ⟨b, ms, ⟨m0, h1, h2⟩, h3, h4, h5⟩ := h
  have : ∀ k, ∃ ms', k ≤ ms'.length ∧ Leads mem (some b) ms' (some b) ∧ ∀ m ∈ ms', ¬ Sets m name := by
    intro k
    induction k with
    | zero => exact ⟨[], Nat.le_refl _, .stay _, fun _ hm => absurd hm List.not_mem_nil⟩
    | succ k ih =>
      obtain ⟨ms', e1, e2, e3⟩ := ih
      refine ⟨ms ++ ms', ?_, h4.append e2, ?_⟩
      · have : 0 < ms.length := List.length_pos_iff.2 h3
        rw [List.length_append]; omega
      · intro m hm
        rcases List.mem_append.1 hm with hm | hm
        · exact h5 m hm
        · exact e3 m hm
  obtain ⟨ms', e1, e2, e3⟩ := this n
  refine look_through (h1.append e2) a rfl b rfl ?_ n (by rw [List.length_append]; omega)
  intro m hm
  rcases List.mem_append.1 hm with hm | hm
  · exact h2 m hm
  · exact e3 m hm

theorem look_none_iff {mem : Memory} {name : Str} {a : Nat} {n : Nat} (hn : mem.length + 1 ≤ n) : look n mem a name = none ↔ Circles mem name a := by
  constructor
  · intro h
    refine look_circles ?_
    cases hl : lookup mem a name with
    | none => rfl
    | some r => rw [look_le hn hl] at h; cases h
  · exact fun h => circles_endless h n

/-- Any number of calls above that of the objects gives the same. -/
theorem look_enough {mem : Memory} {name : Str} {a : Nat} {n : Nat} (hn : mem.length + 1 ≤ n) : look n mem a name = lookup mem a name := by
  cases h : lookup mem a name with
  | none => exact (look_none_iff hn).2 ((look_none_iff (Nat.le_refl _)).1 h)
  | some r => exact look_le hn h

theorem look_lookup {mem : Memory} {name : Str} {a : Nat} {n : Nat} {r : Found} (h : look n mem a name = some r) : lookup mem a name = some r := by
  rw [← look_enough (n := n + mem.length + 1) (by omega)]
  exact look_le (by omega) h

/-- The three cases of the documentation, calls not counted. -/
theorem lookup_unfold (mem : Memory) (a : Nat) (name : Str) :
    lookup mem a name =
      match at? mem a with
      | none => some .dangling
      | some o =>
        match o.next with
        | none => some (.value (o.map.get name))
        | some b =>
          if (o.map.get name).empty then lookup mem b name
          else if (o.map.get name).defaulted then
            match lookup mem b name with
            | some (.value v2) => some (.value (if !v2.empty && !v2.defaulted then v2 else o.map.get name))
            | r => r
          else some (.value (o.map.get name)) := by
  rw [← look_enough (n := mem.length + 2) (by omega), look]
  cases at? mem a with
  | none => rfl
  | some o =>
    dsimp only
    cases o.next with
    | none => rfl
    | some b => dsimp only; rfl

/-! ### What a finished lookup has come to -/

theorem answer_cons_empty {name : Str} {m : VarMap} {ms : List VarMap} {v : VarValue} (hm : ¬ Has m name) (h : Answer name ms v) :
    Answer name (m :: ms) v := by
  have hs : ¬ Sets m name := fun h => hm h.has
  cases h with
  | @explicit before x after r hb hx hr =>
    refine .explicit (before := m :: before) ?_ hx hr
    intro b hb'
    rcases List.mem_cons.1 hb' with rfl | hb'
    · exact hs
    · exact hb b hb'
  | @default before x after r ha hb hx hr =>
    refine .default (before := m :: before) ?_ ?_ hx hr
    · intro b hb'
      rcases List.mem_cons.1 (show b ∈ m :: (before ++ x :: after) from hb') with rfl | hb'
      · exact hs
      · exact ha b hb'
    · intro b hb'
      rcases List.mem_cons.1 hb' with rfl | hb'
      · exact hm
      · exact hb b hb'
  | nothing ha hr =>
    refine .nothing ?_ hr
    intro b hb'
    rcases List.mem_cons.1 hb' with rfl | hb'
    · exact hm
    · exact ha b hb'

theorem answer_explicit {name : Str} {ms : List VarMap} {v : VarValue} (h : Answer name ms v) :
    (!v.empty && !v.defaulted) = true ↔ ∃ m ∈ ms, Sets m name := by
  cases h with
  | @explicit before x after r hb hx hr =>
    refine iff_of_true ?_ ⟨x, by simp, hx⟩
    have := (sets_iff x name).1 hx
    rw [has_get hx.has] at hr; cases hr
    simp [this]
  | @default before x after r ha hb hx hr =>
    refine iff_of_false ?_ ?_
    · rw [has_get hx] at hr; cases hr
      have h1 := ha x (by simp)
      rw [sets_iff] at h1
      simpa using h1
    · rintro ⟨m, hm, hs⟩; exact ha m hm hs
  | nothing ha hr =>
    refine iff_of_false ?_ ?_
    · simp [VarValue.empty, hr]
    · rintro ⟨m, hm, hs⟩; exact ha m hm hs.has

theorem answer_cons_default {name : Str} {m : VarMap} {ms : List VarMap} {v : VarValue} (hm : Has m name) (hs : ¬ Sets m name) (h : Answer name ms v) :
    Answer name (m :: ms) (if !v.empty && !v.defaulted then v else m.get name) := by
  by_cases he : ∃ x ∈ ms, Sets x name
  · rw [if_pos ((answer_explicit h).2 he)]
    cases h with
    | @explicit before x after r hb hx hr =>
      refine .explicit (before := m :: before) ?_ hx hr
      intro b hb'
      rcases List.mem_cons.1 hb' with rfl | hb'
      · exact hs
      · exact hb b hb'
    | default ha => obtain ⟨x, h1, h2⟩ := he; exact absurd h2 (ha x h1)
    | nothing ha => obtain ⟨x, h1, h2⟩ := he; exact absurd h2.has (ha x h1)
  · rw [if_neg (fun hh => he ((answer_explicit h).1 hh))]
    refine .default (before := []) ?_ (fun _ hx => absurd hx List.not_mem_nil) hm (has_get hm)
    intro b hb
    rcases List.mem_cons.1 hb with rfl | hb
    · exact hs
    · exact fun hh => he ⟨b, hb, hh⟩

theorem lookup_value {mem : Memory} {name : Str} {p : Option Nat} {ms : List VarMap} {q : Option Nat} (h : Leads mem p ms q) (a : Nat) (hp : p = some a)
    (he : q = none ∨ ∃ m ∈ ms, Sets m name) : ∃ v, lookup mem a name = some (.value v) ∧ Answer name ms v := by
  induction h generalizing a with
  | stay =>
    subst hp
    rcases he with he | ⟨m, hm, -⟩
    · cases he
    · exact absurd hm List.not_mem_nil
  | @pass a' o ms q ho t ih =>
    cases hp
    rw [lookup_unfold, ho]
    dsimp only
    by_cases hs : Sets o.map name
    · have h1 := (sets_iff _ _).1 hs
      refine ⟨o.map.get name, ?_, .explicit (before := []) (fun _ hx => absurd hx List.not_mem_nil) hs (has_get hs.has)⟩
      cases o.next with
      | none => rfl
      | some b => dsimp only; rw [if_neg (by simp [h1]), if_neg (by simp [h1])]
    · cases hn : o.next with
      | none =>
        rw [hn] at t
        generalize hz : (none : Option Nat) = z at t
        cases t with
        | pass => cases hz
        | stay =>
          subst hz
          refine ⟨_, rfl, ?_⟩
          by_cases hh : Has o.map name
          · exact .default (before := []) (by simpa using hs) (fun _ hx => absurd hx List.not_mem_nil) hh (has_get hh)
          · refine .nothing (by simpa using hh) ?_
            rw [has_iff] at hh
            simpa [VarValue.empty] using hh
      | some b =>
        dsimp only
        have he' : q = none ∨ ∃ m ∈ ms, Sets m name := by
          rcases he with he | ⟨m, hm, h2⟩
          · exact .inl he
          · rcases List.mem_cons.1 hm with rfl | hm
            · exact absurd h2 hs
            · exact .inr ⟨m, hm, h2⟩
        obtain ⟨v, h1, h2⟩ := ih b hn he'
        rw [h1]
        by_cases hh : Has o.map name
        · have h3 := (has_iff _ _).1 hh
          have h4 : (o.map.get name).defaulted = true := by
            cases hd : (o.map.get name).defaulted with
            | true => rfl
            | false => exact absurd ((sets_iff _ _).2 ⟨h3, hd⟩) hs
          rw [if_neg (by simp [h3]), if_pos h4]
          exact ⟨_, rfl, answer_cons_default hh hs h2⟩
        · have h3 : (o.map.get name).empty = true := by
            cases hd : (o.map.get name).empty with
            | true => rfl
            | false => exact absurd ((has_iff _ _).2 hd) hh
          rw [if_pos h3]
          exact ⟨v, rfl, answer_cons_empty hh h2⟩

theorem look_value {mem : Memory} {name : Str} (n : Nat) (a : Nat) (v : VarValue) (h : look n mem a name = some (.value v)) :
    ∃ ms p, ms ≠ [] ∧ Leads mem (some a) ms p ∧ (p = none ∨ ∃ m ∈ ms, Sets m name) := by
  induction n generalizing a v with
  | zero => cases h
  | succ n ih =>
    rw [look] at h
    cases ho : at? mem a with
    | none => rw [ho] at h; cases h
    | some o =>
      rw [ho] at h
      dsimp only at h
      cases hn : o.next with
      | none => exact ⟨[o.map], none, by simp, .pass ho (hn ▸ .stay _), .inl rfl⟩
      | some b =>
        rw [hn] at h
        dsimp only at h
        by_cases hs : Sets o.map name
        · exact ⟨[o.map], some b, by simp, .pass ho (hn ▸ .stay _), .inr ⟨_, by simp, hs⟩⟩
        · have key : ∃ v', look n mem b name = some (.value v') := by
            split at h
            · exact ⟨v, h⟩
            · split at h
              · cases hl : look n mem b name with
                | none => rw [hl] at h; cases h
                | some x =>
                  cases x with
                  | value v' => exact ⟨v', rfl⟩
                  | dangling => rw [hl] at h; cases h
              · rename_i h1 h2
                exact absurd ((sets_iff _ _).2 ⟨by simpa using h1, by simpa using h2⟩) hs
          obtain ⟨v', h1⟩ := key
          obtain ⟨ms, p, -, h2, h3⟩ := ih b v' h1
          refine ⟨o.map :: ms, p, by simp, .pass ho (hn ▸ h2), ?_⟩
          rcases h3 with h3 | ⟨m, hm, h3⟩
          · exact .inl h3
          · exact .inr ⟨m, List.mem_cons_of_mem _ hm, h3⟩

theorem look_dangling {mem : Memory} {name : Str} (n : Nat) (a : Nat) (h : look n mem a name = some .dangling) :
    ∃ b, Reaches mem name a (some b) ∧ at? mem b = none := by
  induction n generalizing a with
  | zero => cases h
  | succ n ih =>
    rw [look] at h
    cases ho : at? mem a with
    | none => exact ⟨a, ⟨[], .stay _, fun _ hm => absurd hm List.not_mem_nil⟩, ho⟩
    | some o =>
      rw [ho] at h
      dsimp only at h
      cases hn : o.next with
      | none => rw [hn] at h; cases h
      | some b =>
        rw [hn] at h
        dsimp only at h
        have key : ¬ Sets o.map name ∧ look n mem b name = some .dangling := by
          rw [sets_iff]
          split at h
          · rename_i he; exact ⟨fun hh => (Bool.eq_false_iff.1 hh.1) he, h⟩
          · split at h
            · rename_i hd
              refine ⟨fun hh => (Bool.eq_false_iff.1 hh.2) hd, ?_⟩
              cases hl : look n mem b name with
              | none => rw [hl] at h; cases h
              | some x =>
                cases x with
                | value v' => rw [hl] at h; cases h
                | dangling => rfl
            · cases h
        obtain ⟨c, ⟨ms, h1, h2⟩, h3⟩ := ih b key.2
        refine ⟨c, ⟨o.map :: ms, .pass ho (hn ▸ h1), ?_⟩, h3⟩
        intro m hm
        rcases List.mem_cons.1 hm with rfl | hm
        · exact key.1
        · exact h2 m hm

theorem lookup_dangling {mem : Memory} {name : Str} {p : Option Nat} {ms : List VarMap} {q : Option Nat} (h : Leads mem p ms q) (a : Nat) (hp : p = some a)
    (hs : ∀ m ∈ ms, ¬ Sets m name) (b : Nat) (hq : q = some b) (hb : at? mem b = none) : lookup mem a name = some .dangling := by
  induction h generalizing a with
  | stay =>
    subst hp; cases hq
    rw [lookup_unfold, hb]
  | @pass a' o ms q ho t ih =>
    cases hp
    obtain ⟨c, hc⟩ := t.fromSome hq
    have h1 := ih c hc (fun m hm => hs m (List.mem_cons_of_mem _ hm)) hq
    rw [lookup_unfold, ho]
    dsimp only
    rw [hc]
    dsimp only
    rw [h1]
    have hs' := hs o.map (by simp)
    rw [sets_iff] at hs'
    split
    · rfl
    · split
      · rfl
      · rename_i h1 h2
        exact absurd ⟨by simpa using h1, by simpa using h2⟩ hs'

end PO
