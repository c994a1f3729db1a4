import Verif.Spec.Pointer
import Verif.Props.Exception
/-
C140: the pointers `what()` returns.
-/
namespace PO
open Spec Pointer
open Exception (Obj Call construct)

theorem at_lt' {m : Mem} {i : Nat} {x} (h : m.at? i = some x) : i < m.objs.length := by
  unfold Mem.at? at h
  cases hi : m.objs[i]? with
  | none => rw [hi] at h; cases h
  | some y => exact (List.getElem?_eq_some_iff.1 hi).1

theorem at_set' (m : Mem) (ptrs fresh) (i j : Nat) (v : Option (Obj × Nat)) (hi : i < m.objs.length) :
    (Mem.mk (m.objs.set i v) ptrs fresh).at? j = if j = i then v else m.at? j := by
  unfold Mem.at?
  dsimp only
  by_cases h : j = i
  · subst h; rw [if_pos rfl, List.getElem?_set_self hi]; rfl
  · rw [if_neg h, List.getElem?_set_ne (fun e => h e.symm)]

theorem at_append' (m : Mem) (ptrs fresh) (j : Nat) (v : Option (Obj × Nat)) :
    (Mem.mk (m.objs ++ [v]) ptrs fresh).at? j = if j = m.objs.length then v else m.at? j := by
  unfold Mem.at?
  dsimp only
  by_cases h : j = m.objs.length
  · subst h; rw [if_pos rfl, List.getElem?_append_right (Nat.le_refl _)]; simp
  · rw [if_neg h]
    by_cases h2 : j < m.objs.length
    · rw [List.getElem?_append_left h2]
    · rw [List.getElem?_eq_none (by simp; omega), List.getElem?_eq_none (by omega)]

/-- Buffers in use were handed out before. -/
def Numbered (m : Mem) : Prop := (∀ i o b, m.at? i = some (o, b) → b < m.fresh) ∧ ∀ (k i b : Nat), m.ptrs[k]? = some (i, b) → b < m.fresh ∧ i < m.objs.length

theorem numbered_step {m m' : Mem} {a : Pointer.Act} (h : Step m a m') (hn : Numbered m) : Numbered m' := by
  obtain ⟨n1, n2⟩ := hn
  cases h with
  | create =>
    refine ⟨fun i o b hi => ?_, fun k i b hk => ?_⟩
    · rw [at_append'] at hi
      split at hi
      · cases hi; exact Nat.lt_succ_self _
      · exact Nat.lt_succ_of_lt (n1 i o b hi)
    · have := n2 k i b hk
      exact ⟨Nat.lt_succ_of_lt this.1, by rw [List.length_append]; exact Nat.lt_add_right _ this.2⟩
  | tell h hc =>
    refine ⟨fun i o b hi => ?_, fun k i b hk => ?_⟩
    · rw [at_set' _ _ _ _ _ _ (at_lt' h)] at hi
      split at hi
      · cases hi; exact n1 _ _ _ h
      · exact n1 i o b hi
    · rw [List.length_set]; exact n2 k i b hk
  | what h hw =>
    refine ⟨fun i o b hi => ?_, fun k i b hk => ?_⟩
    · rw [at_set' _ _ _ _ _ _ (at_lt' h)] at hi
      split at hi
      · cases hi; exact Nat.lt_succ_self _
      · exact Nat.lt_succ_of_lt (n1 i o b hi)
    · rw [List.length_set]
      dsimp only at hk ⊢
      by_cases hl : k < m.ptrs.length
      · rw [List.getElem?_append_left hl] at hk
        have := n2 k i b hk
        exact ⟨Nat.lt_succ_of_lt this.1, this.2⟩
      · rw [List.getElem?_append_right (by omega)] at hk
        cases hx : k - m.ptrs.length with
        | zero => rw [hx] at hk; cases hk; exact ⟨Nat.lt_succ_self _, at_lt' h⟩
        | succ n => rw [hx] at hk; cases hk
  | copy h =>
    refine ⟨fun i o b hi => ?_, fun k i b hk => ?_⟩
    · rw [at_append'] at hi
      split at hi
      · cases hi; exact Nat.lt_succ_self _
      · exact Nat.lt_succ_of_lt (n1 i o b hi)
    · have := n2 k i b hk
      exact ⟨Nat.lt_succ_of_lt this.1, by rw [List.length_append]; exact Nat.lt_add_right _ this.2⟩
  | assign hi' hj hne =>
    refine ⟨fun i o b hi => ?_, fun k i b hk => ?_⟩
    · rw [at_set' _ _ _ _ _ _ (at_lt' hi')] at hi
      split at hi
      · cases hi; exact Nat.lt_succ_self _
      · exact Nat.lt_succ_of_lt (n1 i o b hi)
    · rw [List.length_set]
      have := n2 k i b hk
      exact ⟨Nat.lt_succ_of_lt this.1, this.2⟩
  | self => exact ⟨n1, n2⟩
  | destroy h =>
    refine ⟨fun i o b hi => ?_, fun k i b hk => ?_⟩
    · rw [at_set' _ _ _ _ _ _ (at_lt' h)] at hi
      split at hi
      · cases hi
      · exact n1 i o b hi
    · rw [List.length_set]; exact n2 k i b hk

theorem numbered_does {m m' : Mem} {acts : List Pointer.Act} (h : Does m acts m') (hn : Numbered m) : Numbered m' := by
  induction h with
  | done => exact hn
  | next hs _ ih => exact ih (numbered_step hs hn)

theorem numbered_empty : Numbered {} :=
  ⟨fun i o b h => by unfold Mem.at? at h; simp at h, fun k i b h => by simp at h⟩

theorem ptrs_step {m m' : Mem} {a : Pointer.Act} (h : Step m a m') {k : Nat} {p} (hk : m.ptrs[k]? = some p) : m'.ptrs[k]? = some p := by
  cases h with
  | what => exact (List.getElem?_append_left (List.getElem?_eq_some_iff.1 hk).1).trans hk
  | _ => exact hk

theorem told_message {o o' : Obj} {c : Call} (h : told o c = some o') : o'.message = o.message := by
  cases c with
  | setOptionName n => cases h; show (Exception.setOptionName o n).message = _; unfold Exception.setOptionName; split <;> rfl
  | addContext n t s =>
    cases h
    show (Exception.setOptionName o n).message = _; unfold Exception.setOptionName; split <;> rfl
  | what => cases h
  | _ => cases h; rfl

theorem read_eq {m : Mem} {k i b : Nat} {o : Obj} {b' : Nat} (hk : m.ptrs[k]? = some (i, b)) (ho : m.at? i = some (o, b')) :
    shows m k = if b = b' then some o.message else none := by unfold shows; rw [hk]; dsimp only; rw [ho]

theorem read_gone {m : Mem} {k i b : Nat} (hk : m.ptrs[k]? = some (i, b)) (ho : m.at? i = none) : shows m k = none := by
  unfold shows; rw [hk]; dsimp only; rw [ho]

/-- A statement that leaves the text leaves what the pointer shows. -/
theorem read_step {m m' : Mem} {a : Pointer.Act} (h : Step m a m') (hn : Numbered m) {k i b : Nat} (hk : m.ptrs[k]? = some (i, b)) :
    (LeavesText i a → shows m' k = shows m k) ∧ (¬ LeavesText i a → shows m' k = none) := by
  have hk' := ptrs_step h hk
  obtain ⟨hb, hil⟩ := hn.2 k i b hk
  have same : m'.at? i = m.at? i → shows m' k = shows m k := by intro e; unfold shows; rw [hk, hk']; dsimp only; rw [e]
  cases h with
  | create =>
    refine ⟨fun _ => same ?_, fun h => absurd trivial h⟩
    rw [at_append', if_neg (by omega)]
  | @tell j o bb c o' h hc =>
    refine ⟨fun _ => ?_, fun h => absurd trivial h⟩
    by_cases hj : i = j
    · subst hj
      have hs := at_set' m m.ptrs m.fresh i i (some (o', bb)) (at_lt' h)
      rw [if_pos rfl] at hs
      rw [read_eq hk' hs, read_eq hk h, told_message hc]
    · exact same (by rw [at_set' _ _ _ _ _ _ (at_lt' h), if_neg hj])
  | @what j o bb fuel o' h hw =>
    constructor
    · intro hj
      exact same (by rw [at_set' _ _ _ _ _ _ (at_lt' h), if_neg (fun e => hj e.symm)])
    · intro hj
      have hj : j = i := Decidable.byContradiction hj
      subst hj
      have hs := at_set' m (m.ptrs ++ [(j, m.fresh)]) (m.fresh + 1) j j (some (o', m.fresh)) (at_lt' h)
      rw [if_pos rfl] at hs
      rw [read_eq hk' hs, if_neg (by omega)]
  | copy h =>
    refine ⟨fun _ => same ?_, fun h => absurd trivial h⟩
    rw [at_append', if_neg (by omega)]
  | @assign j j' x o bb hi hj hne =>
    constructor
    · intro hl
      have hji : i ≠ j := by rintro rfl; exact hne (hl rfl).symm
      exact same (by rw [at_set' _ _ _ _ _ _ (at_lt' hi), if_neg hji])
    · intro hl
      have hji : j = i := Decidable.byContradiction fun e => hl fun x => absurd x e
      subst hji
      have hs := at_set' m m.ptrs (m.fresh + 1) j j (some (o, m.fresh)) (at_lt' hi)
      rw [if_pos rfl] at hs
      rw [read_eq hk' hs, if_neg (by omega)]
  | self => exact ⟨fun _ => rfl, fun h => absurd (fun e => e) h⟩
  | @destroy j x h =>
    constructor
    · intro hj
      exact same (by rw [at_set' _ _ _ _ _ _ (at_lt' h), if_neg (fun e => hj e.symm)])
    · intro hj
      have hj : j = i := Decidable.byContradiction hj
      subst hj
      refine read_gone hk' ?_
      rw [at_set' _ _ _ _ _ _ (at_lt' h), if_pos rfl]

/-- A pointer that shows no text never shows one again. -/
theorem read_lost {m m' : Mem} {acts : List Pointer.Act} (h : Does m acts m') (hn : Numbered m) {k : Nat} {p} (hk : m.ptrs[k]? = some p)
    (hr : shows m k = none) : shows m' k = none := by
  induction h with
  | done => exact hr
  | @next m m1 m2 a rest hs _ ih =>
    refine ih (numbered_step hs hn) (ptrs_step hs hk) ?_
    by_cases hl : LeavesText p.1 a
    · rw [(read_step hs hn hk).1 hl]; exact hr
    · exact (read_step hs hn hk).2 hl

theorem read_does {m m' : Mem} {acts : List Pointer.Act} (h : Does m acts m') (hn : Numbered m) {k i b : Nat} (hk : m.ptrs[k]? = some (i, b)) :
    ((∀ a ∈ acts, LeavesText i a) → shows m' k = shows m k) ∧ ((∃ a ∈ acts, ¬ LeavesText i a) → shows m' k = none) := by
  induction h with
  | done => exact ⟨fun _ => rfl, fun ⟨a, ha, _⟩ => absurd ha List.not_mem_nil⟩
  | @next m m1 m2 a rest hs ht ih =>
    obtain ⟨r1, r2⟩ := read_step hs hn hk
    have ih := ih (numbered_step hs hn) (ptrs_step hs hk)
    constructor
    · intro hl
      rw [ih.1 fun x hx => hl x (List.mem_cons_of_mem _ hx), r1 (hl a List.mem_cons_self)]
    · rintro ⟨x, hx, hl⟩
      by_cases ha : LeavesText i a
      · rcases List.mem_cons.1 hx with e | hx
        · exact absurd (e ▸ ha) hl
        · exact ih.2 ⟨x, hx, hl⟩
      · exact read_lost ht (numbered_step hs hn) (ptrs_step hs hk) (r2 ha)

/-- What `what()` returned is the text. -/
theorem read_what {m m1 : Mem} {i : Nat} (h : Step m (.what i) m1) :
    ∃ o b s, m.at? i = some (o, b) ∧ WhatSays o s ∧ m1.ptrs[m.ptrs.length]? = some (i, m.fresh) ∧ shows m1 m.ptrs.length = some s ∧
      ∃ o', m1.at? i = some (o', m.fresh) ∧ Exception.core o' = Exception.core o := by
  cases h with
  | @what _ o b fuel o' h hw =>
    have hs := at_set' m (m.ptrs ++ [(i, m.fresh)]) (m.fresh + 1) i i (some (o', m.fresh)) (at_lt' h)
    rw [if_pos rfl] at hs
    have hk : (m.ptrs ++ [(i, m.fresh)])[m.ptrs.length]? = some (i, m.fresh) := by
      rw [List.getElem?_append_right (Nat.le_refl _)]; simp
    exact ⟨o, b, o'.message, h, ⟨fuel, o', hw, rfl⟩, hk, by rw [read_eq hk hs, if_pos rfl], o', hs, Exception.core_what hw⟩

/-- **C140.** Whatever a program has done with its exceptions: the pointer that `what()` returns shows the text of the exception, and it shows it later exactly if the
exception was not asked again, assigned or destroyed meanwhile. -/
theorem C140_readable_iff (before : List Pointer.Act) (m m1 m2 : Mem) (hb : Does {} before m) (i : Nat) (hw : Step m (.what i) m1) (acts : List Pointer.Act)
    (ha : Does m1 acts m2) :
    ∃ o b s, m.at? i = some (o, b) ∧ WhatSays o s ∧
      ((∀ a ∈ acts, LeavesText i a) → shows m2 m.ptrs.length = some s) ∧ ((∃ a ∈ acts, ¬ LeavesText i a) → shows m2 m.ptrs.length = none) := by
  obtain ⟨o, b, s, h1, h2, h3, h4, -⟩ := read_what hw
  refine ⟨o, b, s, h1, h2, ?_⟩
  obtain ⟨r1, r2⟩ := read_does ha (numbered_step hw (numbered_does hb numbered_empty)) h3
  exact ⟨fun hl => (r1 hl).trans h4, r2⟩

/-- The claim: as for the standard exceptions, the pointer shows the text until the exception is changed by a non-const member function, assigned or
destroyed. -/
def PointersStay : Prop :=
  ∀ (before : List Pointer.Act) (m m1 m2 : Mem) (i : Nat) (acts : List Pointer.Act), Does {} before m → Step m (.what i) m1 → (∀ a ∈ acts, ConstFor i a) →
    Does m1 acts m2 → shows m2 m.ptrs.length = shows m1 m.ptrs.length

/-- It does as long as the exception is not asked again. -/
theorem C140_stay_partial (before : List Pointer.Act) (m m1 m2 : Mem) (i : Nat) (acts : List Pointer.Act) (hb : Does {} before m) (hw : Step m (.what i) m1)
    (hc : ∀ a ∈ acts, ConstFor i a) (hn : .what i ∉ acts) (ha : Does m1 acts m2) : shows m2 m.ptrs.length = shows m1 m.ptrs.length := by
  obtain ⟨o, b, s, h1, h2, h3, h4, -⟩ := read_what hw
  refine (read_does ha (numbered_step hw (numbered_does hb numbered_empty)) h3).1 fun a hx => ?_
  have := hc a hx
  cases a with
  | what j => rintro rfl; exact hn hx
  | tell j c => trivial
  | create => trivial
  | copy j => trivial
  | assign j k => exact this
  | destroy j => exact this

theorem core_const {m m' : Mem} {a : Pointer.Act} (h : Step m a m') {i : Nat} (hc : ConstFor i a) {o : Obj} {b : Nat} (ho : m.at? i = some (o, b)) :
    ∃ o' b', m'.at? i = some (o', b') ∧ Exception.core o' = Exception.core o := by
  have hil := at_lt' ho
  cases h with
  | create => exact ⟨o, b, by rw [at_append', if_neg (by omega)]; exact ho, rfl⟩
  | tell h _ => exact ⟨o, b, by rw [at_set' _ _ _ _ _ _ (at_lt' h), if_neg (fun e => hc e.symm)]; exact ho, rfl⟩
  | @what j o2 b2 fuel o3 h hw =>
    by_cases hj : i = j
    · subst hj
      rw [h] at ho; cases ho
      exact ⟨o3, m.fresh, by rw [at_set' _ _ _ _ _ _ (at_lt' h), if_pos rfl], Exception.core_what hw⟩
    · exact ⟨o, b, by rw [at_set' _ _ _ _ _ _ (at_lt' h), if_neg hj]; exact ho, rfl⟩
  | copy h => exact ⟨o, b, by rw [at_append', if_neg (by omega)]; exact ho, rfl⟩
  | @assign j k x o2 b2 hi hj hne =>
    have hji : i ≠ j := by rintro rfl; exact hne (hc rfl).symm
    exact ⟨o, b, by rw [at_set' _ _ _ _ _ _ (at_lt' hi), if_neg hji]; exact ho, rfl⟩
  | self => exact ⟨o, b, ho, rfl⟩
  | destroy h => exact ⟨o, b, by rw [at_set' _ _ _ _ _ _ (at_lt' h), if_neg (fun e => hc e.symm)]; exact ho, rfl⟩

theorem core_consts {m m' : Mem} {acts : List Pointer.Act} (h : Does m acts m') {i : Nat} (hc : ∀ a ∈ acts, ConstFor i a) {o : Obj} {b : Nat}
    (ho : m.at? i = some (o, b)) : ∃ o' b', m'.at? i = some (o', b') ∧ Exception.core o' = Exception.core o := by
  induction h generalizing o b with
  | done => exact ⟨o, b, ho, rfl⟩
  | next hs _ ih =>
    obtain ⟨o1, b1, h1, e1⟩ := core_const hs (hc _ List.mem_cons_self) ho
    obtain ⟨o2, b2, h2, e2⟩ := ih (fun a ha => hc a (List.mem_cons_of_mem _ ha)) h1
    exact ⟨o2, b2, h2, e2.trans e1⟩

/-- Asking again while only const member functions were called gives a new pointer, to the same text. -/
theorem C140_again (m m1 m2 m3 : Mem) (i : Nat) (acts : List Pointer.Act) (hw : Step m (.what i) m1) (hc : ∀ a ∈ acts, ConstFor i a)
    (ha : Does m1 acts m2) (hw2 : Step m2 (.what i) m3) : ∃ s, shows m1 m.ptrs.length = some s ∧ shows m3 m2.ptrs.length = some s := by
  obtain ⟨o, b, s, h1, h2, -, h4, o', h5, h6⟩ := read_what hw
  obtain ⟨p, c, t, g1, g2, -, g4, -⟩ := read_what hw2
  obtain ⟨q, d, k1, k2⟩ := core_consts ha hc h5
  rw [g1] at k1; cases k1
  refine ⟨s, h4, ?_⟩
  rw [Exception.whatSays_core, k2, h6, ← Exception.whatSays_core] at g2
  rw [g4, C134_unique o t s g2 h2]

/-- A copy keeps its own text: asking the copy, or destroying it, does not touch the pointers of the original. -/
theorem C140_copy (before : List Pointer.Act) (m m1 m2 m3 : Mem) (i : Nat) (hb : Does {} before m) (hw : Step m (.what i) m1) (hc : Step m1 (.copy i) m2)
    (rest : List Pointer.Act) (ho : ∀ a ∈ rest, a = .what m1.objs.length ∨ a = .destroy m1.objs.length ∨ ∃ c, a = .tell m1.objs.length c) (hd : Does m2 rest m3) :
    shows m3 m.ptrs.length = shows m1 m.ptrs.length := by
  obtain ⟨o, b, s, h1, h2, h3, h4, o', h5, -⟩ := read_what hw
  have hi : i < m1.objs.length := at_lt' h5
  have nm := numbered_step hw (numbered_does hb numbered_empty)
  refine (read_does (.next hc hd) nm h3).1 fun a hx => ?_
  rcases List.mem_cons.1 hx with rfl | hx
  · trivial
  · rcases ho a hx with rfl | rfl | ⟨c, rfl⟩
    · exact fun e => absurd e (by omega)
    · exact fun e => absurd e (by omega)
    · trivial

/-! ### Witness -/

namespace Ex.Pointer
open Test

/-- `program_options::required_option e("--need")` -/
def need : Obj := construct none true (str% "the option '%canonical_option%' is required but missing") (str% "need") [] 0

def asked : Obj := { need with message := str% "the option 'need' is required but missing" }

theorem need_asked : Exception.what 10 need = some asked := by decide
theorem asked_again : Exception.what 10 asked = some asked := by decide

def m0 : Mem := { objs := [some (need, 0)], fresh := 1 }
def m1 : Mem := { objs := [some (asked, 1)], ptrs := [(0, 1)], fresh := 2 }
def m2 : Mem := { objs := [some (asked, 2)], ptrs := [(0, 1), (0, 2)], fresh := 3 }

def new : Pointer.Act := .create none true (str% "the option '%canonical_option%' is required but missing") (str% "need") [] 0

theorem d0 : Does {} [new] m0 := .next (.create {} _ _ _ _ _ _) (.done _)
theorem s1 : Step m0 (.what 0) m1 := .what (m := m0) (i := 0) rfl need_asked
theorem s2 : Step m1 (.what 0) m2 := .what (m := m1) (i := 0) rfl asked_again

end Ex.Pointer

open Ex.Pointer in
/-- **The code disagrees**: `const char* p = e.what(); e.what();` and `p` points to nothing any more. -/
theorem C140_negation : ¬ PointersStay := by
  intro h
  have := h [new] m0 m1 m2 0 [.what 0] d0 s1 (by intro a ha; rw [List.mem_singleton] at ha; subst ha; trivial) (.next s2 (.done _))
  have e1 : shows m2 m0.ptrs.length = none := by decide
  have e2 : shows m1 m0.ptrs.length ≠ none := by decide
  exact e2 (this ▸ e1)

open Ex.Pointer in
/-- The text is read through the first pointer, and after the second call through the second one only. -/
example : shows m1 0 = some (str% "the option 'need' is required but missing") ∧ shows m2 0 = none ∧
    shows m2 1 = some (str% "the option 'need' is required but missing") := by decide

open Ex.Pointer in
/-- Telling the exception something else leaves the text that was asked for. -/
example : ∃ m, Step m1 (.tell 0 (.setOptionName (str% "other"))) m ∧ shows m 0 = some (str% "the option 'need' is required but missing") :=
  ⟨_, .tell (m := m1) (i := 0) rfl rfl, by decide⟩

end PO
