import Verif.Model.Threads
import Verif.Props.Placeholders
/-
One exception asked by several threads (C146).
-/
namespace PO
open Spec Exception Threads

namespace Spec

/-- Calls do not overlap: a thread takes a step only while all the others are in no call and have read what they were given. -/
def OneAtATime (template : Str) (calls : List (Str × Str × Str)) : Threads.State → List Nat → Prop
  | _, [] => True
  | s, i :: is => (∀ j, j ≠ i → s.place j = .idle) ∧ ∀ s', Threads.step template calls s i = some s' → OneAtATime template calls s' is

/-- The program has not been ended, and every text that was read by any thread is `m`. -/
def AllRead (s : Option Threads.State) (m : Str) : Prop := ∃ s', s = some s' ∧ ∀ i, ∀ x ∈ s'.read i, x = m

end Spec

namespace Threads

theorem place_goto (s : State) (i j : Nat) (p : Place) : (s.goto i p).place j = if j = i then p else s.place j := rfl

theorem applySubsts_iff (ss : SMap Str) (t r : Str) :
    (∃ f, applySubsts f ss t = some r) ↔ RewordedAll (ss.map fun p => (p.1, '%' :: p.1 ++ ['%'], p.2)) t r := by
  induction ss generalizing t with
  | nil =>
    constructor
    · rintro ⟨f, h⟩; cases h; exact .nil _
    · intro h; cases h; exact ⟨0, rfl⟩
  | cons p ss ih =>
    obtain ⟨k, v⟩ := p
    constructor
    · rintro ⟨f, h⟩
      rw [applySubsts] at h
      cases h1 : replaceToken f t ('%' :: k ++ ['%']) v with
      | none => rw [h1] at h; exact nomatch h
      | some t1 =>
        rw [h1] at h
        exact .cons ((replaceToken_iff _ v t t1).1 ⟨f, h1⟩) ((ih t1).1 ⟨f, h⟩)
    · intro h
      cases h with
      | @cons _ _ _ _ _ t1 _ h hs =>
        obtain ⟨f, hf⟩ := (replaceToken_iff _ v t t1).2 h
        obtain ⟨g, hg⟩ := (ih t1).2 hs
        refine ⟨f + g, ?_⟩
        rw [applySubsts, replaceToken_mono g hf]
        dsimp only
        rw [Nat.add_comm]
        exact applySubsts_mono f _ _ _ hg

theorem rewordedAll_append {a b : List (Str × Str × Str)} {t u r : Str} (h1 : RewordedAll a t u) (h2 : RewordedAll b u r) : RewordedAll (a ++ b) t r := by
  induction h1 with
  | nil => exact h2
  | cons h _ ih => exact .cons h (ih h2)

theorem assigned_eq (o : Obj) : assigned o = fullTemplate o := by
  unfold assigned fullTemplate
  cases o.alternatives <;> rfl

/-- What one call alone makes of the template. -/
theorem plan_says {o : Obj} {m t : Str} {calls : List (Str × Str × Str)} (hw : WhatSays o m) (hp : plan o = some (t, calls)) : RewordedAll calls t m := by
  obtain ⟨t', ht, f, hf⟩ := (whatSays_iff o m).1 hw
  unfold plan at hp
  rw [assigned_eq, ht] at hp
  unfold saying at hf
  cases hn : optionName o with
  | none => rw [hn] at hf; exact nomatch hf
  | some name =>
    cases hpre : optionPrefix o with
    | none => rw [hn, hpre] at hf; exact nomatch hf
    | some pre =>
      rw [hn, hpre] at hf hp
      dsimp only at hf hp
      injection hp with hp
      injection hp with e1 e2
      subst e1 e2
      cases hd : applyDefaults f ((o.subst.set (str% "canonical_option") name).set (str% "prefix") pre) o.defaults t' with
      | none => rw [hd] at hf; exact nomatch hf
      | some u =>
        rw [hd] at hf
        exact rewordedAll_append ((applyDefaults_iff _ _ _ _).1 ⟨f, hd⟩) ((applySubsts_iff _ _ _).1 ⟨f, hf⟩)

theorem plan_isSome {o : Obj} {m : Str} (hw : WhatSays o m) : ∃ t calls, plan o = some (t, calls) := by
  obtain ⟨t', ht, f, hf⟩ := (whatSays_iff o m).1 hw
  unfold plan
  rw [assigned_eq, ht]
  unfold saying at hf
  cases hn : optionName o with
  | none => rw [hn] at hf; exact nomatch hf
  | some name =>
    cases hpre : optionPrefix o with
    | none => rw [hn, hpre] at hf; exact nomatch hf
    | some pre => exact ⟨_, _, rfl⟩

theorem reworded_found {src dst t r : Str} {p : Nat} (h : Reworded src dst t r) (hf : findSub t src = some p) :
    Reworded src dst (t.take p ++ dst ++ t.drop (p + src.length)) r := by
  obtain ⟨f, h⟩ := (replaceToken_iff _ _ _ _).2 h
  unfold replaceToken at h
  rw [hf] at h
  cases f with
  | zero => exact nomatch h
  | succ f => exact (replaceToken_iff _ _ _ _).1 ⟨f, h⟩

theorem reworded_absent {src dst t r : Str} (h : Reworded src dst t r) (hf : ¬ src <:+: t) : r = t := by
  cases h with
  | done => rfl
  | first a b _ _ => exact absurd ⟨a, b, rfl⟩ hf

theorem findSub_in {t src : Str} {p : Nat} (h : findSub t src = some p) : p ≤ t.length := by
  have e := findSub_least h
  have := findSub_eq_some h
  have h2 := e (t.take p) ⟨_, this.symm⟩
  rw [List.length_take] at h2
  omega

/-- A thread at this place will read `m` if it is left alone. -/
def Leads (m msg : Str) : Place → Prop
  | .idle => True
  | .search cs => RewordedAll cs msg m
  | .put pos k src dst cs => findSub msg src = some pos ∧ RewordedAll ((k, src, dst) :: cs) msg m
  | .returned => msg = m

theorem step_alone {t m : Str} {calls : List (Str × Str × Str)} (hc : RewordedAll calls t m) {s : State} {i : Nat} (hl : Leads m s.message (s.place i)) :
    ∃ s', step t calls s i = some s' ∧ Leads m s'.message (s'.place i) ∧ (∀ j, j ≠ i → s'.place j = s.place j) ∧
      (∀ j, s'.read j = s.read j ∨ j = i ∧ s'.read j = m :: s.read j) := by
  unfold step
  cases hp : s.place i with
  | idle =>
    refine ⟨_, rfl, ?_, fun j hj => ?_, fun j => .inl rfl⟩
    · rw [place_goto, if_pos rfl]; exact hc
    · rw [place_goto, if_neg hj]
  | returned =>
    rw [hp] at hl
    refine ⟨_, rfl, ?_, fun j hj => ?_, fun j => ?_⟩
    · rw [place_goto, if_pos rfl]; trivial
    · rw [place_goto, if_neg hj]
    · by_cases e : j = i
      · refine .inr ⟨e, ?_⟩
        show (if j = i then s.message :: s.read j else s.read j) = _
        rw [if_pos e, show s.message = m from hl]
      · refine .inl ?_
        show (if j = i then s.message :: s.read j else s.read j) = _
        rw [if_neg e]
  | put pos k src dst cs =>
    rw [hp] at hl
    obtain ⟨hf, hr⟩ := hl
    dsimp only
    rw [if_pos (findSub_in hf)]
    refine ⟨_, rfl, ?_, fun j hj => ?_, fun j => .inl rfl⟩
    · rw [place_goto, if_pos rfl]
      cases hr with
      | cons h hs => exact .cons (reworded_found h hf) hs
    · rw [place_goto, if_neg hj]
  | search cs =>
    rw [hp] at hl
    cases cs with
    | nil =>
      refine ⟨_, rfl, ?_, fun j hj => ?_, fun j => .inl rfl⟩
      · rw [place_goto, if_pos rfl]; cases hl; rfl
      · rw [place_goto, if_neg hj]
    | cons c cs =>
      obtain ⟨k, src, dst⟩ := c
      dsimp only
      cases hf : findSub s.message src with
      | none =>
        refine ⟨_, rfl, ?_, fun j hj => ?_, fun j => .inl rfl⟩
        · rw [place_goto, if_pos rfl]
          cases hl with
          | cons h hs => rw [reworded_absent h (findSub_eq_none.1 hf)] at hs; exact hs
        · rw [place_goto, if_neg hj]
      | some p =>
        refine ⟨_, rfl, ?_, fun j hj => ?_, fun j => .inl rfl⟩
        · rw [place_goto, if_pos rfl]; exact ⟨hf, hl⟩
        · rw [place_goto, if_neg hj]

theorem run_apart {t m : Str} {calls : List (Str × Str × Str)} (hc : RewordedAll calls t m) (is : List Nat) (s : State)
    (ho : OneAtATime t calls s is) (hl : ∀ i, s.place i ≠ .idle → (∀ j, j ≠ i → s.place j = .idle) → Leads m s.message (s.place i))
    (hr : ∀ i, ∀ x ∈ s.read i, x = m) : AllRead (run t calls s is) m := by
  induction is generalizing s with
  | nil => exact ⟨s, rfl, hr⟩
  | cons i is ih =>
    obtain ⟨h1, h2⟩ := ho
    have hi : Leads m s.message (s.place i) := by
      by_cases e : s.place i = .idle
      · rw [e]; trivial
      · exact hl i e h1
    obtain ⟨s', e, a, b, c⟩ := step_alone hc hi
    unfold run
    rw [e, Option.bind_some]
    refine ih s' (h2 s' e) (fun j hj _ => ?_) (fun j x hx => ?_)
    · by_cases ej : j = i
      · rw [ej]; exact a
      · exact absurd ((b j ej).trans (h1 j ej)) hj
    · rcases c j with e' | ⟨_, e'⟩
      · rw [e'] at hx; exact hr j x hx
      · rw [e'] at hx
        rcases List.mem_cons.1 hx with rfl | hx
        · rfl
        · exact hr j x hx

theorem run_append (t : Str) (calls : List (Str × Str × Str)) (s : State) (a b : List Nat) : run t calls s (a ++ b) = (run t calls s a).bind fun s => run t calls s b := by
  induction a generalizing s with
  | nil => rfl
  | cons i a ih =>
    show ((step t calls s i).bind fun s => run t calls s (a ++ b)) = ((step t calls s i).bind fun s => run t calls s a).bind _
    cases step t calls s i with
    | none => rfl
    | some s' => exact ih s'

/-- What has become of a state after steps of thread `i` in which it read nothing. -/
def Moves (t : Str) (calls : List (Str × Str × Str)) (i : Nat) (s : State) (p : Place) (msg : Str) : Prop :=
  ∃ n s', run t calls s (List.replicate n i) = some s' ∧ s'.place i = p ∧ s'.message = msg ∧ (∀ j, j ≠ i → s'.place j = s.place j) ∧ s'.read = s.read

theorem Moves.refl (t : Str) (calls : List (Str × Str × Str)) (i : Nat) (s : State) : Moves t calls i s (s.place i) s.message :=
  ⟨0, s, rfl, rfl, rfl, fun _ _ => rfl, rfl⟩

theorem Moves.cons {t : Str} {calls : List (Str × Str × Str)} {i : Nat} {s s' : State} {p : Place} {msg : Str} (h : step t calls s i = some s')
    (hr : s'.read = s.read) (hj : ∀ j, j ≠ i → s'.place j = s.place j) (hm : Moves t calls i s' p msg) : Moves t calls i s p msg := by
  obtain ⟨n, s2, a, b, c, d, e⟩ := hm
  refine ⟨n + 1, s2, ?_, b, c, fun j h => (d j h).trans (hj j h), e.trans hr⟩
  show ((step t calls s i).bind fun s => run t calls s (List.replicate n i)) = _
  rw [h]; exact a

theorem Moves.trans {t : Str} {calls : List (Str × Str × Str)} {i : Nat} {s : State} {p q : Place} {m1 m2 : Str} (h1 : Moves t calls i s p m1)
    (h2 : ∀ s' : State, s'.place i = p → s'.message = m1 → Moves t calls i s' q m2) : Moves t calls i s q m2 := by
  obtain ⟨n, s1, a, b, c, d, e⟩ := h1
  obtain ⟨n2, s2, a2, b2, c2, d2, e2⟩ := h2 s1 b c
  refine ⟨n + n2, s2, ?_, b2, c2, fun j h => (d2 j h).trans (d j h), e2.trans e⟩
  rw [← List.replicate_append_replicate, run_append, a]; exact a2

theorem moves_found {t : Str} {calls : List (Str × Str × Str)} {i : Nat} {s : State} {k src dst : Str} {cs : List (Str × Str × Str)} {pos : Nat}
    (hp : s.place i = .search ((k, src, dst) :: cs)) (hf : findSub s.message src = some pos) :
    Moves t calls i s (.search ((k, src, dst) :: cs)) (s.message.take pos ++ dst ++ s.message.drop (pos + src.length)) := by
  refine .cons (s' := s.goto i (.put pos k src dst cs)) (by unfold step; rw [hp]; dsimp only; rw [hf]) rfl (fun j hj => if_neg hj) ?_
  refine .cons (s' := ({ (s.goto i (.put pos k src dst cs)) with message := s.message.take pos ++ dst ++ s.message.drop (pos + src.length) } : State).goto i (.search ((k, src, dst) :: cs)))
    ?_ rfl (fun j hj => if_neg hj) ?_
  · unfold step
    rw [place_goto, if_pos rfl]
    dsimp only
    rw [if_pos (show pos ≤ (s.goto i _).message.length from findSub_in hf)]
    rfl
  · have := Moves.refl t calls i (({ (s.goto i (.put pos k src dst cs)) with message := s.message.take pos ++ dst ++ s.message.drop (pos + src.length) } : State).goto i (.search ((k, src, dst) :: cs)))
    rw [place_goto, if_pos rfl] at this
    exact this

theorem moves_absent {t : Str} {calls : List (Str × Str × Str)} {i : Nat} {s : State} {k src dst : Str} {cs : List (Str × Str × Str)}
    (hp : s.place i = .search ((k, src, dst) :: cs)) (hf : findSub s.message src = none) : Moves t calls i s (.search cs) s.message := by
  refine .cons (s' := s.goto i (.search cs)) (by unfold step; rw [hp]; dsimp only; rw [hf]) rfl (fun j hj => if_neg hj) ?_
  have := Moves.refl t calls i (s.goto i (.search cs))
  rw [place_goto, if_pos rfl] at this
  exact this

theorem moves_token {t : Str} {calls : List (Str × Str × Str)} {i : Nat} {k src dst : Str} {cs : List (Str × Str × Str)} (f : Nat) {r : Str} (s : State)
    (hp : s.place i = .search ((k, src, dst) :: cs)) (h : replaceToken f s.message src dst = some r) : Moves t calls i s (.search cs) r := by
  induction f generalizing s with
  | zero =>
    unfold replaceToken at h
    cases hf : findSub s.message src with
    | none => rw [hf] at h; cases h; exact moves_absent hp hf
    | some pos => rw [hf] at h; exact nomatch h
  | succ f ih =>
    unfold replaceToken at h
    cases hf : findSub s.message src with
    | none => rw [hf] at h; cases h; exact moves_absent hp hf
    | some pos =>
      rw [hf] at h
      exact (moves_found hp hf).trans fun s' a b => ih s' a (by rw [b]; exact h)

theorem moves_all {t : Str} {calls : List (Str × Str × Str)} {i : Nat} {cs : List (Str × Str × Str)} {u r : Str} (h : RewordedAll cs u r) (rest : List (Str × Str × Str)) (s : State)
    (hp : s.place i = .search (cs ++ rest)) (hm : s.message = u) : Moves t calls i s (.search rest) r := by
  induction h generalizing s with
  | nil u => have := Moves.refl t calls i s; rw [hp, hm] at this; exact this
  | @cons k src dst ds u u1 r h _ ih =>
    obtain ⟨f, hf⟩ := (replaceToken_iff _ _ _ _).2 h
    exact (moves_token (t := t) (calls := calls) f s hp (by rw [hm]; exact hf)).trans fun s' a b => ih s' a b

theorem moves_start {t : Str} {calls : List (Str × Str × Str)} {i : Nat} {s : State} (hp : s.place i = .idle) : Moves t calls i s (.search calls) t := by
  refine .cons (s' := ({ s with message := t } : State).goto i (.search calls)) (by unfold step; rw [hp]) rfl (fun j hj => if_neg hj) ?_
  have := Moves.refl t calls i (({ s with message := t } : State).goto i (.search calls))
  rw [place_goto, if_pos rfl] at this
  exact this

theorem moves_return {t : Str} {calls : List (Str × Str × Str)} {i : Nat} {s : State} (hp : s.place i = .search []) : Moves t calls i s .returned s.message := by
  refine .cons (s' := s.goto i .returned) (by unfold step; rw [hp]) rfl (fun j hj => if_neg hj) ?_
  have := Moves.refl t calls i (s.goto i .returned)
  rw [place_goto, if_pos rfl] at this
  exact this

/-- A call that is left alone comes to its end. -/
theorem moves_call {t m : Str} {calls : List (Str × Str × Str)} (hc : RewordedAll calls t m) {i : Nat} {s : State} (hp : s.place i = .idle) :
    Moves t calls i s .returned m :=
  (moves_start hp).trans fun s1 a b => (moves_all hc [] s1 (by rw [List.append_nil]; exact a) b).trans fun s2 a b => by
    have := moves_return (t := t) (calls := calls) a
    rw [b] at this
    exact this

/-- A thread that has its pointer reads whatever another thread has just made of the text. -/
theorem read_between {t m msg : Str} {calls : List (Str × Str × Str)} (hc : RewordedAll calls t m) (s : State) (hs : ∀ i, s.place i = .idle)
    {p : Place} (h : ∀ s' : State, s'.place 1 = .idle → Moves t calls 1 s' p msg) :
    ∃ is s', run t calls s is = some s' ∧ msg ∈ s'.read 0 := by
  obtain ⟨n, s1, a, b, c, d, e⟩ := moves_call hc (i := 0) (hs 0)
  obtain ⟨n2, s2, a2, b2, c2, d2, e2⟩ := h s1 ((d 1 (by omega)).trans (hs 1))
  refine ⟨List.replicate n 0 ++ (List.replicate n2 1 ++ [0]),
    ({ s2 with read := fun j => if j = 0 then s2.message :: s2.read j else s2.read j } : State).goto 0 .idle, ?_, ?_⟩
  · rw [run_append, a, Option.bind_some, run_append, a2, Option.bind_some]
    have hp : s2.place 0 = .returned := (d2 0 (by omega)).trans b
    show ((step t calls s2 0).bind fun s => run t calls s []) = _
    unfold step
    rw [hp]; rfl
  · show msg ∈ (if (0 : Nat) = 0 then s2.message :: s2.read 0 else s2.read 0)
    rw [if_pos rfl, c2]; simp

theorem rewordedAll_absent {cs : List (Str × Str × Str)} {t : Str} (h : ∀ c ∈ cs, ¬ c.2.1 <:+: t) : RewordedAll cs t t := by
  induction cs with
  | nil => exact .nil _
  | cons c cs ih =>
    obtain ⟨k, src, dst⟩ := c
    exact .cons (.done (h (k, src, dst) (by simp))) (ih fun c hc => h c (by simp [hc]))

theorem rewordedAll_absent_eq {cs rest : List (Str × Str × Str)} {t r : Str} (h : ∀ c ∈ cs, ¬ c.2.1 <:+: t) (hr : RewordedAll (cs ++ rest) t r) : RewordedAll rest t r := by
  induction cs with
  | nil => exact hr
  | cons c cs ih =>
    cases hr with
    | cons h1 h2 =>
      refine ih (fun c hc => h c (by simp [hc])) ?_
      rw [reworded_absent h1 (h (_, _, _) (List.mem_cons_self ..))] at h2
      exact h2

/-- The first of the calls that finds something. -/
theorem first_present {cs : List (Str × Str × Str)} {t : Str} (h : ¬ ∀ c ∈ cs, ¬ c.2.1 <:+: t) :
    ∃ a c b, cs = a ++ c :: b ∧ (∀ c ∈ a, ¬ c.2.1 <:+: t) ∧ c.2.1 <:+: t := by
  induction cs with
  | nil => exact absurd (fun c hc => nomatch hc) h
  | cons c cs ih =>
    by_cases hc : c.2.1 <:+: t
    · exact ⟨[], c, cs, rfl, (fun c hc => nomatch hc), hc⟩
    · obtain ⟨a, c', b, e, h1, h2⟩ := ih fun h' => h fun x hx => by
        rcases List.mem_cons.1 hx with rfl | hx
        · exact hc
        · exact h' x hx
      refine ⟨c :: a, c', b, by rw [e]; rfl, fun x hx => ?_, h2⟩
      rcases List.mem_cons.1 hx with rfl | hx
      · exact hc
      · exact h1 x hx

/-- Where nothing is ever found, all threads see the template. -/
def Still (t : Str) (s : State) (i : Nat) : Prop :=
  s.place i = .idle ∨ s.message = t ∧ ((∃ cs, s.place i = .search cs ∧ ∀ c ∈ cs, ¬ c.2.1 <:+: t) ∨ s.place i = .returned)

theorem run_still {t : Str} {calls : List (Str × Str × Str)} (hc : ∀ c ∈ calls, ¬ c.2.1 <:+: t) (is : List Nat) (s : State) (hs : ∀ i, Still t s i)
    (hr : ∀ i, ∀ x ∈ s.read i, x = t) : AllRead (run t calls s is) t := by
  induction is generalizing s with
  | nil => exact ⟨s, rfl, hr⟩
  | cons i is ih =>
    have key : ∃ s', step t calls s i = some s' ∧ (∀ i, Still t s' i) ∧ ∀ i, ∀ x ∈ s'.read i, x = t := by
      unfold step
      rcases hs i with hp | ⟨hm, ⟨cs, hp, hcs⟩ | hp⟩
      · rw [hp]
        refine ⟨_, rfl, fun j => ?_, hr⟩
        by_cases e : j = i
        · exact .inr ⟨rfl, .inl ⟨calls, by rw [place_goto, if_pos e], hc⟩⟩
        · rcases hs j with hj | ⟨_, hj⟩
          · exact .inl (by rw [place_goto, if_neg e]; exact hj)
          · refine .inr ⟨rfl, ?_⟩
            rw [place_goto, if_neg e]; exact hj
      · rw [hp]
        have others : ∀ q : Place, ∀ j, j ≠ i → Still t (s.goto i q) j := by
          intro q j e
          unfold Still
          rw [place_goto, if_neg e]
          exact hs j
        cases cs with
        | nil =>
          refine ⟨_, rfl, fun j => ?_, hr⟩
          by_cases e : j = i
          · exact .inr ⟨hm, .inr (by rw [place_goto, if_pos e])⟩
          · exact others _ j e
        | cons c cs =>
          obtain ⟨k, src, dst⟩ := c
          dsimp only
          rw [hm, findSub_eq_none.2 (hcs (k, src, dst) (by simp))]
          refine ⟨_, rfl, fun j => ?_, hr⟩
          by_cases e : j = i
          · exact .inr ⟨hm, .inl ⟨cs, by rw [place_goto, if_pos e], fun c hc => hcs c (by simp [hc])⟩⟩
          · exact others _ j e
      · rw [hp]
        refine ⟨_, rfl, fun j => ?_, fun j x hx => ?_⟩
        · by_cases e : j = i
          · exact .inl (by rw [place_goto, if_pos e])
          · unfold Still
            rw [place_goto, if_neg e]
            exact hs j
        · have hx : x ∈ (if j = i then s.message :: s.read j else s.read j) := hx
          by_cases e : j = i
          · rw [if_pos e] at hx
            rcases List.mem_cons.1 hx with rfl | hx
            · exact hm
            · exact hr j x hx
          · rw [if_neg e] at hx; exact hr j x hx
    obtain ⟨s', e, h1, h2⟩ := key
    unfold run
    rw [e]
    exact ih s' h1 h2

end Threads

/-- Calls of `what()` by any number of threads, each as often as it likes, that do not overlap: nothing ends the program, and every thread reads the
message. -/
theorem C146_apart_partial (o : Obj) (m : Str) (hw : WhatSays o m) :
    ∃ t calls, plan o = some (t, calls) ∧ ∀ is, OneAtATime t calls (State.start o) is → AllRead (run t calls (State.start o) is) m := by
  obtain ⟨t, calls, hp⟩ := plan_isSome hw
  refine ⟨t, calls, hp, fun is ho => run_apart (plan_says hw hp) is _ ho (fun i hi => absurd rfl hi) fun i x hx => nomatch hx⟩

/-- Exactly when threads need not wait for each other: when nothing in the template is replaced. Otherwise two threads are enough for one of them
to read something else. -/
theorem C146_iff (o : Obj) (m : Str) (hw : WhatSays o m) :
    ∃ t calls, plan o = some (t, calls) ∧
      ((∀ is, AllRead (run t calls (State.start o) is) m) ↔ ∀ c ∈ calls, ¬ c.2.1 <:+: t) := by
  obtain ⟨t, calls, hp⟩ := plan_isSome hw
  have hc := plan_says hw hp
  refine ⟨t, calls, hp, fun h => ?_, fun h is => ?_⟩
  · refine Classical.byContradiction fun hn => ?_
    obtain ⟨a, ⟨k, src, dst⟩, b, e, h1, h2⟩ := first_present hn
    have see : ∀ {p : Place} {msg : Str}, (∀ s' : State, s'.place 1 = .idle → Moves t calls 1 s' p msg) → msg = m := by
      intro p msg hm
      obtain ⟨is, s', e, hx⟩ := read_between hc (State.start o) (fun _ => rfl) hm
      obtain ⟨s2, e2, hall⟩ := h is
      rw [e] at e2
      injection e2 with e2
      subst e2
      exact hall 0 _ hx
    have e1 : t = m := see fun s' hs => moves_start hs
    cases hf : findSub t src with
    | none => exact findSub_eq_none.1 hf h2
    | some pos =>
      have e2 : t.take pos ++ dst ++ t.drop (pos + src.length) = m := see fun s' hs =>
        (moves_start hs).trans fun s1 p1 m1 => (moves_all (rewordedAll_absent h1) ((k, src, dst) :: b) s1 (by rw [p1, e]) m1).trans fun s2 p2 m2 => by
          have := moves_found (t := t) (calls := calls) (i := 1) (s := s2) p2 (pos := pos) (by rw [m2]; exact hf)
          rw [m2] at this
          exact this
      have e3 := findSub_eq_some hf
      rw [← e1] at e2
      have e4 : dst = src := by
        have := e2.trans e3
        rw [List.append_assoc, List.append_assoc] at this
        have := List.append_cancel_left this
        exact List.append_cancel_right this
      rw [e] at hc
      cases rewordedAll_absent_eq h1 hc with
      | cons h3 _ =>
        obtain ⟨f, h3⟩ := (replaceToken_iff _ _ _ _).2 h3
        rw [replaceToken_diverges f t src dst h2 (e4 ▸ List.infix_rfl)] at h3
        exact nomatch h3
  · have e : m = t := by
      have h2 := rewordedAll_absent_eq (rest := []) h (by rw [List.append_nil]; exact hc)
      cases h2; rfl
    subst e
    exact run_still h is _ (fun i => .inl rfl) fun i x hx => nomatch hx

/-- One thread alone: its call comes to an end and gives it the message of `what()`, whatever the object's text was before. -/
theorem C146_alone (o : Obj) (m old : Str) (hw : WhatSays o m) :
    ∃ t calls, plan o = some (t, calls) ∧ ∀ i, ∃ n s, run t calls (State.start { o with message := old }) (List.replicate n i) = some s ∧ s.read i = [m] := by
  obtain ⟨t, calls, hp⟩ := plan_isSome hw
  refine ⟨t, calls, hp, fun i => ?_⟩
  obtain ⟨n, s, a, b, c, d, e⟩ := moves_call (plan_says hw hp) (i := i) (s := State.start { o with message := old }) rfl
  refine ⟨n + 1, ({ s with read := fun j => if j = i then s.message :: s.read j else s.read j } : State).goto i .idle, ?_, ?_⟩
  · rw [← List.replicate_append_replicate, run_append, a]
    show ((step t calls s i).bind fun s => run t calls s []) = _
    unfold step
    rw [b]; rfl
  · show (if i = i then s.message :: s.read i else s.read i) = _
    rw [if_pos rfl, c, e]; rfl

namespace Ex

/-- The `unknown_option` of the parser for `--bar`. -/
def unknownBar : Obj := construct none false (str% "unrecognised option '%canonical_option%'") [] (str% "--bar") Style.allowLong

/-- The `ambiguous_option` of `options_description::find`, to which nothing was added. -/
def ambiguousAb : Obj := construct (some [str% "ab", str% "ac"]) false (str% "option '%canonical_option%' is ambiguous") [] [] 0

end Ex

set_option maxRecDepth 8000 in
/-- Two threads ask the `unknown_option` for `--bar`: the second one starts before the first one has read its text, and the first one reads the
template. -/
theorem C146_negation : ∃ o m, WhatSays o m ∧ m = str% "unrecognised option '--bar'" ∧ ∃ t calls is, plan o = some (t, calls) ∧
    ((run t calls (State.start o) is).map fun s => (s.read 0, s.read 1)) = some ([str% "unrecognised option '%canonical_option%'"], []) := by
  refine ⟨Ex.unknownBar, _, ⟨5, _, rfl, rfl⟩, by decide, _, _, List.replicate 9 0 ++ [1] ++ [0], rfl, by decide⟩

set_option maxRecDepth 8000 in
/-- Two threads ask an `ambiguous_option`: `replace` is given a position of a text that was replaced by a shorter one, and the program ends. -/
theorem C146_ends : ∃ o m, WhatSays o m ∧ m = str% "option is ambiguous and matches 'ab', and 'ac'" ∧ ∃ t calls is, plan o = some (t, calls) ∧
    (run t calls (State.start o) is).isNone = true := by
  refine ⟨Ex.ambiguousAb, _, ⟨5, _, rfl, rfl⟩, by decide, _, _, List.replicate 4 0 ++ [1] ++ [0] ++ List.replicate 13 1 ++ [0], rfl, by decide⟩

set_option maxRecDepth 8000 in
/-- Three calls of two threads, one after the other. -/
example : ∃ t calls, plan Ex.unknownBar = some (t, calls) ∧
    ((run t calls (State.start Ex.unknownBar) (List.replicate 10 0 ++ List.replicate 10 1 ++ List.replicate 10 0)).map fun s => (s.read 0, s.read 1))
      = some ([str% "unrecognised option '--bar'", str% "unrecognised option '--bar'"], [str% "unrecognised option '--bar'"]) :=
  ⟨_, _, rfl, by decide⟩

set_option maxRecDepth 8000 in
/-- An exception of a program whose template has nothing to be replaced: the calls may overlap. -/
example : let o := construct none true (str% "no such file") [] [] 0
    ∃ t calls, plan o = some (t, calls) ∧ (∀ c ∈ calls, ¬ c.2.1 <:+: t) ∧
      ((run t calls (State.start o) (List.replicate 9 0 ++ [1, 1] ++ [0] ++ List.replicate 9 1)).map fun s => (s.read 0, s.read 1))
        = some ([str% "no such file"], [str% "no such file"]) :=
  ⟨_, _, rfl, by decide, by decide⟩

end PO
