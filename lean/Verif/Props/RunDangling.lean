import Verif.Props.Destroyed
/-
C125: which programs run a parser whose description or positional options are gone, told from what the program has done.
-/
namespace PO
open Lifetime Spec

/-- The parsers made by a program, in order: the description and the positional options each of them was given. -/
def Spec.parsersMade (ops : List Op) : List (Nat × Option Nat) :=
  ops.filterMap fun op => match op with
    | .newParser d p => some (d, p)
    | _ => none

namespace Destroyed

/-- The parsers of a state are those that were made, as far as they are there. -/
def ParsersAre (s : State) (l : List (Nat × Option Nat)) : Prop :=
  s.parsers.length = l.length ∧ ∀ (r : Nat) (p : Lifetime.Parser), s.parsers[r]? = some (some p) → l[r]? = some (p.desc, p.positional)

theorem parsers_step {s s' : State} {op : Op} (h : step s op = .ok s') {l : List (Nat × Option Nat)} (hl : ParsersAre s l) :
    ParsersAre s' (l ++ parsersMade [op]) := by
  have same : s'.parsers = s.parsers → parsersMade [op] = [] → ParsersAre s' (l ++ parsersMade [op]) := by
    intro e e'
    unfold ParsersAre
    rw [e, e', List.append_nil]
    exact hl
  cases op
  case newParser d p =>
    simp only [step] at h
    split at h <;> cases h
    refine ⟨by simp [parsersMade, hl.1], fun r q hq => ?_⟩
    dsimp only at hq
    simp only [parsersMade, List.filterMap_cons, List.filterMap_nil]
    rcases append_some hq with ⟨e, e'⟩ | hq
    · cases e'
      rw [e, hl.1]
      simp
    · have := hl.2 r q hq
      rw [List.getElem?_append_left (List.getElem?_eq_some_iff.1 this).1]
      exact this
  case destroyParser r =>
    simp only [step] at h
    split at h <;> cases h
    refine ⟨by simp [parsersMade, hl.1], fun r' q hq => ?_⟩
    simp only [parsersMade, List.filterMap_cons, List.filterMap_nil, List.append_nil]
    rcases set_some hq with ⟨_, e⟩ | hq
    · cases e
    · exact hl.2 r' q hq
  all_goals
    refine same ?_ rfl
    simp only [step, orDangling] at h
    (repeat' split at h) <;> cases h <;> rfl

theorem parsers_exec (ops : List Op) : ∀ {s s' : State} {l : List (Nat × Option Nat)}, exec s ops = .ok s' → ParsersAre s l →
    ParsersAre s' (l ++ parsersMade ops) := by
  induction ops with
  | nil => intro s s' l h hl; cases h; simpa [parsersMade] using hl
  | cons op ops ih =>
    intro s s' l h hl
    rw [exec] at h
    cases h1 : step s op with
    | ok s1 =>
      rw [h1] at h
      have := ih h (parsers_step h1 hl)
      rwa [List.append_assoc, show parsersMade [op] ++ parsersMade ops = parsersMade (op :: ops) by
        simp only [parsersMade, ← List.filterMap_append, List.singleton_append]] at this
    | misuse => rw [h1] at h; cases h
    | dangling => rw [h1] at h; cases h
    | loops => rw [h1] at h; cases h

end Destroyed

/-- C125: after any program, running a parser is undefined exactly if the parser is still there, and the description or the positional options that it was
given have been destroyed. -/
theorem C125_run_iff {ops : List Op} {s : State} (h : exec {} ops = .ok s) (r : Nat) :
    step s (.run r) = .dangling ↔ .destroyParser r ∉ ops ∧
      ∃ d p, (parsersMade ops)[r]? = some (d, p) ∧ (.destroyDesc d ∈ ops ∨ ∃ n, p = some n ∧ .destroyPositional n ∈ ops) := by
  have hp : Destroyed.ParsersAre s (parsersMade ops) := by
    have := Destroyed.parsers_exec ops (s := {}) (l := []) h ⟨rfl, fun r p hr => by simp at hr⟩
    rwa [List.nil_append] at this
  have hdes := C125_destroyed_iff h
  rw [C125_undefined_iff ⟨ops, h⟩]
  constructor
  · intro ho
    have hnot : ∀ p, s.parsers[r]? = some (some p) → .destroyParser r ∉ ops := by
      intro p hr hm
      rw [(hdes r).2.2.1.2 hm] at hr
      cases hr
    cases ho with
    | runDesc hr hd => exact ⟨hnot _ hr, _, _, hp.2 _ _ hr, .inl ((hdes _).1.1 hd)⟩
    | runPositional hr hn hq => exact ⟨hnot _ hr, _, _, hp.2 _ _ hr, .inr ⟨_, hn, (hdes _).2.1.1 hq⟩⟩
  · rintro ⟨hr, d, p, hm, hx⟩
    have hlt : r < s.parsers.length := by rw [hp.1]; exact (List.getElem?_eq_some_iff.1 hm).1
    obtain ⟨q, hq⟩ : ∃ q, s.parsers[r]? = some (some q) := by
      cases e : s.parsers[r] with
      | none => exact absurd ((hdes r).2.2.1.1 (by rw [List.getElem?_eq_getElem hlt, e])) hr
      | some q => exact ⟨q, by rw [List.getElem?_eq_getElem hlt, e]⟩
    have e := hp.2 r q hq
    rw [hm] at e
    cases e
    rcases hx with hx | ⟨n, hn, hx⟩
    · exact .runDesc hq ((hdes _).1.2 hx)
    · exact .runPositional hq hn ((hdes _).2.1.2 hx)

/-- The first parser has lost its positional options, the second never had any. -/
example : exec {} [.newDesc, .newPositional, .newParser 0 (some 0), .newParser 0 none, .destroyPositional 0, .run 1, .run 0] = .dangling ∧
    parsersMade [.newDesc, .newPositional, .newParser 0 (some 0), .newParser 0 none, .destroyPositional 0, .run 1] = [(0, some 0), (0, none)] := by decide +kernel

end PO
