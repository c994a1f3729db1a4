import Verif.Props.Destroyed
/-
C125: programs that destroy their objects last.
-/
namespace PO
open Lifetime Spec

namespace Destroyed

theorem gone {s : State} {name : Nat} {v : VMap} (h : LeadsNowhere s name v) : ∃ n : Nat, s.maps[n]? = some none := by
  induction h with
  | here _ _ hd => exact ⟨_, hd⟩
  | later _ _ _ _ ih => exact ih

/-- A program with undefined behaviour gets to a step that is undefined. -/
theorem dangling_split (ops : List Op) : ∀ {s : State}, exec s ops = .dangling → ∃ a op b s', ops = a ++ op :: b ∧ exec s a = .ok s' ∧ step s' op = .dangling := by
  induction ops with
  | nil => intro s h; cases h
  | cons op ops ih =>
    intro s h
    rw [exec] at h
    cases h1 : step s op with
    | ok s1 =>
      rw [h1] at h
      obtain ⟨a, op', b, s', rfl, h2, h3⟩ := ih h
      exact ⟨op :: a, op', b, s', rfl, by rw [exec, h1]; exact h2, h3⟩
    | misuse => rw [h1] at h; cases h
    | dangling => exact ⟨[], op, ops, s, rfl, rfl, h1⟩
    | loops => rw [h1] at h; cases h

end Destroyed

/-- The operations that follow a plain pointer. -/
def Spec.Follows : Op → Prop
  | .run _ => True
  | .store _ _ _ => True
  | .lookup _ _ => True
  | _ => False

/-- C125: a program in which no parser is run, no result stored and no name looked up after a description, positional options or a map have been destroyed
has no undefined behaviour, whatever else it does and in whatever order it destroys its objects. -/
theorem C125_destroy_last (ops rest : List Op) (h1 : ∀ x, .destroyDesc x ∉ ops ∧ .destroyPositional x ∉ ops ∧ .destroyMap x ∉ ops)
    (h2 : ∀ op ∈ rest, ¬ Follows op) : exec {} (ops ++ rest) ≠ .dangling := by
  intro h
  obtain ⟨a, op, b, s, e, h3, h4⟩ := Destroyed.dangling_split _ h
  have ho := (C125_undefined_iff ⟨a, h3⟩ op).1 h4
  have hf : Follows op := by cases ho <;> trivial
  have ha : ∀ o ∈ a, o ∈ ops := by
    rcases List.append_eq_append_iff.1 e with ⟨c, rfl, e'⟩ | ⟨c, rfl, e'⟩
    · exact absurd hf (h2 op (by rw [e']; simp))
    · exact fun o ho => List.mem_append_left _ ho
  have hdes := C125_destroyed_iff h3
  cases ho with
  | runDesc _ hd => exact (h1 _).1 (ha _ ((hdes _).1.1 hd))
  | runPositional _ _ hp => exact (h1 _).2.1 (ha _ ((hdes _).2.1.1 hp))
  | store _ _ hd => exact (h1 _).1 (ha _ ((hdes _).1.1 hd))
  | lookup _ hl =>
    obtain ⟨n, hn⟩ := Destroyed.gone hl
    exact (h1 n).2.2 (ha _ ((hdes n).2.2.2.2.1 hn))

/-- The usual program; the description goes before the map that has values of its options, which is then notified and copied. -/
example : exec {} ([.newDesc, .declare 0, .newParser 0 none, .run 0, .newMap none, .store 0 0 [⟨7, some 0, true⟩], .lookup 0 7] ++
    [.destroyDesc 0, .notify 0, .copyMap 0, .destroyMap 0, .notify 1, .destroyMap 1]) ≠ .dangling :=
  C125_destroy_last _ _ (by simp) (by simp [Follows])

/-- That program does get to its end. -/
example : ∃ s, exec {} ([.newDesc, .declare 0, .newParser 0 none, .run 0, .newMap none, .store 0 0 [⟨7, some 0, true⟩], .lookup 0 7] ++
    [.destroyDesc 0, .notify 0, .copyMap 0, .destroyMap 0, .notify 1, .destroyMap 1]) = .ok s := ⟨_, rfl⟩

end PO
