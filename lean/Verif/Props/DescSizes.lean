import Verif.Props.NextMaps
/-
C125: how many options and groups a description has.
-/
namespace PO
open Lifetime Spec

/-- The numbers of options and of groups of the descriptions of a program after one more step. -/
def Spec.sizesAfter (l : List (Nat × Nat)) : Op → List (Nat × Nat)
  | .newDesc => l ++ [(0, 0)]
  | .declare d => l.modify d fun x => (x.1 + 1, x.2)
  | .addShared d _ _ => l.modify d fun x => (x.1 + 1, x.2)
  | .addGroup d e => l.modify d fun x => (x.1 + (l[e]?.getD (0, 0)).1, x.2 + 1)
  | .copyDesc d => l ++ [l[d]?.getD (0, 0)]
  | _ => l

namespace Destroyed

def SizesAre (s : State) (l : List (Nat × Nat)) : Prop :=
  s.descs.length = l.length ∧ ∀ (d : Nat) (o : Desc), s.descs[d]? = some (some o) → l[d]? = some (o.options.length, o.groups.length)

theorem sizes_append {s : State} {l : List (Nat × Nat)} (hl : SizesAre s l) (o : Desc) (h : Heap) :
    SizesAre { s with heap := h, descs := s.descs ++ [some o] } (l ++ [(o.options.length, o.groups.length)]) := by
  refine ⟨by simp [hl.1], fun m w hm => ?_⟩
  dsimp only at hm
  rcases append_some hm with ⟨h1, h2⟩ | hm
  · cases h2
    rw [h1, hl.1]
    simp
  · have := hl.2 m w hm
    rw [List.getElem?_append_left (List.getElem?_eq_some_iff.1 this).1]
    exact this

theorem sizes_modify {s : State} {l : List (Nat × Nat)} (hl : SizesAre s l) {d : Nat} {o : Desc} (hd : s.desc? d = some o) (p : Desc) (h : Heap)
    (f : Nat × Nat → Nat × Nat) (hf : f (o.options.length, o.groups.length) = (p.options.length, p.groups.length)) :
    SizesAre { s with heap := h, descs := s.descs.set d (some p) } (l.modify d f) := by
  refine ⟨by simp [hl.1], fun k w hk => ?_⟩
  dsimp only at hk
  have ho := hl.2 d o (desc?_iff.1 hd)
  rw [List.getElem?_set] at hk
  rw [List.getElem?_modify]
  by_cases e : d = k
  · subst e
    rw [if_pos rfl] at hk
    split at hk
    · cases hk
      rw [ho]
      simp [hf]
    · cases hk
  · rw [if_neg e] at hk
    rw [hl.2 k w hk]
    simp [e]

theorem sizes_step {s s' : State} {op : Op} (h : step s op = .ok s') {l : List (Nat × Nat)} (hl : SizesAre s l) : SizesAre s' (sizesAfter l op) := by
  have same : s'.descs = s.descs → SizesAre s' l := by
    intro e
    unfold SizesAre
    rw [e]
    exact hl
  cases op
  case newDesc =>
    simp only [step] at h
    cases h
    exact sizes_append hl {} s.heap
  case declare d =>
    simp only [step] at h
    split at h
    · cases h
    rename_i o hd
    cases h
    exact sizes_modify hl hd _ _ _ (by simp)
  case addShared d e i =>
    simp only [step, orDangling] at h
    split at h
    · rename_i o p hd he
      split at h
      · cases h
      split at h <;> cases h
      exact sizes_modify hl hd _ _ _ (by simp)
    · cases h
  case addGroup d e =>
    simp only [step, orDangling] at h
    split at h
    · rename_i o p hd he
      split at h
      · cases h
      split at h
      · cases h
      split at h <;> cases h
      refine sizes_modify hl hd _ _ _ ?_
      rw [hl.2 e p (desc?_iff.1 he)]
      simp
    · cases h
  case copyDesc d =>
    simp only [step, orDangling] at h
    split at h
    · cases h
    rename_i o hd
    split at h <;> cases h
    unfold sizesAfter
    dsimp only
    rw [hl.2 d o (desc?_iff.1 hd)]
    exact sizes_append hl o _
  case destroyDesc d =>
    simp only [step, orDangling] at h
    split at h
    · cases h
    rename_i o hd
    split at h <;> cases h
    refine ⟨by simp [sizesAfter, hl.1], fun k w hk => ?_⟩
    rcases set_some hk with ⟨_, e⟩ | hk
    · cases e
    · exact hl.2 k w hk
  all_goals
    refine same ?_
    simp only [step, orDangling] at h
    (repeat' split at h) <;> cases h <;> rfl

theorem sizes_exec (ops : List Op) : ∀ {s s' : State} {l : List (Nat × Nat)}, exec s ops = .ok s' → SizesAre s l → SizesAre s' (ops.foldl sizesAfter l) := by
  induction ops with
  | nil => intro s s' l h hl; cases h; exact hl
  | cons op ops ih =>
    intro s s' l h hl
    rw [exec] at h
    cases h1 : step s op with
    | ok s1 =>
      rw [h1] at h
      exact ih h (sizes_step h1 hl)
    | misuse => rw [h1] at h; cases h
    | dangling => rw [h1] at h; cases h
    | loops => rw [h1] at h; cases h

end Destroyed

/-- C125: after any program a description that is there has as many options and groups as were put into it, one by one, with groups, or by copying another
description; whatever happened to the objects they came from. -/
theorem C125_sizes {ops : List Op} {s : State} (h : exec {} ops = .ok s) {d : Nat} {o : Desc} (hd : s.descs[d]? = some (some o)) :
    (ops.foldl sizesAfter [])[d]? = some (o.options.length, o.groups.length) :=
  (Destroyed.sizes_exec ops (s := {}) (l := []) h ⟨rfl, fun m v hm => by simp at hm⟩).2 d o hd

/-- So adding a description to itself does not end exactly if it is still there and the program has put an option into it, directly, with a group or by
copying. -/
theorem C125_self_iff {ops : List Op} {s : State} (h : exec {} ops = .ok s) (d : Nat) :
    step s (.addGroup d d) = .loops ↔ .destroyDesc d ∉ ops ∧ ∃ n k, (ops.foldl sizesAfter [])[d]? = some (n + 1, k) := by
  have hz := Destroyed.sizes_exec ops (s := {}) (l := []) h ⟨rfl, fun m v hm => by simp at hm⟩
  rw [C125_endless_iff]
  constructor
  · intro he
    cases he with
    | addGroup hd ho =>
    rename_i o
    refine ⟨fun e => ?_, o.options.length - 1, o.groups.length, ?_⟩
    · rw [(C125_destroyed_iff h d).1.2 e] at hd
      cases hd
    · rw [hz.2 d _ hd, Nat.sub_add_cancel (List.length_pos_iff.2 ho)]
  · rintro ⟨h1, n, k, h2⟩
    obtain ⟨o, ho⟩ := Destroyed.there (l := s.descs) (i := d) (by rw [hz.1]; exact (List.getElem?_eq_some_iff.1 h2).1)
      fun e => h1 ((C125_destroyed_iff h d).1.1 e)
    refine .addGroup ho fun e => ?_
    have := hz.2 d o ho
    rw [h2, e] at this
    simp at this

/-- Empty groups may be added, to the description itself too; after an option has been declared this does not end. -/
example : exec {} [.newDesc, .addGroup 0 0, .addGroup 0 0, .declare 0, .addGroup 0 0] = .loops ∧
    [Op.newDesc, .addGroup 0 0, .addGroup 0 0, .declare 0].foldl sizesAfter [] = [(1, 2)] := by decide +kernel

/-- A group with two options is added twice and then destroyed; the copy of the description has its four options. -/
example : exec {} [.newDesc, .newDesc, .declare 1, .declare 1, .addGroup 0 1, .addGroup 0 1, .destroyDesc 1, .copyDesc 0, .destroyDesc 0, .print 2] ≠ .dangling ∧
    [Op.newDesc, .newDesc, .declare 1, .declare 1, .addGroup 0 1, .addGroup 0 1, .destroyDesc 1, .copyDesc 0, .destroyDesc 0].foldl sizesAfter [] =
      [(4, 2), (2, 0), (4, 2)] := by decide +kernel

end PO
