import Verif.Props.StoreDangling
/-
C125: the map that a map refers to is the one the program gave it.
-/
namespace PO
open Lifetime Spec

/-- What the maps of a program refer to after one more step: what they are made with, what `next` sets, and for a copy what the original refers to. -/
def Spec.linksAfter (l : List (Option Nat)) : Op → List (Option Nat)
  | .newMap n => l ++ [n]
  | .setNext m n => l.set m n
  | .copyMap m => l ++ [l[m]?.join]
  | _ => l

namespace Destroyed

def LinksAre (s : State) (l : List (Option Nat)) : Prop :=
  s.maps.length = l.length ∧ ∀ (m : Nat) (v : VMap), s.maps[m]? = some (some v) → l[m]? = some v.next

theorem links_append {s : State} {l : List (Option Nat)} (hl : LinksAre s l) (v : VMap) (h : Heap) :
    LinksAre { s with heap := h, maps := s.maps ++ [some v] } (l ++ [v.next]) := by
  refine ⟨by simp [hl.1], fun m w hm => ?_⟩
  dsimp only at hm
  rcases append_some hm with ⟨h1, h2⟩ | hm
  · cases h2
    rw [h1, hl.1]
    simp
  · have := hl.2 m w hm
    rw [List.getElem?_append_left (List.getElem?_eq_some_iff.1 this).1]
    exact this

theorem links_set {s : State} {l : List (Option Nat)} (hl : LinksAre s l) {m : Nat} {v : VMap} (hm : s.map? m = some v) (b : Option VMap)
    (hb : ∀ w, b = some w → w.next = v.next) (h : Heap) : LinksAre { s with heap := h, maps := s.maps.set m b } l := by
  refine ⟨by simp [hl.1], fun k w hk => ?_⟩
  dsimp only at hk
  rcases set_some hk with ⟨h1, h2⟩ | hk
  · subst h1
    rw [hb w h2]
    exact hl.2 _ v (map?_iff.1 hm)
  · exact hl.2 k w hk

theorem links_step {s s' : State} {op : Op} (h : step s op = .ok s') {l : List (Option Nat)} (hl : LinksAre s l) : LinksAre s' (linksAfter l op) := by
  have same : s'.maps = s.maps → LinksAre s' l := by
    intro e
    unfold LinksAre
    rw [e]
    exact hl
  cases op
  case newMap n =>
    simp only [step] at h
    split at h <;> cases h
    exact links_append hl { next := n } s.heap
  case setNext m n =>
    simp only [step] at h
    split at h
    · cases h
    rename_i v hm
    split at h <;> cases h
    refine ⟨by simp [linksAfter, hl.1], fun k w hk => ?_⟩
    dsimp only at hk
    have hml : m < l.length := by rw [← hl.1]; exact (List.getElem?_eq_some_iff.1 (map?_iff.1 hm)).1
    unfold linksAfter
    dsimp only
    rw [List.getElem?_set] at hk ⊢
    split
    · rename_i e
      rw [if_pos e] at hk
      split at hk
      · cases hk
        rfl
      · cases hk
    · rename_i e
      rw [if_neg e] at hk
      exact hl.2 k w hk
  case store q m as =>
    simp only [step] at h
    split at h
    · rename_i hm
      split at h
      · cases h
      split at h
      · split at h <;> cases h
        exact links_set hl hm _ (fun w e => by cases e; rfl) _
      · cases h
    · cases h
  case put m name =>
    simp only [step] at h
    split at h
    · cases h
    rename_i v hm
    split at h <;> cases h
    · exact hl
    · exact links_set hl hm _ (fun w e => by cases e; rfl) s.heap
  case copyMap m =>
    simp only [step, orDangling] at h
    split at h
    · cases h
    rename_i v hm
    split at h <;> cases h
    have := links_append hl v ‹Heap›
    unfold linksAfter
    dsimp only
    rw [hl.2 m v (map?_iff.1 hm)]
    exact this
  case clear m =>
    simp only [step, orDangling] at h
    split at h
    · cases h
    rename_i v hm
    split at h <;> cases h
    exact links_set hl hm _ (fun w e => by cases e; rfl) _
  case destroyMap m =>
    simp only [step, orDangling] at h
    split at h
    · cases h
    rename_i v hm
    split at h <;> cases h
    exact links_set hl hm _ (fun w e => by cases e) _
  all_goals
    refine same ?_
    simp only [step, orDangling] at h
    (repeat' split at h) <;> cases h <;> rfl

theorem links_exec (ops : List Op) : ∀ {s s' : State} {l : List (Option Nat)}, exec s ops = .ok s' → LinksAre s l → LinksAre s' (ops.foldl linksAfter l) := by
  induction ops with
  | nil => intro s s' l h hl; cases h; exact hl
  | cons op ops ih =>
    intro s s' l h hl
    rw [exec] at h
    cases h1 : step s op with
    | ok s1 =>
      rw [h1] at h
      exact ih h (links_step h1 hl)
    | misuse => rw [h1] at h; cases h
    | dangling => rw [h1] at h; cases h
    | loops => rw [h1] at h; cases h

end Destroyed

/-- C125: after any program a map that is there refers to the map that the program gave it last. Storing, clearing and adding elements do not change this;
a copy refers to what the original referred to. -/
theorem C125_links {ops : List Op} {s : State} (h : exec {} ops = .ok s) {m : Nat} {v : VMap} (hm : s.maps[m]? = some (some v)) :
    (ops.foldl linksAfter [])[m]? = some v.next :=
  (Destroyed.links_exec ops (s := {}) (l := []) h ⟨rfl, fun m v hm => by simp at hm⟩).2 m v hm

/-- So the simplest undefined lookup: in a map without elements that refers to a map the program has destroyed. -/
theorem C125_lookup_gone {ops : List Op} {s : State} (h : exec {} ops = .ok s) {m n : Nat} {v : VMap} (hm : s.maps[m]? = some (some v)) (he : v.entries = [])
    (hn : (ops.foldl linksAfter [])[m]? = some (some n)) (hd : .destroyMap n ∈ ops) (name : Nat) : step s (.lookup m name) = .dangling := by
  rw [C125_links h hm, Option.some.injEq] at hn
  refine (C125_undefined_iff ⟨ops, h⟩ _).2 (.lookup hm (.here (fun e h' => ?_) hn ((C125_destroyed_iff h n).2.2.2.2.2 hd)))
  rw [he] at h'
  cases h'

/-- A map is cleared, and its copy made to refer to nothing: only the original still refers to the map that is gone. -/
example : exec {} [.newMap none, .newMap (some 0), .put 1 5, .copyMap 1, .clear 1, .setNext 2 none, .destroyMap 0, .lookup 2 7, .lookup 1 7] = .dangling ∧
    exec {} [.newMap none, .newMap (some 0), .put 1 5, .copyMap 1, .clear 1, .setNext 2 none, .destroyMap 0, .lookup 2 7] ≠ .dangling ∧
    [Op.newMap none, .newMap (some 0), .put 1 5, .copyMap 1, .clear 1, .setNext 2 none, .destroyMap 0].foldl linksAfter [] = [none, some 0, none] := by decide +kernel

end PO
