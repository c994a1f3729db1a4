import Verif.Props.RunDangling
/-
C125: which programs store what was parsed with a description that is gone, told from what the program has done.
-/
namespace PO
open Lifetime Spec

/-- The descriptions of the parse results of a program, in order, given the parsers it makes. -/
def Spec.parsedWith (parsers : List (Nat × Option Nat)) (ops : List Op) : List Nat :=
  ops.filterMap fun op => match op with
    | .run r => parsers[r]?.map (·.1)
    | .parseSource d => some d
    | _ => none

/-- How many maps a program makes. -/
def Spec.mapsMade (ops : List Op) : Nat :=
  ops.countP fun op => match op with
    | .newMap _ => true
    | .copyMap _ => true
    | _ => false

namespace Destroyed

def ParsedAre (s : State) (l : List Nat) : Prop :=
  s.parsed.length = l.length ∧ ∀ (q d : Nat), s.parsed[q]? = some (some d) → l[q]? = some d

theorem parsed_append {s : State} {l : List Nat} (hl : ParsedAre s l) (d : Nat) : ParsedAre { s with parsed := s.parsed ++ [some d] } (l ++ [d]) := by
  refine ⟨by simp [hl.1], fun q e hq => ?_⟩
  dsimp only at hq
  rcases append_some hq with ⟨h1, h2⟩ | hq
  · cases h2
    rw [h1, hl.1]
    simp
  · have := hl.2 q e hq
    rw [List.getElem?_append_left (List.getElem?_eq_some_iff.1 this).1]
    exact this

theorem parsed_step {s s' : State} {op : Op} (h : step s op = .ok s') {l t : List (Nat × Option Nat)} (hl : ParsersAre s l) (ht : l <+: t) {k : List Nat}
    (hk : ParsedAre s k) : ParsedAre s' (k ++ parsedWith t [op]) := by
  have same : s'.parsed = s.parsed → parsedWith t [op] = [] → ParsedAre s' (k ++ parsedWith t [op]) := by
    intro e e'
    unfold ParsedAre
    rw [e, e', List.append_nil]
    exact hk
  cases op
  case run r =>
    simp only [step] at h
    split at h
    · cases h
    rename_i p hp
    have hr : t[r]? = some (p.desc, p.positional) := by
      have := hl.2 r p (parser?_iff.1 hp)
      obtain ⟨u, rfl⟩ := ht
      rw [List.getElem?_append_left (List.getElem?_eq_some_iff.1 this).1]
      exact this
    split at h
    · cases h
    split at h <;> cases h
    have e : parsedWith t [.run r] = [p.desc] := by simp [parsedWith, hr]
    rw [e]
    exact parsed_append hk p.desc
  case parseSource d =>
    simp only [step] at h
    split at h
    · cases h
    split at h <;> cases h
    exact parsed_append hk d
  case destroyParsed q =>
    simp only [step] at h
    split at h <;> cases h
    refine ⟨by simp [parsedWith, hk.1], fun q' d hq => ?_⟩
    simp only [parsedWith, List.filterMap_cons, List.filterMap_nil, List.append_nil]
    rcases set_some hq with ⟨_, e⟩ | hq
    · cases e
    · exact hk.2 q' d hq
  all_goals
    refine same ?_ rfl
    simp only [step, orDangling] at h
    (repeat' split at h) <;> cases h <;> rfl

theorem parsed_exec (ops : List Op) : ∀ {s s' : State} {l : List (Nat × Option Nat)} {k : List Nat}, exec s ops = .ok s' → ParsersAre s l → ParsedAre s k →
    ParsedAre s' (k ++ parsedWith (l ++ parsersMade ops) ops) := by
  induction ops with
  | nil => intro s s' l k h hl hk; cases h; simpa [parsedWith] using hk
  | cons op ops ih =>
    intro s s' l k h hl hk
    rw [exec] at h
    have e : l ++ parsersMade (op :: ops) = l ++ parsersMade [op] ++ parsersMade ops := by
      rw [List.append_assoc]
      simp only [parsersMade, ← List.filterMap_append, List.singleton_append]
    cases h1 : step s op with
    | ok s1 =>
      rw [h1] at h
      have := ih h (parsers_step h1 hl) (parsed_step h1 hl (List.prefix_append l (parsersMade (op :: ops))) hk)
      rw [← e, List.append_assoc] at this
      rwa [show ∀ t, parsedWith t [op] ++ parsedWith t ops = parsedWith t (op :: ops) from fun t => by
        simp only [parsedWith, ← List.filterMap_append, List.singleton_append]] at this
    | misuse => rw [h1] at h; cases h
    | dangling => rw [h1] at h; cases h
    | loops => rw [h1] at h; cases h

theorem maps_step {s s' : State} {op : Op} (h : step s op = .ok s') : s'.maps.length = s.maps.length + mapsMade [op] := by
  cases op <;> simp only [step, orDangling] at h <;> (repeat' split at h) <;> cases h <;> simp [mapsMade]

theorem maps_exec (ops : List Op) : ∀ {s s' : State}, exec s ops = .ok s' → s'.maps.length = s.maps.length + mapsMade ops := by
  induction ops with
  | nil => intro s s' h; cases h; rfl
  | cons op ops ih =>
    intro s s' h
    rw [exec] at h
    cases h1 : step s op with
    | ok s1 =>
      rw [h1] at h
      rw [ih h, maps_step h1, Nat.add_assoc]
      unfold mapsMade
      rw [← List.countP_append, List.singleton_append]
    | misuse => rw [h1] at h; cases h
    | dangling => rw [h1] at h; cases h
    | loops => rw [h1] at h; cases h

theorem there {α : Type} {l : List (Option α)} {i : Nat} (hi : i < l.length) (h : l[i]? ≠ some none) : ∃ a, l[i]? = some (some a) := by
  rw [List.getElem?_eq_getElem hi] at h ⊢
  cases e : l[i] with
  | none => rw [e] at h; exact absurd rfl h
  | some a => exact ⟨a, rfl⟩

end Destroyed

/-- C125: after any program, a store is undefined exactly if the parse result and the map are still there, and the description that was used for parsing has
been destroyed. -/
theorem C125_store_iff {ops : List Op} {s : State} (h : exec {} ops = .ok s) (q m : Nat) (as : List Assign) :
    step s (.store q m as) = .dangling ↔ .destroyParsed q ∉ ops ∧ (m < mapsMade ops ∧ .destroyMap m ∉ ops) ∧
      ∃ d, (parsedWith (parsersMade ops) ops)[q]? = some d ∧ .destroyDesc d ∈ ops := by
  have hp : Destroyed.ParsedAre s (parsedWith (parsersMade ops) ops) := by
    have := Destroyed.parsed_exec ops (s := {}) (l := []) (k := []) h ⟨rfl, fun r p hr => by simp at hr⟩ ⟨rfl, fun r p hr => by simp at hr⟩
    rwa [List.nil_append, List.nil_append] at this
  have hl : s.maps.length = mapsMade ops := by
    have := Destroyed.maps_exec ops h
    rwa [show (({} : State).maps.length) = 0 from rfl, Nat.zero_add] at this
  have hdes := C125_destroyed_iff h
  rw [C125_undefined_iff ⟨ops, h⟩]
  constructor
  · intro ho
    cases ho with
    | store hq hm hd =>
    refine ⟨fun e => ?_, ⟨?_, fun e => ?_⟩, _, hp.2 _ _ hq, (hdes _).1.1 hd⟩
    · rw [(hdes q).2.2.2.1.2 e] at hq; cases hq
    · rw [← hl]; exact (List.getElem?_eq_some_iff.1 hm).1
    · rw [(hdes m).2.2.2.2.2 e] at hm; cases hm
  · rintro ⟨h1, ⟨h2, h3⟩, d, h4, h5⟩
    obtain ⟨e, he⟩ := Destroyed.there (l := s.parsed) (i := q) (by rw [hp.1]; exact (List.getElem?_eq_some_iff.1 h4).1) fun e => h1 ((hdes q).2.2.2.1.1 e)
    obtain ⟨v, hv⟩ := Destroyed.there (l := s.maps) (i := m) (by rw [hl]; exact h2) fun e => h3 ((hdes m).2.2.2.2.1 e)
    have := hp.2 q e he
    rw [h4] at this
    cases this
    exact .store he hv ((hdes _).1.2 h5)

/-- What was parsed with the description that is still there can be stored, the other result cannot. -/
example : exec {} [.newDesc, .newDesc, .newParser 1 none, .run 0, .parseSource 0, .newMap none, .destroyDesc 0, .store 0 0 [], .store 1 0 []] = .dangling ∧
    exec {} [.newDesc, .newDesc, .newParser 1 none, .run 0, .parseSource 0, .newMap none, .destroyDesc 0, .store 0 0 []] ≠ .dangling ∧
    parsedWith [(1, none)] [.newDesc, .newDesc, .newParser 1 none, .run 0, .parseSource 0, .newMap none, .destroyDesc 0] = [1, 0] := by decide +kernel

end PO
