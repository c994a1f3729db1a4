import Verif.Spec.EnvIters
import Verif.Props.Environment
/-
C147: iterators on the environment.
-/
namespace PO
namespace EnvIters

/-- The object of an iterator at a place. -/
def Rel (vars : List (Str × Str)) (x : Iter) : Option Nat → Prop
  | none => x.pos = none ∧ x.atEof = true
  | some n =>
    (∀ v, vars[n]? = some v → x.atEof = false ∧ x.pos = some (n + 1) ∧ x.value = v) ∧
    (vars.length ≤ n → x.atEof = true ∧ x.pos = some vars.length)

theorem get_rel {vars : List (Str × Str)} (hv : ∀ v ∈ vars, '=' ∉ v.1) (x : Iter) (k : Nat) (hp : x.pos = some k) (hk : k ≤ vars.length)
    (he : k < vars.length → x.atEof = false) : ∃ y, get (vars.map envEntry) x = some y ∧ Rel vars y (some k) := by
  unfold get
  rw [hp]
  dsimp only
  rcases Nat.lt_or_ge k vars.length with h | h
  · have hm : vars[k] ∈ vars := List.getElem_mem h
    have hs := splitEnv_entry _ (hv _ hm)
    rw [List.getElem?_map, List.getElem?_eq_getElem h]
    unfold splitEnv at hs
    dsimp only [Option.map_some]
    split at hs
    · cases hs
    · rename_i n hn
      rw [hn]
      refine ⟨_, rfl, fun v hv => ?_, fun h' => absurd h (Nat.not_lt.mpr h')⟩
      rw [List.getElem?_eq_getElem h] at hv
      injection hv with hv
      injection hs with hs
      exact ⟨he h, rfl, hs.trans hv⟩
  · have h1 : k = vars.length := Nat.le_antisymm hk h
    rw [List.getElem?_map, List.getElem?_eq_none h]
    dsimp only [Option.map_none]
    rw [if_pos (by rw [List.length_map]; exact h1)]
    refine ⟨_, rfl, fun v hv => ?_, fun _ => ⟨rfl, by rw [← h1]⟩⟩
    rw [List.getElem?_eq_none h] at hv
    cases hv

theorem advance_rel {vars : List (Str × Str)} (hv : ∀ v ∈ vars, '=' ∉ v.1) {x : Iter} {n : Nat} (h : Rel vars x (some n)) :
    ∃ y, get (vars.map envEntry) x = some y ∧ Rel vars y (some (n + 1)) := by
  rcases Nat.lt_or_ge n vars.length with hn | hn
  · obtain ⟨h1, h2, _⟩ := h.1 _ (List.getElem?_eq_getElem hn)
    exact get_rel hv x (n + 1) h2 hn (fun _ => h1)
  · obtain ⟨h1, h2⟩ := h.2 hn
    obtain ⟨y, hy, hr⟩ := get_rel hv x vars.length h2 (Nat.le_refl _) (fun h => absurd h (Nat.lt_irrefl _))
    refine ⟨y, hy, fun v h' => ?_, fun _ => hr.2 (Nat.le_refl _)⟩
    rw [List.getElem?_eq_none (Nat.le_succ_of_le hn)] at h'
    cases h'

/-- All iterators of a program are at their places. -/
def All (vars : List (Str × Str)) (s : List Iter) (ps : List (Option Nat)) : Prop :=
  s.length = ps.length ∧ ∀ (j : Nat) (x : Iter) (p : Option Nat), s[j]? = some x → ps[j]? = some p → Rel vars x p

theorem All.cases {vars s ps} (h : All vars s ps) (i : Nat) :
    (s[i]? = none ∧ ps[i]? = none) ∨ ∃ x p, s[i]? = some x ∧ ps[i]? = some p ∧ Rel vars x p := by
  rcases Nat.lt_or_ge i s.length with hi | hi
  · refine .inr ⟨s[i], ps[i]'(h.1 ▸ hi), List.getElem?_eq_getElem hi, List.getElem?_eq_getElem _, h.2 i _ _ (List.getElem?_eq_getElem hi) (List.getElem?_eq_getElem _)⟩
  · exact .inl ⟨List.getElem?_eq_none hi, List.getElem?_eq_none (h.1 ▸ hi)⟩

theorem All.append {vars s ps} (h : All vars s ps) {x p} (hr : Rel vars x p) : All vars (s ++ [x]) (ps ++ [p]) := by
  refine ⟨by simp [h.1], fun j y q hy hq => ?_⟩
  rcases Nat.lt_or_ge j s.length with hj | hj
  · rw [List.getElem?_append_left hj] at hy
    rw [List.getElem?_append_left (h.1 ▸ hj)] at hq
    exact h.2 j y q hy hq
  · rw [List.getElem?_append_right hj] at hy
    rw [List.getElem?_append_right (h.1 ▸ hj), ← h.1] at hq
    cases hk : j - s.length with
    | zero => rw [hk] at hy hq; simp at hy hq; rw [← hy, ← hq]; exact hr
    | succ k => rw [hk] at hy; simp at hy

theorem All.set {vars s ps} (h : All vars s ps) (i : Nat) {x p} (hr : Rel vars x p) : All vars (s.set i x) (ps.set i p) := by
  refine ⟨by simp [h.1], fun j y q hy hq => ?_⟩
  rw [List.getElem?_set] at hy hq
  rw [← h.1] at hq
  by_cases hij : i = j
  · rw [if_pos hij] at hy hq
    split at hy
    · rename_i hl
      rw [if_pos hl] at hq
      injection hy with hy; injection hq with hq
      rw [← hy, ← hq]; exact hr
    · cases hy
  · rw [if_neg hij] at hy hq
    exact h.2 j y q hy hq

theorem first_rel {vars : List (Str × Str)} (hv : ∀ v ∈ vars, '=' ∉ v.1) :
    ∃ y, first (vars.map envEntry) = some y ∧ Rel vars y (some 0) :=
  get_rel hv { pos := some 0 } 0 rfl (Nat.zero_le _) (fun _ => rfl)

theorem run_places {vars : List (Str × Str)} (hv : ∀ v ∈ vars, '=' ∉ v.1) (ops : List Op) (s : List Iter) (ps : List (Option Nat))
    (h : All vars s ps) : (run (vars.map envEntry) s ops = none ∧ places ps ops = none) ∨
      ∃ s' ps', run (vars.map envEntry) s ops = some s' ∧ places ps ops = some ps' ∧ All vars s' ps' := by
  induction ops generalizing s ps with
  | nil => exact .inr ⟨s, ps, rfl, rfl, h⟩
  | cons op ops ih =>
    cases op with
    | create =>
      obtain ⟨y, hy, hr⟩ := first_rel hv
      simp only [run, step, hy, Option.map_some, Option.bind_some, places]
      exact ih _ _ (h.append hr)
    | createPast =>
      simp only [run, step, Option.bind_some, places]
      exact ih _ _ (h.append (show Rel vars past none from ⟨rfl, rfl⟩))
    | copy i =>
      rcases h.cases i with ⟨h1, h2⟩ | ⟨x, p, h1, h2, hr⟩
      · exact .inl ⟨by simp [run, step, h1], by simp [places, h2]⟩
      · simp only [run, step, h1, Option.map_some, Option.bind_some, places, h2]
        exact ih _ _ (h.append hr)
    | assign i j =>
      rcases h.cases i with ⟨h1, h2⟩ | ⟨x, p, h1, h2, hr⟩
      · exact .inl ⟨by simp [run, step, h1], by simp [places, h2]⟩
      · rcases h.cases j with ⟨h3, h4⟩ | ⟨y, q, h3, h4, hr'⟩
        · exact .inl ⟨by simp [run, step, h1, h3], by simp [places, h2, h4]⟩
        · simp only [run, step, h1, h3, Option.bind_some, places, h2, h4]
          exact ih _ _ (h.set i hr')
    | advance i =>
      rcases h.cases i with ⟨h1, h2⟩ | ⟨x, p, h1, h2, hr⟩
      · exact .inl ⟨by simp [run, step, h1], by simp [places, h2]⟩
      · cases p with
        | none => exact .inl ⟨by simp [run, step, h1, get, hr.1], by simp [places, h2]⟩
        | some n =>
          obtain ⟨y, hy, hr'⟩ := advance_rel hv hr
          simp only [run, step, h1, Option.bind_some, hy, Option.map_some, places, h2]
          exact ih _ _ (h.set i hr')

theorem Rel.atEof {vars x p} (h : Rel vars x p) : x.atEof = true ↔ AtEnd vars p := by
  cases p with
  | none => exact ⟨(fun _ n hn => nomatch hn), fun _ => h.2⟩
  | some n =>
    refine ⟨fun he m hm => ?_, fun ha => (h.2 (ha n rfl)).1⟩
    injection hm with hm
    rw [← hm]
    rcases Nat.lt_or_ge n vars.length with hn | hn
    · rw [(h.1 _ (List.getElem?_eq_getElem hn)).1] at he; cases he
    · exact hn

end EnvIters
open EnvIters

/-- Whatever a program does with iterators on the environment, each of them gives the variables one after the other from where it (or what it was
copied from) was, and is at its end after the last one and stays there; nothing is undefined but the use of an iterator that is not there, and
advancing one that was made by the default constructor. -/
theorem C147_places (vars : List (Str × Str)) (hv : ∀ v ∈ vars, '=' ∉ v.1) (ops : List Op) :
    (run (vars.map envEntry) [] ops = none ↔ places [] ops = none) ∧
    ∀ s ps, run (vars.map envEntry) [] ops = some s → places [] ops = some ps → s.length = ps.length ∧
      ∀ (j : Nat) (x : Iter) (p : Option Nat), s[j]? = some x → ps[j]? = some p →
        (x.atEof = true ↔ AtEnd vars p) ∧ ∀ n v, p = some n → vars[n]? = some v → x.value = v := by
  rcases run_places hv ops [] [] ⟨rfl, fun j x p h => by simp at h⟩ with ⟨h1, h2⟩ | ⟨s', ps', h1, h2, hall⟩
  · exact ⟨⟨fun _ => h2, fun _ => h1⟩, fun s ps h => by rw [h1] at h; cases h⟩
  · refine ⟨⟨(fun h => by rw [h1] at h; cases h), (fun h => by rw [h2] at h; cases h)⟩, fun s ps h3 h4 => ?_⟩
    rw [h1] at h3; rw [h2] at h4
    injection h3 with h3; injection h4 with h4
    subst h3; subst h4
    refine ⟨hall.1, fun j x p hx hp => ⟨(hall.2 j x p hx hp).atEof, fun n v hn hv' => ?_⟩⟩
    subst hn
    exact ((hall.2 j x _ hx hp).1 v hv').2.2

/-- **C147, exactly:** two iterators compare equal if and only if both are past the last variable. -/
theorem C147_equal_iff (vars : List (Str × Str)) (hv : ∀ v ∈ vars, '=' ∉ v.1) (ops : List Op) (s : List Iter) (ps : List (Option Nat))
    (h : run (vars.map envEntry) [] ops = some s) (hp : places [] ops = some ps) (i j : Nat) (x y : Iter) (p q : Option Nat)
    (hx : s[i]? = some x) (hy : s[j]? = some y) (hpi : ps[i]? = some p) (hqj : ps[j]? = some q) :
    equal x y = true ↔ AtEnd vars p ∧ AtEnd vars q := by
  have key := (C147_places vars hv ops).2 s ps h hp
  rw [← (key.2 i x p hx hpi).1, ← (key.2 j y q hy hqj).1, equal]
  cases x.atEof <;> cases y.atEof <;> simp

/-- **C147 (partial).** Iterators that compare equal are at the same place; and for an iterator past the last variable (as the second one of a loop)
comparing tells exactly that. Missing: iterators that are both at the same variable. -/
theorem C147_equal_partial (vars : List (Str × Str)) (hv : ∀ v ∈ vars, '=' ∉ v.1) (ops : List Op) (s : List Iter) (ps : List (Option Nat))
    (h : run (vars.map envEntry) [] ops = some s) (hp : places [] ops = some ps) (i j : Nat) (x y : Iter) (p q : Option Nat)
    (hx : s[i]? = some x) (hy : s[j]? = some y) (hpi : ps[i]? = some p) (hqj : ps[j]? = some q) :
    (equal x y = true → SamePlace vars p q) ∧ (AtEnd vars q → (equal x y = true ↔ SamePlace vars p q)) := by
  have key := C147_equal_iff vars hv ops s ps h hp i j x y p q hx hy hpi hqj
  refine ⟨fun he => .inl (key.mp he), fun hq => ⟨fun he => .inl (key.mp he), fun hs => key.mpr ⟨?_, hq⟩⟩⟩
  rcases hs with hs | ⟨n, hn, hn'⟩
  · exact hs.1
  · rw [hn, ← hn']; exact hq

/-- **C147, negation.** An iterator at a variable is not equal to itself, nor to a copy of it. -/
theorem C147_negation : ∃ (vars : List (Str × Str)) (ops : List Op) (x y : Iter), (∀ v ∈ vars, '=' ∉ v.1) ∧
    run (vars.map envEntry) [] ops = some [x, y] ∧ places [] ops = some [some 0, some 0] ∧ x = y ∧
    equal x x = false ∧ equal x y = false :=
  ⟨[(str% "HOME", str% "/root")], [.create, .copy 0], { pos := some 1, value := (str% "HOME", str% "/root") },
    { pos := some 1, value := (str% "HOME", str% "/root") }, by decide, by decide, by decide, rfl, by decide, by decide⟩

/-- Two variables, three iterators: the copy of the first one stays at the first variable while the first goes to the end. -/
example : run ([(str% "A", str% "1=2"), (str% "B", [])].map envEntry) [] [.create, .copy 0, .advance 0, .createPast, .advance 0, .advance 0] =
    some [{ pos := some 2, atEof := true, value := (str% "B", []) }, { pos := some 1, value := (str% "A", str% "1=2") }, past] ∧
  places [] [.create, .copy 0, .advance 0, .createPast, .advance 0, .advance 0] = some [some 3, some 0, none] := by decide

/-- The iterator past the end must not be advanced. -/
example : run ([(str% "A", str% "1")].map envEntry) [] [.createPast, .advance 0] = none := by decide

end PO
