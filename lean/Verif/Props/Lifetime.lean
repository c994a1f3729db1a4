import Verif.Lemmas.Lifetime
import Mathlib.Data.Fintype.EquivFin
/-
C125: what the library refers to by shared pointers is there as long as it is needed, and no longer; and exactly which calls follow
a plain pointer to an object that the program has destroyed.
-/
namespace PO.Lifetime
open Spec

/-- Pointers to `x` in a description, in the elements of a map. -/
def dref (x : Nat) (d : Option Desc) : Nat := (d.map fun (o : Desc) => o.options.count x + o.groups.count x).getD 0
def mref (x : Nat) (m : Option VMap) : Nat := (m.map fun (v : VMap) => v.entries.countP fun (e : Entry) => e.sem == some x).getD 0
def outside (s : State) (x : Nat) : Nat := (s.descs.map (dref x)).sum + (s.maps.map (mref x)).sum

theorem count_semantics (es : List Entry) (x : Nat) : (semantics es).count x = es.countP fun (e : Entry) => e.sem == some x := by
  induction es with
  | nil => rfl
  | cons e es ih =>
    unfold semantics at ih ⊢
    cases h : e.sem with
    | none => simp [h, ih]
    | some y =>
      simp [h, ih, List.countP_cons, List.count_cons]

/-- What holds in every state a program gets to. -/
structure Fine (s : State) : Prop where
  right : Right s.heap (outside s)
  single : ∀ (d : Nat) (o : Desc), s.descs[d]? = some (some o) → ∀ x ∈ o.options, ∃ c : Cell, s.heap[x]? = some c ∧ ∃ k, c.kids = [k]
  parser : ∀ (r : Nat) (p : Parser), s.parsers[r]? = some (some p) →
    p.desc < s.descs.length ∧ ∀ n, p.positional = some n → n < s.positionals.length
  parsed : ∀ (q d : Nat), s.parsed[q]? = some (some d) → d < s.descs.length
  next : ∀ (m : Nat) (v : VMap) (n : Nat), s.maps[m]? = some (some v) → v.next = some n → n < s.maps.length

theorem join_some {α : Type} {l : List (Option α)} {i : Nat} {a : α} : l[i]?.join = some a ↔ l[i]? = some (some a) := by
  cases l[i]? with
  | none => simp
  | some b => simp

theorem desc?_iff {s : State} {d : Nat} {o : Desc} : s.desc? d = some o ↔ s.descs[d]? = some (some o) := join_some
theorem map?_iff {s : State} {m : Nat} {v : VMap} : s.map? m = some v ↔ s.maps[m]? = some (some v) := join_some
theorem parser?_iff {s : State} {r : Nat} {p : Parser} : s.parser? r = some p ↔ s.parsers[r]? = some (some p) := join_some
theorem parsed?_iff {s : State} {q d : Nat} : s.parsed? q = some d ↔ s.parsed[q]? = some (some d) := join_some

theorem join_none {α : Type} {l : List (Option α)} {i : Nat} (hi : i < l.length) : l[i]?.join = none ↔ l[i]? = some none := by
  rw [List.getElem?_eq_getElem hi]
  simp

/-- The elements after a change: the new one, or an old one. -/
theorem set_some {α : Type} {l : List (Option α)} {i j : Nat} {a : Option α} {b : α} (h : (l.set i a)[j]? = some (some b)) :
    (i = j ∧ a = some b) ∨ l[j]? = some (some b) := by
  rw [List.getElem?_set] at h
  split at h
  · split at h
    · rename_i e _
      exact .inl ⟨e, by simpa using h⟩
    · cases h
  · exact .inr h

theorem append_some {α : Type} {l : List (Option α)} {j : Nat} {a : Option α} {b : α} (h : (l ++ [a])[j]? = some (some b)) :
    (j = l.length ∧ a = some b) ∨ l[j]? = some (some b) := by
  rcases Nat.lt_or_ge j l.length with h1 | h1
  · rw [List.getElem?_append_left h1] at h; exact .inr h
  · rw [List.getElem?_append_right h1] at h
    have : j - l.length = 0 := by
      rcases Nat.lt_or_ge (j - l.length) 1 with h2 | h2
      · omega
      · rw [List.getElem?_eq_none (by simpa using h2)] at h; cases h
    rw [this] at h
    exact .inl ⟨by omega, by simpa using h⟩

variable {s : State}

theorem Fine.option_pos (hf : Fine s) {d : Nat} {o : Desc} (hd : s.descs[d]? = some (some o)) {x : Nat}
    (hx : x ∈ o.options ++ o.groups) : 0 < cnt s.heap x := by
  have h1 := hf.right.1 x
  have h2 := le_sum (dref x) s.descs d (some o) hd
  have h3 : dref x (some o) = (o.options ++ o.groups).count x := by simp [dref]
  have h4 : 0 < (o.options ++ o.groups).count x := List.count_pos_iff.2 hx
  unfold outside at h1
  omega

theorem Fine.value_pos (hf : Fine s) {m : Nat} {v : VMap} (hm : s.maps[m]? = some (some v)) {x : Nat}
    (hx : x ∈ semantics v.entries) : 0 < cnt s.heap x := by
  have h1 := hf.right.1 x
  have h2 := le_sum (mref x) s.maps m (some v) hm
  have h3 : mref x (some v) = (semantics v.entries).count x := by rw [count_semantics]; rfl
  have h4 : 0 < (semantics v.entries).count x := List.count_pos_iff.2 hx
  unfold outside at h1
  omega

theorem Fine.use_options (hf : Fine s) {d : Nat} {o : Desc} (hd : s.descs[d]? = some (some o)) : use s.heap o.options = true :=
  use_ok hf.right fun _ hx => hf.option_pos hd (List.mem_append_left _ hx)

theorem single_same {h h' : Heap} (hs : Same h h') {x : Nat} (hx : ∃ c : Cell, h[x]? = some c ∧ ∃ k, c.kids = [k]) :
    ∃ c : Cell, h'[x]? = some c ∧ ∃ k, c.kids = [k] := by
  obtain ⟨c, hc, k, hk⟩ := hx
  obtain ⟨c', hc', e⟩ := hs.2 x c hc
  exact ⟨c', hc', k, e.trans hk⟩

theorem Right.congr {h : Heap} {r r' : Nat → Nat} (hr : Right h r) (e : ∀ x, r x = r' x) : Right h r' := by
  have : r = r' := funext e
  rwa [← this]

theorem dsum_set {l : List (Option Desc)} {d : Nat} {o : Desc} (hd : l[d]? = some (some o)) (b : Option Desc) (x : Nat) :
    ((l.set d b).map (dref x)).sum + (o.options ++ o.groups).count x = (l.map (dref x)).sum + dref x b := by
  have := sum_set (dref x) l d (some o) b hd
  have e : dref x (some o) = (o.options ++ o.groups).count x := by simp [dref]
  omega

theorem msum_set {l : List (Option VMap)} {m : Nat} {v : VMap} (hm : l[m]? = some (some v)) (b : Option VMap) (x : Nat) :
    ((l.set m b).map (mref x)).sum + (semantics v.entries).count x = (l.map (mref x)).sum + mref x b := by
  have := sum_set (mref x) l m (some v) b hm
  have e : mref x (some v) = (semantics v.entries).count x := by rw [count_semantics]; rfl
  omega

theorem mref_some (v : VMap) (x : Nat) : mref x (some v) = (semantics v.entries).count x := by rw [count_semantics]; rfl

/-! ### `store` -/

theorem count_put (name : Nat) (sem : Option Nat) (given : Bool) (es : List Entry) (x : Nat) :
    (semantics (putEntry name sem given es).1).count x + (putEntry name sem given es).2.toList.count x =
      (semantics es).count x + sem.toList.count x := by
  induction es with
  | nil => cases sem <;> simp [putEntry, semantics]
  | cons e es ih =>
    unfold putEntry
    split
    · cases sem <;> cases h : e.sem <;> (simp [semantics, h, List.count_cons]; try omega)
    · unfold semantics at ih ⊢
      dsimp only
      cases h : e.sem with
      | none => simp only [List.filterMap_cons, h]; exact ih
      | some y => simp only [List.filterMap_cons, h, List.count_cons]; omega

theorem assign_ok {o : Desc} {h : Heap} {es : List Entry} {a : Assign} {r : Nat → Nat}
    (hr : Right h (fun x => (semantics es).count x + r x))
    (ho : ∀ x ∈ o.options, 0 < r x ∧ ∃ c : Cell, h[x]? = some c ∧ ∃ k, c.kids = [k]) :
    ∃ h' es', assign o h es a = some (h', es') ∧ Right h' (fun x => (semantics es').count x + r x) ∧ Same h h' := by
  unfold assign
  cases ha : a.option with
  | none =>
    dsimp only
    have hp := count_put a.name none a.given es
    obtain ⟨h', e, r', s'⟩ := release_ok (h := h) (xs := (putEntry a.name none a.given es).2.toList)
      (r := fun x => (semantics (putEntry a.name none a.given es).1).count x + r x)
      (hr.congr fun x => by have := hp x; simp at this; omega)
    exact ⟨h', _, by rw [e]; rfl, r', s'⟩
  | some i =>
    dsimp only
    cases hi : o.options[i]? with
    | none => exact ⟨h, es, rfl, hr, Same.refl h⟩
    | some x =>
      obtain ⟨h1, c, hc, k, hk⟩ := ho x (List.mem_of_getElem? hi)
      have hx : 0 < cnt h x := by have := hr.1 x; dsimp only at this; omega
      have hcp : 0 < c.count := by rw [cnt_some hc] at hx; exact hx
      have hk' : 0 < cnt h k := by
        have h2 := hr.1 k
        have h3 := le_sum (refs k) h x c hc
        have h4 : refs k c = 1 := by unfold refs; rw [if_neg (by omega), hk]; simp
        unfold held at h2
        omega
      obtain ⟨g, eg, rg, sg⟩ := copyPtr_ok hr hk'
      have hp := count_put a.name (some k) a.given es
      obtain ⟨h', e, r', s'⟩ := release_ok (h := g) (xs := (putEntry a.name (some k) a.given es).2.toList)
        (r := fun x => (semantics (putEntry a.name (some k) a.given es).1).count x + r x)
        (rg.congr fun x => by
          have := hp x
          have e : (some k).toList.count x = if k = x then 1 else 0 := by
            by_cases e : k = x
            · simp [e]
            · simp [e]
          rw [e] at this
          omega)
      refine ⟨h', _, ?_, r', sg.trans s'⟩
      dsimp only
      rw [hc]
      dsimp only [Option.map_some]
      rw [hk]
      dsimp only
      rw [eg]
      dsimp only
      rw [e]
      rfl

theorem assignAll_ok {o : Desc} {as : List Assign} {h : Heap} {es : List Entry} {r : Nat → Nat}
    (hr : Right h (fun x => (semantics es).count x + r x))
    (ho : ∀ x ∈ o.options, 0 < r x ∧ ∃ c : Cell, h[x]? = some c ∧ ∃ k, c.kids = [k]) :
    ∃ h' es', assignAll o h es as = some (h', es') ∧ Right h' (fun x => (semantics es').count x + r x) ∧ Same h h' := by
  induction as generalizing h es with
  | nil => exact ⟨h, es, rfl, hr, Same.refl h⟩
  | cons a as ih =>
    obtain ⟨h1, es1, e1, r1, s1⟩ := assign_ok (a := a) hr ho
    obtain ⟨h2, es2, e2, r2, s2⟩ := ih r1 (fun x hx => ⟨(ho x hx).1, single_same s1 (ho x hx).2⟩)
    exact ⟨h2, es2, by simp only [assignAll, e1, e2], r2, s1.trans s2⟩

/-! ### `operator[]` -/

/-- The chain from `v` leads to a destroyed map after `k` others. -/
inductive Far (maps : List (Option VMap)) (name : Nat) : VMap → Nat → Prop
  | here {v : VMap} {n : Nat} (hg : isGiven v.entries name = false) (hn : v.next = some n) (hd : maps[n]? = some none) : Far maps name v 0
  | later {v : VMap} {n : Nat} {w : VMap} {k : Nat} (hg : isGiven v.entries name = false) (hn : v.next = some n)
      (hw : maps[n]? = some (some w)) (h : Far maps name w k) : Far maps name v (k + 1)

theorem not_given {es : List Entry} {name : Nat} :
    isGiven es name = false ↔ ∀ e ∈ es, e.name = name → e.given = false := by
  unfold isGiven
  rw [List.any_eq_false]
  constructor
  · intro h e he hn
    have := h e he
    simp [hn] at this
    exact this
  · intro h e he
    by_cases hn : e.name = name
    · simp [h e he hn]
    · simp [hn]

theorem far_iff {name : Nat} {v : VMap} : LeadsNowhere s name v ↔ ∃ k, Far s.maps name v k := by
  constructor
  · intro h
    induction h with
    | here hg hn hd => exact ⟨0, .here (not_given.2 hg) hn hd⟩
    | later hg hn hw _ ih =>
      obtain ⟨k, hk⟩ := ih
      exact ⟨k + 1, .later (not_given.2 hg) hn hw hk⟩
  · rintro ⟨k, h⟩
    induction h with
    | here hg hn hd => exact .here (not_given.1 hg) hn hd
    | later hg hn hw _ ih => exact .later (not_given.1 hg) hn hw ih

theorem Far.unique {maps : List (Option VMap)} {name : Nat} {v : VMap} {k k' : Nat} (h : Far maps name v k) (h' : Far maps name v k') :
    k = k' := by
  induction h generalizing k' with
  | here hg hn hd =>
    cases h' with
    | here => rfl
    | later _ hn' hw' _ =>
      rw [hn] at hn'; cases hn'; rw [hd] at hw'; cases hw'
  | later hg hn hw _ ih =>
    cases h' with
    | here _ hn' hd' => rw [hn] at hn'; cases hn'; rw [hw] at hd'; cases hd'
    | later _ hn' hw' h'' =>
      rw [hn] at hn'; cases hn'; rw [hw] at hw'; cases hw'
      rw [ih h'']

theorem Far.visits {maps : List (Option VMap)} {name : Nat} {v : VMap} {k : Nat} (h : Far maps name v k) (j : Nat) (hj : j < k) :
    ∃ (n : Nat) (w : VMap), maps[n]? = some (some w) ∧ Far maps name w j := by
  induction h with
  | here => omega
  | @later v n w k hg hn hw h ih =>
    by_cases e : j = k
    · subst e; exact ⟨n, w, hw, h⟩
    · exact ih (by omega)

theorem Far.short {maps : List (Option VMap)} {name : Nat} {v : VMap} {k : Nat} (h : Far maps name v k) : k ≤ maps.length := by
  have hv : ∀ j : Fin k, ∃ n : Fin maps.length, ∃ w : VMap, maps[n.1]? = some (some w) ∧ Far maps name w j.1 := by
    intro j
    obtain ⟨n, w, hn, hf⟩ := h.visits j.1 j.2
    have hl : n < maps.length := by
      rcases Nat.lt_or_ge n maps.length with h1 | h1
      · exact h1
      · rw [List.getElem?_eq_none h1] at hn; cases hn
    exact ⟨⟨n, hl⟩, w, hn, hf⟩
  choose f hf using hv
  have inj : Function.Injective f := by
    intro a b e
    obtain ⟨w, hw, fa⟩ := hf a
    obtain ⟨w', hw', fb⟩ := hf b
    rw [e, hw'] at hw
    cases hw
    exact Fin.ext (fa.unique fb)
  simpa using Fintype.card_le_of_injective f inj

theorem lookup_far {maps : List (Option VMap)} {name : Nat} {v : VMap} {k : Nat} (h : Far maps name v k) (fuel : Nat) (hk : k ≤ fuel) :
    lookup maps name fuel v = some false := by
  induction h generalizing fuel with
  | here hg hn hd =>
    unfold lookup
    rw [hg, hn]
    simp [hd]
  | later hg hn hw _ ih =>
    obtain ⟨fuel, rfl⟩ : ∃ f, fuel = f + 1 := ⟨fuel - 1, by omega⟩
    unfold lookup
    rw [hg, hn]
    simp only [Bool.false_eq_true, if_false]
    rw [hw]
    exact ih fuel (by omega)

theorem far_of_lookup {maps : List (Option VMap)} {name : Nat} (hnext : ∀ (m : Nat) (v : VMap) (n : Nat), maps[m]? = some (some v) →
    v.next = some n → n < maps.length) (fuel : Nat) {v : VMap} (hv : ∀ n, v.next = some n → n < maps.length)
    (h : lookup maps name fuel v = some false) : ∃ k, Far maps name v k := by
  induction fuel generalizing v with
  | zero =>
    unfold lookup at h
    cases hg : isGiven v.entries name with
    | true => rw [hg] at h; simp at h
    | false =>
      cases hn : v.next with
      | none => rw [hg, hn] at h; simp at h
      | some n =>
        cases hj : maps[n]?.join with
        | none => exact ⟨0, .here hg hn ((join_none (hv n hn)).1 hj)⟩
        | some w => rw [hg, hn] at h; simp [hj] at h
  | succ fuel ih =>
    unfold lookup at h
    cases hg : isGiven v.entries name with
    | true => rw [hg] at h; simp at h
    | false =>
      cases hn : v.next with
      | none => rw [hg, hn] at h; simp at h
      | some n =>
        cases hj : maps[n]?.join with
        | none => exact ⟨0, .here hg hn ((join_none (hv n hn)).1 hj)⟩
        | some w =>
          rw [hg, hn] at h
          simp only [Bool.false_eq_true, if_false, hj] at h
          have hw := join_some.1 hj
          obtain ⟨k, hk⟩ := ih (fun n' => hnext n w n' hw) h
          exact ⟨k + 1, .later hg hn hw hk⟩

/-- The lookup ends after `k` further maps. -/
inductive Ends (maps : List (Option VMap)) (name : Nat) : VMap → Nat → Prop
  | given {v : VMap} (hg : isGiven v.entries name = true) : Ends maps name v 0
  | last {v : VMap} (hn : v.next = none) : Ends maps name v 0
  | gone {v : VMap} {n : Nat} (hn : v.next = some n) (hd : maps[n]?.join = none) : Ends maps name v 0
  | later {v : VMap} {n : Nat} {w : VMap} {k : Nat} (hg : isGiven v.entries name = false) (hn : v.next = some n)
      (hw : maps[n]? = some (some w)) (h : Ends maps name w k) : Ends maps name v (k + 1)

theorem Ends.unique {maps : List (Option VMap)} {name : Nat} {v : VMap} {k k' : Nat} (h : Ends maps name v k) (h' : Ends maps name v k') :
    k = k' := by
  induction h generalizing k' with
  | given hg =>
    cases h' with
    | later hg' _ _ _ => rw [hg] at hg'; cases hg'
    | _ => rfl
  | last hn =>
    cases h' with
    | later _ hn' _ _ => rw [hn] at hn'; cases hn'
    | _ => rfl
  | gone hn hd =>
    cases h' with
    | later _ hn' hw' _ => rw [hn] at hn'; cases hn'; rw [hw'] at hd; cases hd
    | _ => rfl
  | later hg hn hw _ ih =>
    cases h' with
    | given hg' => rw [hg] at hg'; cases hg'
    | last hn' => rw [hn] at hn'; cases hn'
    | gone hn' hd' => rw [hn] at hn'; cases hn'; rw [hw] at hd'; cases hd'
    | later _ hn' hw' h'' =>
      rw [hn] at hn'; cases hn'; rw [hw] at hw'; cases hw'
      rw [ih h'']

theorem Ends.visits {maps : List (Option VMap)} {name : Nat} {v : VMap} {k : Nat} (h : Ends maps name v k) (j : Nat) (hj : j < k) :
    ∃ (n : Nat) (w : VMap), maps[n]? = some (some w) ∧ Ends maps name w j := by
  induction h with
  | @later v n w k hg hn hw h ih =>
    by_cases e : j = k
    · subst e; exact ⟨n, w, hw, h⟩
    · exact ih (by omega)
  | _ => omega

theorem Ends.short {maps : List (Option VMap)} {name : Nat} {v : VMap} {k : Nat} (h : Ends maps name v k) : k ≤ maps.length := by
  have hv : ∀ j : Fin k, ∃ n : Fin maps.length, ∃ w : VMap, maps[n.1]? = some (some w) ∧ Ends maps name w j.1 := by
    intro j
    obtain ⟨n, w, hn, hf⟩ := h.visits j.1 j.2
    have hl : n < maps.length := by
      rcases Nat.lt_or_ge n maps.length with h1 | h1
      · exact h1
      · rw [List.getElem?_eq_none h1] at hn; cases hn
    exact ⟨⟨n, hl⟩, w, hn, hf⟩
  choose f hf using hv
  have inj : Function.Injective f := by
    intro a b e
    obtain ⟨w, hw, fa⟩ := hf a
    obtain ⟨w', hw', fb⟩ := hf b
    rw [e, hw'] at hw
    cases hw
    exact Fin.ext (fa.unique fb)
  simpa using Fintype.card_le_of_injective f inj

theorem lookup_ends {maps : List (Option VMap)} {name : Nat} {v : VMap} {k : Nat} (h : Ends maps name v k) (fuel : Nat) (hk : k ≤ fuel) :
    lookup maps name fuel v ≠ none := by
  induction h generalizing fuel with
  | given hg => unfold lookup; simp [hg]
  | last hn => unfold lookup; rw [hn]; split <;> simp
  | gone hn hd => unfold lookup; rw [hn]; simp only [hd]; split <;> simp
  | later hg hn hw _ ih =>
    obtain ⟨fuel, rfl⟩ : ∃ f, fuel = f + 1 := ⟨fuel - 1, by omega⟩
    unfold lookup
    rw [hg, hn]
    simp only [Bool.false_eq_true, if_false]
    rw [hw]
    exact ih fuel (by omega)

theorem not_ends {maps : List (Option VMap)} {name : Nat} {v : VMap} (h : ¬ ∃ k, Ends maps name v k) :
    isGiven v.entries name = false ∧
      ∃ (n : Nat) (w : VMap), v.next = some n ∧ maps[n]? = some (some w) ∧ ¬ ∃ k, Ends maps name w k := by
  cases hg : isGiven v.entries name with
  | true => exact absurd ⟨0, .given hg⟩ h
  | false =>
    refine ⟨rfl, ?_⟩
    cases hn : v.next with
    | none => exact absurd ⟨0, .last hn⟩ h
    | some n =>
      cases hj : maps[n]?.join with
      | none => exact absurd ⟨0, .gone hn hj⟩ h
      | some w =>
        refine ⟨n, w, rfl, join_some.1 hj, ?_⟩
        rintro ⟨k, hk⟩
        exact h ⟨k + 1, .later hg hn (join_some.1 hj) hk⟩

theorem circle {maps : List (Option VMap)} {name : Nat} {v : VMap} (h : ¬ ∃ k, Ends maps name v k) :
    ∃ f : Nat → VMap, f 0 = v ∧ (∀ i, isGiven (f i).entries name = false) ∧
      ∀ i, ∃ n, (f i).next = some n ∧ maps[n]? = some (some (f (i + 1))) := by
  have hs : ∀ a : { w : VMap // ¬ ∃ k, Ends maps name w k }, ∃ b : { w : VMap // ¬ ∃ k, Ends maps name w k },
      ∃ n, a.1.next = some n ∧ maps[n]? = some (some b.1) := by
    rintro ⟨a, ha⟩
    obtain ⟨_, n, w, hn, hw, hk⟩ := not_ends ha
    exact ⟨⟨w, hk⟩, n, hn, hw⟩
  choose g hg using hs
  refine ⟨fun i => (g^[i] ⟨v, h⟩).1, rfl, fun i => (not_ends (g^[i] ⟨v, h⟩).2).1, fun i => ?_⟩
  dsimp only
  rw [Function.iterate_succ_apply']
  exact hg _

theorem lookup_circle {maps : List (Option VMap)} {name : Nat} {f : Nat → VMap} (hg : ∀ i, isGiven (f i).entries name = false)
    (hn : ∀ i, ∃ n, (f i).next = some n ∧ maps[n]? = some (some (f (i + 1)))) (fuel i : Nat) : lookup maps name fuel (f i) = none := by
  induction fuel generalizing i with
  | zero =>
    obtain ⟨n, h1, h2⟩ := hn i
    unfold lookup
    rw [hg, h1]
    simp [h2]
  | succ fuel ih =>
    obtain ⟨n, h1, h2⟩ := hn i
    unfold lookup
    rw [hg, h1]
    simp only [Bool.false_eq_true, if_false]
    rw [h2]
    exact ih (i + 1)

theorem lookup_none {maps : List (Option VMap)} {name fuel : Nat} {v : VMap} (hl : maps.length ≤ fuel) (h : lookup maps name fuel v = none) :
    ¬ ∃ k, Ends maps name v k := by
  rintro ⟨k, hk⟩
  exact lookup_ends hk fuel (Nat.le_trans hk.short hl) h

/-! ### One step -/

theorem use_groups (hf : Fine s) {d : Nat} {o : Desc} (hd : s.descs[d]? = some (some o)) :
    use s.heap (o.options ++ o.groups) = true := use_ok hf.right fun _ hx => hf.option_pos hd hx

/-- A change of the descriptions and the heap. -/
theorem Fine.descs (hf : Fine s) {h : Heap} {ds : List (Option Desc)} (hs : Same s.heap h) (hl : s.descs.length ≤ ds.length)
    (hr : Right h (fun x => (ds.map (dref x)).sum + (s.maps.map (mref x)).sum))
    (hn : ∀ (d : Nat) (o : Desc), ds[d]? = some (some o) → s.descs[d]? = some (some o) ∨
      ∀ x ∈ o.options, ∃ c : Cell, h[x]? = some c ∧ ∃ k, c.kids = [k]) : Fine { s with heap := h, descs := ds } := by
  refine ⟨hr, ?_, ?_, ?_, hf.next⟩
  · intro d o hd x hx
    rcases hn d o hd with h1 | h1
    · exact single_same hs (hf.single d o h1 x hx)
    · exact h1 x hx
  · intro r p hp
    exact ⟨Nat.lt_of_lt_of_le (hf.parser r p hp).1 hl, (hf.parser r p hp).2⟩
  · intro q d hq
    exact Nat.lt_of_lt_of_le (hf.parsed q d hq) hl

/-- A change of the maps and the heap. -/
theorem Fine.maps (hf : Fine s) {h : Heap} {ms : List (Option VMap)} (hs : Same s.heap h)
    (hr : Right h (fun x => (s.descs.map (dref x)).sum + (ms.map (mref x)).sum))
    (hn : ∀ (m : Nat) (v : VMap) (n : Nat), ms[m]? = some (some v) → v.next = some n → n < ms.length) :
    Fine { s with heap := h, maps := ms } :=
  ⟨hr, fun d o hd x hx => single_same hs (hf.single d o hd x hx), hf.parser, hf.parsed, hn⟩

theorem positional?_iff {p : Nat} : s.positional? p = true ↔ s.positionals[p]? = some true := by
  unfold State.positional?
  simp

theorem step_declare (hf : Fine s) {d : Nat} {o : Desc} (hd : s.descs[d]? = some (some o)) :
    Fine { s with heap := s.heap ++ [⟨1, []⟩, ⟨1, [s.heap.length]⟩]
                  descs := s.descs.set d (some { o with options := o.options ++ [s.heap.length + 1] }) } := by
  have h1 := new_ok (h := s.heap) (r := outside s) (ks := []) (by simpa using hf.right)
  have h2 := new_ok (h := s.heap ++ [⟨1, []⟩]) (r := outside s) (ks := [s.heap.length]) (h1.1.congr fun x => by
    by_cases e : s.heap.length = x
    · simp [e]
    · simp [e])
  rw [List.append_assoc] at h2
  have hs : Same s.heap (s.heap ++ [⟨1, []⟩, ⟨1, [s.heap.length]⟩]) := h1.2.trans h2.2
  refine hf.descs hs (by simp) (h2.1.congr fun x => ?_) ?_
  · have := dsum_set hd (some { o with options := o.options ++ [s.heap.length + 1] }) x
    have e : dref x (some { o with options := o.options ++ [s.heap.length + 1] }) =
        (o.options ++ o.groups).count x + if s.heap.length + 1 = x then 1 else 0 := by
      by_cases e : s.heap.length + 1 = x
      · simp [dref, e]; omega
      · simp [dref, e]
    rw [e] at this
    unfold outside
    simp only [List.length_append, List.length_cons, List.length_nil, Nat.zero_add]
    omega
  · intro d' o' h'
    rcases set_some h' with ⟨_, e⟩ | h'
    · right
      cases e
      intro x hx
      rcases List.mem_append.1 hx with hx | hx
      · exact single_same hs (hf.single d o hd x hx)
      · simp at hx
        subst hx
        exact ⟨⟨1, [s.heap.length]⟩, by rw [List.getElem?_append_right (by omega)]; simp, _, rfl⟩
    · exact .inl h'

theorem step_addShared (hf : Fine s) {d e i x : Nat} {o p : Desc} (hd : s.descs[d]? = some (some o)) (he : s.descs[e]? = some (some p))
    (hx : p.options[i]? = some x) : ∃ h, copyPtr s.heap x = some h ∧
      Fine { s with heap := h, descs := s.descs.set d (some { o with options := o.options ++ [x] }) } := by
  have hm := List.mem_of_getElem? hx
  obtain ⟨h, e1, r1, s1⟩ := copyPtr_ok hf.right (hf.option_pos he (List.mem_append_left _ hm))
  refine ⟨h, e1, hf.descs s1 (by simp) (r1.congr fun y => ?_) ?_⟩
  · have := dsum_set hd (some { o with options := o.options ++ [x] }) y
    have e : dref y (some { o with options := o.options ++ [x] }) = (o.options ++ o.groups).count y + if x = y then 1 else 0 := by
      by_cases e : x = y
      · simp [dref, e]; omega
      · simp [dref, e]
    rw [e] at this
    unfold outside
    omega
  · intro d' o' h'
    rcases set_some h' with ⟨_, e⟩ | h'
    · right
      cases e
      intro y hy
      rcases List.mem_append.1 hy with hy | hy
      · exact single_same s1 (hf.single d o hd y hy)
      · simp at hy
        subst hy
        exact single_same s1 (hf.single _ p he _ hm)
    · exact .inl h'

theorem step_addGroup (hf : Fine s) {d e : Nat} {o p : Desc} (hd : s.descs[d]? = some (some o)) (he : s.descs[e]? = some (some p)) :
    ∃ h h', copyPtrs s.heap (p.options ++ p.groups) = some h ∧
      copyPtrs (h ++ [⟨1, p.options ++ p.groups⟩]) p.options = some h' ∧
      Fine { s with heap := h'
                    descs := s.descs.set d (some { options := o.options ++ p.options, groups := o.groups ++ [h.length] }) } := by
  obtain ⟨h, e1, r1, s1⟩ := copyPtrs_ok hf.right (fun x hx => hf.option_pos he hx)
  have h2 := new_ok r1
  have pos : ∀ x ∈ p.options, 0 < cnt (h ++ [⟨1, p.options ++ p.groups⟩]) x := by
    intro x hx
    have h3 := h2.1.1 x
    have h4 := le_sum (dref x) s.descs e (some p) he
    have h5 : dref x (some p) = (p.options ++ p.groups).count x := by simp [dref]
    have h6 : 0 < (p.options ++ p.groups).count x := List.count_pos_iff.2 (List.mem_append_left _ hx)
    unfold outside at h3
    dsimp only at h3
    omega
  obtain ⟨h', e3, r3, s3⟩ := copyPtrs_ok h2.1 pos
  have hs := (s1.trans h2.2).trans s3
  refine ⟨h, h', e1, e3, hf.descs hs (by simp) (r3.congr fun x => ?_) ?_⟩
  · have := dsum_set hd (some { options := o.options ++ p.options, groups := o.groups ++ [h.length] }) x
    have e : dref x (some { options := o.options ++ p.options, groups := o.groups ++ [h.length] }) =
        (o.options ++ o.groups).count x + p.options.count x + if h.length = x then 1 else 0 := by
      by_cases e : h.length = x
      · simp [dref, e]; omega
      · simp [dref, e]; omega
    rw [e] at this
    unfold outside
    omega
  · intro d' o' h'
    rcases set_some h' with ⟨_, e⟩ | h'
    · right
      cases e
      intro y hy
      rcases List.mem_append.1 hy with hy | hy
      · exact single_same hs (hf.single d o hd y hy)
      · exact single_same hs (hf.single _ p he y hy)
    · exact .inl h'

theorem step_copyDesc (hf : Fine s) {d : Nat} {o : Desc} (hd : s.descs[d]? = some (some o)) :
    ∃ h, copyPtrs s.heap (o.options ++ o.groups) = some h ∧ Fine { s with heap := h, descs := s.descs ++ [some o] } := by
  obtain ⟨h, e1, r1, s1⟩ := copyPtrs_ok hf.right (fun x hx => hf.option_pos hd hx)
  refine ⟨h, e1, hf.descs s1 (by simp) (r1.congr fun x => ?_) ?_⟩
  · simp [outside, dref]; omega
  · intro d' o' h'
    rcases append_some h' with ⟨_, e⟩ | h'
    · cases e; exact .inr fun x hx => single_same s1 (hf.single d o hd x hx)
    · exact .inl h'

theorem step_destroyDesc (hf : Fine s) {d : Nat} {o : Desc} (hd : s.descs[d]? = some (some o)) :
    ∃ h, release s.heap (o.groups ++ o.options) = some h ∧ Fine { s with heap := h, descs := s.descs.set d none } := by
  obtain ⟨h, e1, r1, s1⟩ := release_ok (h := s.heap) (xs := o.groups ++ o.options)
    (r := fun x => ((s.descs.set d none).map (dref x)).sum + (s.maps.map (mref x)).sum) (hf.right.congr fun x => by
      have := dsum_set hd none x
      have e : dref x none = 0 := rfl
      simp only [List.count_append] at this ⊢
      unfold outside
      omega)
  refine ⟨h, e1, hf.descs s1 (by simp) r1 ?_⟩
  intro d' o' h'
  rcases set_some h' with ⟨_, e⟩ | h'
  · cases e
  · exact .inl h'

theorem next_set (hf : Fine s) {m : Nat} {b : Option VMap} (hb : ∀ v n, b = some v → v.next = some n → n < s.maps.length) :
    ∀ (m' : Nat) (v : VMap) (n : Nat), (s.maps.set m b)[m']? = some (some v) → v.next = some n → n < (s.maps.set m b).length := by
  intro m' v n h hn
  rw [List.length_set]
  rcases set_some h with ⟨_, e⟩ | h
  · exact hb v n e hn
  · exact hf.next m' v n h hn

theorem step_store (hf : Fine s) {d m : Nat} {o : Desc} {v : VMap} {as : List Assign} (hd : s.descs[d]? = some (some o))
    (hm : s.maps[m]? = some (some v)) : ∃ h es, assignAll o s.heap v.entries as = some (h, es) ∧
      Fine { s with heap := h, maps := s.maps.set m (some { v with entries := es }) } := by
  obtain ⟨h, es, e1, r1, s1⟩ := assignAll_ok (o := o) (as := as) (h := s.heap) (es := v.entries)
    (r := fun x => (s.descs.map (dref x)).sum + ((s.maps.set m none).map (mref x)).sum)
    (hf.right.congr fun x => by
      have := msum_set hm none x
      have e : mref x none = 0 := rfl
      unfold outside
      omega)
    (fun x hx => ⟨by
      have h4 := le_sum (dref x) s.descs d (some o) hd
      have h5 : dref x (some o) = (o.options ++ o.groups).count x := by simp [dref]
      have h6 : 0 < (o.options ++ o.groups).count x := List.count_pos_iff.2 (List.mem_append_left _ hx)
      omega, hf.single d o hd x hx⟩)
  refine ⟨h, es, e1, hf.maps s1 (r1.congr fun x => ?_) (next_set hf fun w n e hn => ?_)⟩
  · have h1 := msum_set hm (some { v with entries := es }) x
    have h2 := msum_set hm none x
    rw [mref_some] at h1
    have e : mref x none = 0 := rfl
    dsimp only at h1
    omega
  · cases e; exact hf.next m v n hm hn

theorem step_copyMap (hf : Fine s) {m : Nat} {v : VMap} (hm : s.maps[m]? = some (some v)) :
    ∃ h, copyPtrs s.heap (semantics v.entries) = some h ∧ Fine { s with heap := h, maps := s.maps ++ [some v] } := by
  obtain ⟨h, e1, r1, s1⟩ := copyPtrs_ok hf.right (fun x hx => hf.value_pos hm hx)
  refine ⟨h, e1, hf.maps s1 (r1.congr fun x => ?_) ?_⟩
  · simp only [outside, List.map_append, List.sum_append, List.map_cons, List.map_nil, List.sum_cons, List.sum_nil, mref_some]
    omega
  · intro m' w n h' hn
    rw [List.length_append]
    rcases append_some h' with ⟨_, e⟩ | h'
    · cases e; exact Nat.lt_of_lt_of_le (hf.next m v n hm hn) (by omega)
    · exact Nat.lt_of_lt_of_le (hf.next m' w n h' hn) (by omega)

theorem step_release (hf : Fine s) {m : Nat} {v : VMap} (hm : s.maps[m]? = some (some v)) (b : Option VMap)
    (hb : b = none ∨ b = some { v with entries := [] }) :
    ∃ h, release s.heap (semantics v.entries) = some h ∧ Fine { s with heap := h, maps := s.maps.set m b } := by
  obtain ⟨h, e1, r1, s1⟩ := release_ok (h := s.heap) (xs := semantics v.entries)
    (r := fun x => (s.descs.map (dref x)).sum + ((s.maps.set m b).map (mref x)).sum) (hf.right.congr fun x => by
      have := msum_set hm b x
      have e : mref x b = 0 := by rcases hb with rfl | rfl <;> rfl
      unfold outside
      omega)
  refine ⟨h, e1, hf.maps s1 r1 (next_set hf fun w n e hn => ?_)⟩
  rcases hb with rfl | rfl
  · cases e
  · cases e; exact hf.next m v n hm hn

/-- What a step may lead to. -/
def Good (s : State) (op : Op) : Result → Prop
  | .ok s' => Fine s' ∧ ¬ Outlived s op
  | .dangling => Outlived s op
  | .misuse => ¬ Outlived s op
  | .loops => ¬ Outlived s op

theorem good_orDangling {op : Op} (h : ¬ Outlived s op) {o : Option Heap} {f : Heap → State} (ho : ∃ g, o = some g ∧ Fine (f g)) :
    Good s op (orDangling o f) := by
  obtain ⟨g, rfl, hg⟩ := ho
  exact ⟨hg, h⟩

theorem step_good (hf : Fine s) (op : Op) : Good s op (step s op) := by
  cases op with
  | newDesc =>
    refine ⟨?_, fun h => nomatch h⟩
    refine hf.descs (Same.refl _) (by simp) (hf.right.congr fun x => by simp [outside, dref]) ?_
    intro d o h
    rcases append_some h with ⟨_, e⟩ | h
    · cases e; exact .inr fun x hx => by cases hx
    · exact .inl h
  | declare d =>
    have no : ¬ Outlived s (.declare d) := fun h => nomatch h
    simp only [step]
    cases h : s.desc? d with
    | none => exact no
    | some o => exact ⟨step_declare hf (desc?_iff.1 h), no⟩
  | addShared d e i =>
    have no : ¬ Outlived s (.addShared d e i) := fun h => nomatch h
    simp only [step]
    cases h : s.desc? d with
    | none => exact no
    | some o =>
      cases h' : s.desc? e with
      | none => exact no
      | some p =>
        dsimp only
        cases hx : p.options[i]? with
        | none => exact no
        | some x => exact good_orDangling no (step_addShared hf (desc?_iff.1 h) (desc?_iff.1 h') hx)
  | addGroup d e =>
    have no : ¬ Outlived s (.addGroup d e) := fun h => nomatch h
    simp only [step]
    cases h : s.desc? d with
    | none => exact no
    | some o =>
      cases h' : s.desc? e with
      | none => exact no
      | some p =>
        dsimp only
        split
        · exact no
        · obtain ⟨g, g', e1, e2, hg⟩ := step_addGroup hf (desc?_iff.1 h) (desc?_iff.1 h')
          rw [e1]
          exact good_orDangling no ⟨g', e2, hg⟩
  | copyDesc d =>
    have no : ¬ Outlived s (.copyDesc d) := fun h => nomatch h
    simp only [step]
    cases h : s.desc? d with
    | none => exact no
    | some o => exact good_orDangling no (step_copyDesc hf (desc?_iff.1 h))
  | destroyDesc d =>
    have no : ¬ Outlived s (.destroyDesc d) := fun h => nomatch h
    simp only [step]
    cases h : s.desc? d with
    | none => exact no
    | some o => exact good_orDangling no (step_destroyDesc hf (desc?_iff.1 h))
  | newPositional =>
    refine ⟨⟨hf.right, hf.single, ?_, hf.parsed, hf.next⟩, fun h => nomatch h⟩
    intro r p hp
    refine ⟨(hf.parser r p hp).1, fun n hn => ?_⟩
    have := (hf.parser r p hp).2 n hn
    simp
    omega
  | destroyPositional p =>
    have no : ¬ Outlived s (.destroyPositional p) := fun h => nomatch h
    simp only [step]
    split
    · refine ⟨⟨hf.right, hf.single, ?_, hf.parsed, hf.next⟩, no⟩
      intro r q hq
      exact ⟨(hf.parser r q hq).1, fun n hn => by simpa using (hf.parser r q hq).2 n hn⟩
    · exact no
  | newParser d p =>
    have no : ¬ Outlived s (.newParser d p) := fun h => nomatch h
    simp only [step]
    split
    · rename_i hc
      rw [Bool.and_eq_true] at hc
      refine ⟨⟨hf.right, hf.single, ?_, hf.parsed, hf.next⟩, no⟩
      intro r q hq
      rcases append_some hq with ⟨_, e⟩ | hq
      · cases e
        obtain ⟨o, ho⟩ := Option.isSome_iff_exists.1 hc.1
        refine ⟨?_, fun n hn => ?_⟩
        · have := desc?_iff.1 ho
          rcases Nat.lt_or_ge d s.descs.length with h1 | h1
          · exact h1
          · rw [List.getElem?_eq_none h1] at this; cases this
        · dsimp only at hn
          subst hn
          have := positional?_iff.1 (by simpa using hc.2)
          rcases Nat.lt_or_ge n s.positionals.length with h1 | h1
          · exact h1
          · rw [List.getElem?_eq_none h1] at this; cases this
      · exact hf.parser r q hq
    · exact no
  | run r =>
    simp only [step]
    cases h : s.parser? r with
    | none =>
      intro ho
      cases ho with
      | runDesc hr _ => rw [parser?_iff.2 hr] at h; cases h
      | runPositional hr _ _ => rw [parser?_iff.2 hr] at h; cases h
    | some p =>
      have hp := parser?_iff.1 h
      dsimp only
      cases hd : s.desc? p.desc with
      | none => exact .runDesc hp ((join_none (hf.parser r p hp).1).1 hd)
      | some o =>
        have hd' := desc?_iff.1 hd
        dsimp only
        rw [hf.use_options hd', Bool.and_true]
        by_cases hq : p.positional.all s.positional? = true
        · rw [if_pos hq]
          refine ⟨⟨hf.right, hf.single, hf.parser, ?_, hf.next⟩, ?_⟩
          · intro q d h'
            rcases append_some h' with ⟨_, e⟩ | h'
            · cases e; exact (hf.parser r p hp).1
            · exact hf.parsed q d h'
          · intro ho
            cases ho with
            | runDesc hr hdd =>
              rw [hp] at hr; cases hr
              rw [hd'] at hdd; cases hdd
            | runPositional hr hn hpp =>
              rw [hp] at hr; cases hr
              rw [hn] at hq
              have := positional?_iff.1 (by simpa using hq)
              rw [hpp] at this; cases this
        · rw [if_neg hq]
          cases hn : p.positional with
          | none => rw [hn] at hq; simp at hq
          | some n =>
            rw [hn] at hq
            have hl := (hf.parser r p hp).2 n hn
            refine .runPositional hp hn ?_
            have : ¬ s.positionals[n]? = some true := fun e => hq (by simpa using positional?_iff.2 e)
            rw [List.getElem?_eq_getElem hl] at this ⊢
            cases hb : s.positionals[n] with
            | true => rw [hb] at this; exact absurd rfl this
            | false => rfl
  | destroyParser r =>
    have no : ¬ Outlived s (.destroyParser r) := fun h => nomatch h
    simp only [step]
    cases h : s.parser? r with
    | none => exact no
    | some p =>
      refine ⟨⟨hf.right, hf.single, ?_, hf.parsed, hf.next⟩, no⟩
      intro r' q hq
      rcases set_some hq with ⟨_, e⟩ | hq
      · cases e
      · exact hf.parser r' q hq
  | parseSource d =>
    have no : ¬ Outlived s (.parseSource d) := fun h => nomatch h
    simp only [step]
    cases h : s.desc? d with
    | none => exact no
    | some o =>
      have hd := desc?_iff.1 h
      dsimp only
      rw [if_pos (hf.use_options hd)]
      refine ⟨⟨hf.right, hf.single, hf.parser, ?_, hf.next⟩, no⟩
      intro q d' h'
      rcases append_some h' with ⟨_, e⟩ | h'
      · cases e
        rcases Nat.lt_or_ge d s.descs.length with h1 | h1
        · exact h1
        · rw [List.getElem?_eq_none h1] at hd; cases hd
      · exact hf.parsed q d' h'
  | destroyParsed q =>
    have no : ¬ Outlived s (.destroyParsed q) := fun h => nomatch h
    simp only [step]
    cases h : s.parsed? q with
    | none => exact no
    | some p =>
      refine ⟨⟨hf.right, hf.single, hf.parser, ?_, hf.next⟩, no⟩
      intro r' d hq
      rcases set_some hq with ⟨_, e⟩ | hq
      · cases e
      · exact hf.parsed r' d hq
  | newMap next =>
    have no : ¬ Outlived s (.newMap next) := fun h => nomatch h
    simp only [step]
    split
    · rename_i hc
      refine ⟨?_, no⟩
      refine hf.maps (Same.refl _) (hf.right.congr fun x => by simp [outside, mref]) ?_
      intro m v n h hn
      rw [List.length_append]
      rcases append_some h with ⟨_, e⟩ | h
      · cases e
        dsimp only at hn
        subst hn
        obtain ⟨w, hw⟩ := Option.isSome_iff_exists.1 (by simpa using hc)
        have := map?_iff.1 hw
        rcases Nat.lt_or_ge n s.maps.length with h1 | h1
        · omega
        · rw [List.getElem?_eq_none h1] at this; cases this
      · exact Nat.lt_of_lt_of_le (hf.next m v n h hn) (by omega)
    · exact no
  | setNext m next =>
    have no : ¬ Outlived s (.setNext m next) := fun h => nomatch h
    simp only [step]
    cases h : s.map? m with
    | none => exact no
    | some v =>
      have hm := map?_iff.1 h
      dsimp only
      split
      · rename_i hc
        refine ⟨?_, no⟩
        refine hf.maps (Same.refl _) (hf.right.congr fun x => ?_) (next_set hf fun w n e hn => ?_)
        · have := msum_set hm (some { v with next }) x
          rw [mref_some] at this
          dsimp only at this
          unfold outside
          omega
        · cases e
          dsimp only at hn
          subst hn
          obtain ⟨w, hw⟩ := Option.isSome_iff_exists.1 (by simpa using hc)
          have := map?_iff.1 hw
          rcases Nat.lt_or_ge n s.maps.length with h1 | h1
          · exact h1
          · rw [List.getElem?_eq_none h1] at this; cases this
      · exact no
  | store q m as =>
    simp only [step]
    cases h : s.parsed? q with
    | none =>
      intro ho
      cases ho with
      | store hq _ _ => rw [parsed?_iff.2 hq] at h; cases h
    | some d =>
      have hq := parsed?_iff.1 h
      cases h' : s.map? m with
      | none =>
        intro ho
        cases ho with
        | store _ hm _ => rw [map?_iff.2 hm] at h'; cases h'
      | some v =>
        have hm := map?_iff.1 h'
        dsimp only
        cases hd : s.desc? d with
        | none => exact .store hq hm ((join_none (hf.parsed q d hq)).1 hd)
        | some o =>
          have hd' := desc?_iff.1 hd
          dsimp only
          rw [if_pos (hf.use_options hd')]
          obtain ⟨g, es, e1, hg⟩ := step_store (as := as) hf hd' hm
          rw [e1]
          refine ⟨hg, fun ho => ?_⟩
          cases ho with
          | store hq' _ hdd =>
            rw [hq] at hq'; cases hq'
            rw [hd'] at hdd; cases hdd
  | put m name =>
    have no : ¬ Outlived s (.put m name) := fun h => nomatch h
    simp only [step]
    cases h : s.map? m with
    | none => exact no
    | some v =>
      have hm := map?_iff.1 h
      dsimp only
      split
      · exact ⟨hf, no⟩
      · refine ⟨?_, no⟩
        refine hf.maps (Same.refl _) (hf.right.congr fun x => ?_) (next_set hf fun w n e hn => ?_)
        · have := msum_set hm (some { v with entries := v.entries ++ [{ name, sem := none, given := true }] }) x
          rw [mref_some] at this
          simp only [semantics, List.filterMap_append, List.filterMap_cons, List.filterMap_nil, List.append_nil] at this
          unfold outside
          omega
        · cases e; exact hf.next m v n hm hn
  | copyMap m =>
    have no : ¬ Outlived s (.copyMap m) := fun h => nomatch h
    simp only [step]
    cases h : s.map? m with
    | none => exact no
    | some v => exact good_orDangling no (step_copyMap hf (map?_iff.1 h))
  | clear m =>
    have no : ¬ Outlived s (.clear m) := fun h => nomatch h
    simp only [step]
    cases h : s.map? m with
    | none => exact no
    | some v => exact good_orDangling no (step_release hf (map?_iff.1 h) _ (.inr rfl))
  | destroyMap m =>
    have no : ¬ Outlived s (.destroyMap m) := fun h => nomatch h
    simp only [step]
    cases h : s.map? m with
    | none => exact no
    | some v => exact good_orDangling no (step_release hf (map?_iff.1 h) _ (.inl rfl))
  | notify m =>
    have no : ¬ Outlived s (.notify m) := fun h => nomatch h
    simp only [step]
    cases h : s.map? m with
    | none => exact no
    | some v =>
      dsimp only
      rw [if_pos (use_ok hf.right fun x hx => hf.value_pos (map?_iff.1 h) hx)]
      exact ⟨hf, no⟩
  | lookup m name =>
    simp only [step]
    cases h : s.map? m with
    | none =>
      intro ho
      cases ho with
      | lookup hm _ => rw [map?_iff.2 hm] at h; cases h
    | some v =>
      have hm := map?_iff.1 h
      have key : Outlived s (.lookup m name) → Lifetime.lookup s.maps name s.maps.length v = some false := by
        intro ho
        cases ho with
        | lookup hm' hl =>
          rw [hm] at hm'; cases hm'
          obtain ⟨k, hk⟩ := far_iff.1 hl
          exact lookup_far hk _ hk.short
      dsimp only
      cases hl : Lifetime.lookup s.maps name s.maps.length v with
      | none => exact fun ho => by rw [key ho] at hl; cases hl
      | some b =>
        cases b with
        | true => exact ⟨hf, fun ho => by rw [key ho] at hl; cases hl⟩
        | false => exact .lookup hm (far_iff.2 (far_of_lookup hf.next _ (fun n => hf.next m v n hm) hl))
  | print d =>
    have no : ¬ Outlived s (.print d) := fun h => nomatch h
    simp only [step]
    cases h : s.desc? d with
    | none => exact no
    | some o =>
      dsimp only
      rw [if_pos (use_groups hf (desc?_iff.1 h))]
      exact ⟨hf, no⟩

theorem fine_empty : Fine {} := by
  refine ⟨⟨fun x => rfl, ?_⟩, ?_, ?_, ?_, ?_⟩
  · intro i c h; simp at h
  · intro i c h; simp at h
  · intro i c h; simp at h
  · intro i c h; simp at h
  · intro i c n h; simp at h

theorem exec_fine (hf : Fine s) (ops : List Op) {s' : State} (h : exec s ops = .ok s') : Fine s' := by
  induction ops generalizing s with
  | nil => cases h; exact hf
  | cons op ops ih =>
    simp only [exec] at h
    have hg := step_good hf op
    cases hs : step s op with
    | ok t => rw [hs] at h hg; exact ih hg.1 h
    | misuse => rw [hs] at h; cases h
    | dangling => rw [hs] at h; cases h
    | loops => rw [hs] at h; cases h

end PO.Lifetime

namespace PO
open Lifetime Spec

theorem Spec.Reachable.fine {s : State} (h : Reachable s) : Fine s := by
  obtain ⟨ops, h⟩ := h
  exact exec_fine fine_empty ops h

/-- C125: the use count of every object is the number of shared pointers to it that are still there. -/
theorem C125_counts {s : State} (h : Reachable s) {x : Nat} {c : Cell} (hx : s.heap[x]? = some c) : c.count = pointersTo s x := by
  have := h.fine.right.1 x
  rw [cnt_some hx] at this
  exact this

/-- C125: an option, a group or a semantic is there exactly as long as a description or a map owns it, directly or not. -/
theorem C125_alive {s : State} (h : Reachable s) {x : Nat} {c : Cell} (hx : s.heap[x]? = some c) : 0 < c.count ↔ Owned s x := by
  have hf := h.fine
  constructor
  · intro hc
    have main : ∀ n x, s.heap.length - x ≤ n → 0 < cnt s.heap x → Owned s x := by
      intro n
      induction n with
      | zero =>
        intro x hn hp
        obtain ⟨c, hx, _⟩ := cnt_pos hp
        rw [List.getElem?_eq_none (by omega)] at hx
        cases hx
      | succ n ih =>
        intro x hn hp
        have h1 := hf.right.1 x
        by_cases hh : 0 < held s.heap x
        · obtain ⟨y, c, hy, hr⟩ := of_sum_pos (refs x) s.heap hh
          have hk : x ∈ c.kids ∧ 0 < c.count := by
            unfold refs at hr
            split at hr
            · omega
            · exact ⟨List.count_pos_iff.1 hr, by omega⟩
          have hlt := hf.right.2 y c hy x hk.1
          have hyl : y < s.heap.length := by
            rcases Nat.lt_or_ge y s.heap.length with h2 | h2
            · exact h2
            · rw [List.getElem?_eq_none h2] at hy; cases hy
          exact .inside (ih y (by omega) (by rw [cnt_some hy]; exact hk.2)) hy hk.1
        · unfold outside at h1
          by_cases hd : 0 < (s.descs.map (dref x)).sum
          · obtain ⟨d, o, ho, hr⟩ := of_sum_pos (dref x) s.descs hd
            cases o with
            | none => simp [dref] at hr
            | some o =>
              simp only [dref, Option.map_some, Option.getD_some] at hr
              by_cases h2 : 0 < o.options.count x
              · exact .option ho (List.count_pos_iff.1 h2)
              · exact .group ho (List.count_pos_iff.1 (by omega))
          · obtain ⟨m, v, hm, hr⟩ := of_sum_pos (mref x) s.maps (by omega)
            cases v with
            | none => simp [mref] at hr
            | some v =>
              simp only [mref, Option.map_some, Option.getD_some] at hr
              obtain ⟨e, he, hs⟩ := List.countP_pos_iff.1 hr
              exact .value hm he (by simpa using hs)
    exact main _ x (Nat.le_refl _) (by rw [cnt_some hx]; exact hc)
  · intro ho
    have main : ∀ x, Owned s x → 0 < cnt s.heap x := by
      intro x ho
      induction ho with
      | option hd hx => exact hf.option_pos hd (List.mem_append_left _ hx)
      | group hd hx => exact hf.option_pos hd (List.mem_append_right _ hx)
      | value hm he hx =>
        exact hf.value_pos hm (List.mem_filterMap.2 ⟨_, he, hx⟩)
      | @inside y c x _ hc hx ih =>
        have h1 := hf.right.1 x
        have h2 := le_sum (refs x) s.heap y c hc
        have h3 : refs x c = c.kids.count x := by
          rw [cnt_some hc] at ih
          unfold refs
          rw [if_neg (by omega)]
        have h4 : 0 < c.kids.count x := List.count_pos_iff.2 hx
        unfold held at h1
        omega
    have := main x ho
    rw [cnt_some hx] at this
    exact this

/-- C125: exactly the calls that follow a plain pointer to a destroyed object are undefined. In particular `notify`, `print`, copying,
clearing and destroying never are, whatever has been destroyed before. -/
theorem C125_undefined_iff {s : State} (h : Reachable s) (op : Op) : step s op = .dangling ↔ Outlived s op := by
  have := step_good h.fine op
  cases hs : step s op with
  | ok t => rw [hs] at this; exact ⟨(fun h => nomatch h), fun ho => absurd ho this.2⟩
  | misuse => rw [hs] at this; exact ⟨(fun h => nomatch h), fun ho => absurd ho this⟩
  | dangling => rw [hs] at this; exact ⟨fun _ => this, fun _ => rfl⟩
  | loops => rw [hs] at this; exact ⟨(fun h => nomatch h), fun ho => absurd ho this⟩

/-- C125: exactly these calls do not return. -/
theorem C125_endless_iff {s : State} (op : Op) : step s op = .loops ↔ Endless s op := by
  constructor
  · intro hl
    cases op with
    | addGroup d e =>
      simp only [step] at hl
      cases h1 : s.desc? d with
      | none => rw [h1] at hl; cases hl
      | some o =>
        cases h2 : s.desc? e with
        | none => rw [h1, h2] at hl; cases hl
        | some p =>
          rw [h1, h2] at hl
          dsimp only at hl
          by_cases hc : d = e ∧ p.options ≠ []
          · obtain ⟨rfl, hp⟩ := hc
            exact .addGroup (desc?_iff.1 h2) hp
          · rw [if_neg hc] at hl
            cases h3 : copyPtrs s.heap (p.options ++ p.groups) with
            | none => rw [h3] at hl; cases hl
            | some g =>
              rw [h3] at hl
              dsimp only [orDangling] at hl
              split at hl <;> cases hl
    | lookup m name =>
      simp only [step] at hl
      cases h1 : s.map? m with
      | none => rw [h1] at hl; cases hl
      | some v =>
        rw [h1] at hl
        dsimp only at hl
        cases h2 : Lifetime.lookup s.maps name s.maps.length v with
        | none =>
          obtain ⟨f, rfl, hg, hn⟩ := circle (lookup_none (Nat.le_refl _) h2)
          exact .lookup f (map?_iff.1 h1) (fun i => not_given.1 (hg i)) hn
        | some b => rw [h2] at hl; cases b <;> cases hl
    | _ =>
      simp only [step, orDangling] at hl
      repeat' split at hl
      all_goals cases hl
  · intro he
    cases he with
    | addGroup hd ho =>
      simp only [step]
      rw [desc?_iff.2 hd]
      dsimp only
      rw [if_pos ⟨trivial, ho⟩]
    | lookup f hm hgv hn =>
      simp only [step]
      rw [map?_iff.2 hm]
      dsimp only
      rw [lookup_circle (fun i => not_given.2 (hgv i)) hn]

/-- C125: `notify` succeeds on every map that is there, even if all descriptions have been destroyed. -/
theorem C125_notify {s : State} (h : Reachable s) {m : Nat} {v : VMap} (hm : s.maps[m]? = some (some v)) : step s (.notify m) = .ok s := by
  simp only [step]
  rw [map?_iff.2 hm]
  dsimp only
  rw [if_pos (use_ok h.fine.right fun x hx => h.fine.value_pos hm hx)]

/-- C125: nothing is left behind. -/
theorem C125_no_leak {s : State} (h : Reachable s) (hd : ∀ o ∈ s.descs, o = none) (hm : ∀ v ∈ s.maps, v = none) {x : Nat} {c : Cell}
    (hx : s.heap[x]? = some c) : c.count = 0 := by
  rcases Nat.eq_zero_or_pos c.count with h0 | h0
  · exact h0
  · exfalso
    have ho := (C125_alive h hx).1 h0
    clear hx h0
    induction ho with
    | option h1 _ => have := hd _ (List.mem_of_getElem? h1); cases this
    | group h1 _ => have := hd _ (List.mem_of_getElem? h1); cases this
    | value h1 _ _ => have := hm _ (List.mem_of_getElem? h1); cases this
    | inside _ _ _ ih => exact ih

/-- A description with two options and a group, parsed and stored; then the descriptions are destroyed before `notify`. -/
example : exec {} [.newDesc, .declare 0, .newDesc, .declare 1, .declare 1, .addGroup 0 1, .newParser 0 none, .run 0, .newMap none,
      .store 0 0 [⟨7, some 0, true⟩, ⟨8, some 2, true⟩, ⟨7, some 0, true⟩], .destroyDesc 1, .destroyDesc 0, .notify 0] =
    .ok { heap := [⟨1, []⟩, ⟨0, [0]⟩, ⟨0, []⟩, ⟨0, [2]⟩, ⟨1, []⟩, ⟨0, [4]⟩, ⟨0, [3, 5]⟩], descs := [none, none],
          parsers := [some ⟨0, none⟩], parsed := [some 0],
          maps := [some { entries := [⟨7, some 0, true⟩, ⟨8, some 4, true⟩] }] } := rfl

/-- Storing what was parsed with a description that is gone. -/
example : exec {} [.newDesc, .declare 0, .parseSource 0, .newMap none, .destroyDesc 0, .store 0 0 []] = .dangling := rfl

/-- Looking through a map to one that is gone: not if the value is in the first one. -/
example : exec {} [.newMap none, .newMap (some 0), .put 1 5, .destroyMap 0, .lookup 1 5] ≠ .dangling ∧
    exec {} [.newMap none, .newMap (some 0), .put 1 5, .destroyMap 0, .lookup 1 6] = .dangling := ⟨by decide, rfl⟩

/-- Two maps, each the next of the other: a value given in one of them is found from both, another name is looked for without end. -/
example : exec {} [.newMap none, .newMap (some 0), .put 1 5, .setNext 0 (some 1), .lookup 0 5] ≠ .loops ∧
    exec {} [.newMap none, .newMap (some 0), .put 1 5, .setNext 0 (some 1), .lookup 0 6] = .loops := ⟨by decide, rfl⟩

end PO
