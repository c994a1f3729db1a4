import Verif.Spec.Lifetime
/-
The use counts: what every operation on shared pointers does to them.
-/
namespace PO.Lifetime
open Spec

theorem sum_set {α : Type} (f : α → Nat) (l : List α) (i : Nat) (a b : α) (h : l[i]? = some a) :
    ((l.set i b).map f).sum + f a = (l.map f).sum + f b := by
  induction l generalizing i with
  | nil => simp at h
  | cons x l ih =>
    cases i with
    | zero => simp at h; subst h; simp; omega
    | succ i =>
      simp only [List.getElem?_cons_succ] at h
      have := ih i h
      simp only [List.set_cons_succ, List.map_cons, List.sum_cons]
      omega

theorem le_sum {α : Type} (f : α → Nat) (l : List α) (i : Nat) (a : α) (h : l[i]? = some a) : f a ≤ (l.map f).sum := by
  have := sum_set f l i a a h
  induction l generalizing i with
  | nil => simp at h
  | cons x l ih =>
    cases i with
    | zero => simp at h; subst h; simp
    | succ i =>
      simp only [List.getElem?_cons_succ] at h
      have := ih i h (sum_set f l i a a h)
      simp only [List.map_cons, List.sum_cons]
      omega

theorem of_sum_pos {α : Type} (f : α → Nat) (l : List α) (h : 0 < (l.map f).sum) : ∃ (i : Nat) (a : α), l[i]? = some a ∧ 0 < f a := by
  induction l with
  | nil => simp at h
  | cons x l ih =>
    by_cases hx : 0 < f x
    · exact ⟨0, x, rfl, hx⟩
    · simp only [List.map_cons, List.sum_cons] at h
      obtain ⟨i, a, h1, h2⟩ := ih (by omega)
      exact ⟨i + 1, a, h1, h2⟩

/-- The use count. -/
def cnt (h : Heap) (x : Nat) : Nat := (h[x]?.map Cell.count).getD 0

/-- The pointers to `x` in `c`, if that is there. -/
def refs (x : Nat) (c : Cell) : Nat := if c.count = 0 then 0 else c.kids.count x

def held (h : Heap) (x : Nat) : Nat := (h.map (refs x)).sum

/-- The counts are right if there are `r x` pointers to `x` from outside; and objects only point to older ones. -/
def Right (h : Heap) (r : Nat → Nat) : Prop :=
  (∀ x, cnt h x = r x + held h x) ∧ ∀ (i : Nat) (c : Cell), h[i]? = some c → ∀ k ∈ c.kids, k < i

theorem cnt_set (h : Heap) (x : Nat) (c c' : Cell) (hx : h[x]? = some c) (y : Nat) :
    cnt (h.set x c') y = if x = y then c'.count else cnt h y := by
  unfold cnt
  rw [List.getElem?_set]
  have hl : x < h.length := by
    rcases Nat.lt_or_ge x h.length with h1 | h1
    · exact h1
    · rw [List.getElem?_eq_none h1] at hx; cases hx
  split
  · rename_i e; subst e; simp
  · rfl

theorem held_set (h : Heap) (x : Nat) (c c' : Cell) (hx : h[x]? = some c) (y : Nat) :
    held (h.set x c') y + refs y c = held h y + refs y c' := sum_set (refs y) h x c c' hx

theorem older_set (h : Heap) (x : Nat) (c : Cell) (n : Nat) (hx : h[x]? = some c)
    (ho : ∀ (i : Nat) (c : Cell), h[i]? = some c → ∀ k ∈ c.kids, k < i) :
    ∀ (i : Nat) (c' : Cell), (h.set x { c with count := n })[i]? = some c' → ∀ k ∈ c'.kids, k < i := by
  intro i c' hi k hk
  rw [List.getElem?_set] at hi
  split at hi
  · rename_i e
    subst e
    split at hi
    · cases hi; exact ho x c hx k hk
    · cases hi
  · exact ho i c' hi k hk

/-- What an object looks like apart from its count. -/
def Same (h h' : Heap) : Prop := h.length ≤ h'.length ∧ ∀ (i : Nat) (c : Cell), h[i]? = some c → ∃ c' : Cell, h'[i]? = some c' ∧ c'.kids = c.kids

theorem Same.refl (h : Heap) : Same h h := ⟨Nat.le_refl _, fun _ c hc => ⟨c, hc, rfl⟩⟩

theorem Same.trans {a b c : Heap} (h1 : Same a b) (h2 : Same b c) : Same a c := by
  refine ⟨Nat.le_trans h1.1 h2.1, fun i x hx => ?_⟩
  obtain ⟨y, hy, e⟩ := h1.2 i x hx
  obtain ⟨z, hz, e'⟩ := h2.2 i y hy
  exact ⟨z, hz, e'.trans e⟩

theorem same_set (h : Heap) (x : Nat) (c : Cell) (n : Nat) (hx : h[x]? = some c) : Same h (h.set x { c with count := n }) := by
  refine ⟨by simp, fun i d hi => ?_⟩
  rw [List.getElem?_set]
  have hl : i < h.length := by
    rcases Nat.lt_or_ge i h.length with h1 | h1
    · exact h1
    · rw [List.getElem?_eq_none h1] at hi; cases hi
  split
  · rename_i e; subst e; rw [hx] at hi; cases hi; simp [hl]
  · exact ⟨d, hi, rfl⟩

theorem cnt_pos {h : Heap} {x : Nat} (hp : 0 < cnt h x) : ∃ c : Cell, h[x]? = some c ∧ 0 < c.count := by
  unfold cnt at hp
  cases hx : h[x]? with
  | none => rw [hx] at hp; simp at hp
  | some c => rw [hx] at hp; exact ⟨c, rfl, hp⟩

theorem cnt_some {h : Heap} {x : Nat} {c : Cell} (hx : h[x]? = some c) : cnt h x = c.count := by
  unfold cnt; rw [hx]; rfl

theorem copyPtr_ok {h : Heap} {r : Nat → Nat} {x : Nat} (hr : Right h r) (hp : 0 < cnt h x) :
    ∃ h', copyPtr h x = some h' ∧ Right h' (fun y => (if x = y then 1 else 0) + r y) ∧ Same h h' := by
  obtain ⟨c, hx, hc⟩ := cnt_pos hp
  have hn : ¬ c.count = 0 := by omega
  refine ⟨h.set x { c with count := c.count + 1 }, ?_, ⟨?_, older_set h x c _ hx hr.2⟩, same_set h x c _ hx⟩
  · unfold copyPtr; rw [hx]; dsimp only; rw [if_neg hn]
  · intro y
    have h1 := hr.1 y
    have h2 := held_set h x c { c with count := c.count + 1 } hx y
    rw [cnt_set h x c _ hx]
    have e1 : refs y c = c.kids.count y := by unfold refs; rw [if_neg hn]
    have e2 : refs y { c with count := c.count + 1 } = c.kids.count y := by unfold refs; rw [if_neg (by simp)]
    rw [e1, e2] at h2
    dsimp only
    by_cases e : x = y
    · subst e
      rw [if_pos rfl, if_pos rfl]
      rw [cnt_some hx] at h1
      omega
    · rw [if_neg e, if_neg e]
      omega

theorem copyPtrs_ok {h : Heap} {r : Nat → Nat} {xs : List Nat} (hr : Right h r) (hp : ∀ x ∈ xs, 0 < cnt h x) :
    ∃ h', copyPtrs h xs = some h' ∧ Right h' (fun y => xs.count y + r y) ∧ Same h h' := by
  induction xs generalizing h r with
  | nil => exact ⟨h, rfl, by simpa using hr, Same.refl h⟩
  | cons x xs ih =>
    obtain ⟨h1, e1, r1, s1⟩ := copyPtr_ok hr (hp x List.mem_cons_self)
    have pos : ∀ z ∈ xs, 0 < cnt h1 z := by
      intro z hz
      have := hp z (List.mem_cons_of_mem _ hz)
      obtain ⟨c, hx, hc⟩ := cnt_pos (hp x List.mem_cons_self)
      have e : h1 = h.set x { c with count := c.count + 1 } := by
        unfold copyPtr at e1
        rw [hx] at e1
        dsimp only at e1
        rw [if_neg (by omega)] at e1
        cases e1; rfl
      rw [e, cnt_set h x c _ hx]
      split
      · simp
      · exact this
    obtain ⟨h2, e2, r2, s2⟩ := ih r1 pos
    refine ⟨h2, ?_, ?_, s1.trans s2⟩
    · simp only [copyPtrs, e1, e2]
    · have : (fun y => List.count y (x :: xs) + r y) = fun y => xs.count y + ((if x = y then 1 else 0) + r y) := by
        funext y
        rw [List.count_cons]
        by_cases e : x = y
        · simp [e]; omega
        · simp [e]
      rw [this]
      exact r2

theorem total_set (h : Heap) (x : Nat) (c : Cell) (n : Nat) (hx : h[x]? = some c) :
    total (h.set x { c with count := n }) + c.count = total h + n := sum_set Cell.count h x c _ hx

theorem releaseUpTo_ok (fuel : Nat) {h : Heap} {r : Nat → Nat} {xs : List Nat} (hr : Right h (fun y => xs.count y + r y))
    (hf : total h ≤ fuel) : ∃ h', releaseUpTo fuel h xs = some h' ∧ Right h' r ∧ Same h h' := by
  induction fuel generalizing h xs with
  | zero =>
    cases xs with
    | nil => exact ⟨h, by simp [releaseUpTo], by simpa using hr, Same.refl h⟩
    | cons x xs =>
      exfalso
      have h1 := hr.1 x
      have hp : 0 < cnt h x := by
        rw [h1]; simp; omega
      obtain ⟨c, hx, hc⟩ := cnt_pos hp
      have := le_sum Cell.count h x c hx
      unfold total at hf
      omega
  | succ fuel ih =>
    cases xs with
    | nil => exact ⟨h, by simp [releaseUpTo], by simpa using hr, Same.refl h⟩
    | cons x xs =>
      have hp : 0 < cnt h x := by
        rw [hr.1 x]; simp; omega
      obtain ⟨c, hx, hc⟩ := cnt_pos hp
      have hn : ¬ c.count = 0 := by omega
      have er : ∀ y, refs y c = c.kids.count y := by intro y; unfold refs; rw [if_neg hn]
      have key : ∀ n, n + 1 = c.count → Right (h.set x { c with count := n })
          (fun y => (if n = 0 then c.kids.count y else 0) + xs.count y + r y) := by
        intro n hn1
        refine ⟨?_, older_set h x c _ hx hr.2⟩
        intro y
        have h1 := hr.1 y
        dsimp only at h1
        rw [List.count_cons] at h1
        have h2 := held_set h x c { c with count := n } hx y
        rw [er] at h2
        have e2 : refs y { c with count := n } = if n = 0 then 0 else c.kids.count y := rfl
        rw [e2] at h2
        rw [cnt_set h x c _ hx]
        by_cases e : x = y
        · subst e
          rw [if_pos rfl]
          rw [cnt_some hx] at h1
          simp only [beq_self_eq_true, if_true] at h1
          dsimp only
          by_cases hz : n = 0
          · rw [if_pos hz] at h2 ⊢; omega
          · rw [if_neg hz] at h2 ⊢; omega
        · rw [if_neg e]
          have : (x == y) = false := by simpa using e
          simp only [this, Bool.false_eq_true, if_false] at h1
          dsimp only
          by_cases hz : n = 0
          · rw [if_pos hz] at h2 ⊢; omega
          · rw [if_neg hz] at h2 ⊢; omega
      have ht := fun n => total_set h x c n hx
      match hcc : c.count with
      | 0 => exact absurd hcc hn
      | 1 =>
        have k := key 0 (by omega)
        simp only [if_true] at k
        have k' : Right (h.set x { c with count := 0 }) (fun y => (c.kids ++ xs).count y + r y) := by
          simpa [List.count_append] using k
        obtain ⟨h', e, r', s'⟩ := ih k' (by have := ht 0; omega)
        refine ⟨h', ?_, r', (same_set h x c 0 hx).trans s'⟩
        simp only [releaseUpTo, hx, hcc, e]
      | n + 2 =>
        have k := key (n + 1) (by omega)
        have k' : Right (h.set x { c with count := n + 1 }) (fun y => xs.count y + r y) := by
          simpa using k
        obtain ⟨h', e, r', s'⟩ := ih k' (by have := ht (n + 1); omega)
        refine ⟨h', ?_, r', (same_set h x c _ hx).trans s'⟩
        simp only [releaseUpTo, hx, hcc, e]

theorem release_ok {h : Heap} {r : Nat → Nat} {xs : List Nat} (hr : Right h (fun y => xs.count y + r y)) :
    ∃ h', release h xs = some h' ∧ Right h' r ∧ Same h h' := releaseUpTo_ok _ hr (Nat.le_refl _)

/-- A new object takes over the pointers to its parts. -/
theorem new_ok {h : Heap} {r : Nat → Nat} {ks : List Nat} (hr : Right h (fun y => ks.count y + r y)) :
    Right (h ++ [⟨1, ks⟩]) (fun y => (if h.length = y then 1 else 0) + r y) ∧ Same h (h ++ [⟨1, ks⟩]) := by
  have hlen : ∀ k ∈ ks, k < h.length := by
    intro k hk
    have h1 := hr.1 k
    dsimp only at h1
    have : 0 < ks.count k := List.count_pos_iff.2 hk
    obtain ⟨c, hx, _⟩ := cnt_pos (show 0 < cnt h k by omega)
    rcases Nat.lt_or_ge k h.length with h2 | h2
    · exact h2
    · rw [List.getElem?_eq_none h2] at hx; cases hx
  refine ⟨⟨?_, ?_⟩, by simp, ?_⟩
  · intro y
    have h1 := hr.1 y
    have e : held (h ++ [⟨1, ks⟩]) y = held h y + ks.count y := by
      simp [held, refs]
    rw [e]
    unfold cnt at h1 ⊢
    dsimp only at h1 ⊢
    rcases Nat.lt_or_ge y h.length with h2 | h2
    · rw [List.getElem?_append_left h2, if_neg (by omega)]
      omega
    · rw [List.getElem?_eq_none h2] at h1
      simp at h1
      by_cases e : h.length = y
      · subst e
        simp
        omega
      · rw [if_neg e, List.getElem?_eq_none (by simp; omega)]
        simp
        omega
  · intro i c hi k hk
    rcases Nat.lt_or_ge i h.length with h2 | h2
    · rw [List.getElem?_append_left h2] at hi
      exact hr.2 i c hi k hk
    · have : i = h.length := by
        rcases Nat.lt_or_ge i (h.length + 1) with h3 | h3
        · omega
        · rw [List.getElem?_eq_none (by simp; omega)] at hi; cases hi
      subst this
      simp at hi
      subst hi
      exact hlen k hk
  · intro i c hi
    have h2 : i < h.length := by
      rcases Nat.lt_or_ge i h.length with h2 | h2
      · exact h2
      · rw [List.getElem?_eq_none h2] at hi; cases hi
    exact ⟨c, by rw [List.getElem?_append_left h2]; exact hi, rfl⟩

/-- What is there can be used, with all it points to. -/
theorem usable_ok {h : Heap} {r : Nat → Nat} (hr : Right h r) (fuel : Nat) {x : Nat} (hx : 0 < cnt h x) (hf : x < fuel) :
    usable h fuel x = true := by
  induction fuel generalizing x with
  | zero => omega
  | succ fuel ih =>
    obtain ⟨c, hc, hp⟩ := cnt_pos hx
    unfold usable
    rw [hc]
    simp only [Bool.and_eq_true, bne_iff_ne, ne_eq, List.all_eq_true]
    refine ⟨by omega, fun k hk => ih ?_ ?_⟩
    · have h1 := hr.1 k
      have h2 := le_sum (refs k) h x c hc
      have h3 : refs k c = c.kids.count k := by unfold refs; rw [if_neg (by omega)]
      have h4 : 0 < c.kids.count k := List.count_pos_iff.2 hk
      unfold held at h1
      omega
    · have := hr.2 x c hc k hk
      omega

theorem use_ok {h : Heap} {r : Nat → Nat} (hr : Right h r) {xs : List Nat} (hx : ∀ x ∈ xs, 0 < cnt h x) : use h xs = true := by
  unfold use
  rw [List.all_eq_true]
  intro x hxs
  refine usable_ok hr _ (hx x hxs) ?_
  obtain ⟨c, hc, _⟩ := cnt_pos (hx x hxs)
  rcases Nat.lt_or_ge x h.length with h2 | h2
  · exact h2
  · rw [List.getElem?_eq_none h2] at hc; cases hc

end PO.Lifetime
