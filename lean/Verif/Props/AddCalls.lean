import Verif.Spec.AddCalls
import Verif.Props.Tokens
import Mathlib.Data.List.Induction
/-
C143: names of positional arguments after any calls of `add`.
-/
namespace PO
open Spec
namespace Positional

theorem addCalls_append (p : Positional) (l l' : List (Str × Int)) :
    addCalls p (l ++ l') = match addCalls p l with
      | .error f => .error f
      | .ok p' => addCalls p' l' := by
  induction l generalizing p with
  | nil => rfl
  | cons x l ih =>
    obtain ⟨n, c⟩ := x
    rw [List.cons_append, addCalls, addCalls]
    cases p.add n c with
    | error f => rfl
    | ok p' => exact ih p'

theorem summed_append (l l' : List (Str × Int)) : summed (l ++ l') = summed l + summed l' := by
  simp [summed, List.sum_append]

theorem summed_one (n : Str) (c : Int) : summed [(n, c)] = if c = -1 then 0 else c := by
  simp [summed]

theorem summed_nil : summed [] = 0 := rfl

theorem covered_lt {l : List (Str × Int)} {k : Nat} {n : Str} (h : Covered l k n) : k < summed l := by
  obtain ⟨pre, c, post, rfl, hc, _, _, h3⟩ := h
  have := h3 post [] (by simp)
  rw [summed_append, show (n, c) :: post = [(n, c)] ++ post from rfl, summed_append, summed_one, if_neg hc]
  omega

theorem covered_snoc (l : List (Str × Int)) (m : Str) (c : Int) (k : Nat) (n : Str) :
    Covered (l ++ [(m, c)]) k n ↔
      (Covered l k n ∧ (c ≠ -1 → k < summed l + c)) ∨ (n = m ∧ c ≠ -1 ∧ summed l ≤ k ∧ k < summed l + c) := by
  constructor
  · rintro ⟨pre, c', post, e, hc, h1, h2, h3⟩
    rcases List.eq_nil_or_concat post with rfl | ⟨post', x, rfl⟩
    · have := List.append_inj' e (by simp)
      obtain ⟨rfl, e2⟩ := this
      cases e2
      exact .inr ⟨rfl, hc, h1, h2⟩
    · rw [List.concat_eq_append, ← List.cons_append, ← List.append_assoc] at e
      have := List.append_inj' e (by simp)
      obtain ⟨rfl, e2⟩ := this
      cases e2
      refine .inl ⟨⟨pre, c', post', rfl, hc, h1, h2, ?_⟩, ?_⟩
      · rintro mid rest rfl
        exact h3 mid (rest ++ [(m, c)]) (by simp)
      · intro hm
        have := h3 (post' ++ [(m, c)]) [] (by simp)
        rw [summed_append, summed_one, if_neg hm] at this
        rw [summed_append, show (n, c') :: post' = [(n, c')] ++ post' from rfl, summed_append, summed_one, if_neg hc]
        omega
  · rintro (⟨⟨pre, c', post, rfl, hc, h1, h2, h3⟩, h4⟩ | ⟨rfl, hc, h1, h2⟩)
    · refine ⟨pre, c', post ++ [(m, c)], by simp, hc, h1, h2, ?_⟩
      intro mid rest e
      rcases List.eq_nil_or_concat rest with rfl | ⟨rest', x, rfl⟩
      · rw [List.append_nil] at e
        subst e
        rw [summed_append, summed_one]
        have := h3 post [] (by simp)
        split
        · omega
        · rename_i hm
          have := h4 hm
          rw [summed_append, show (n, c') :: post = [(n, c')] ++ post from rfl, summed_append, summed_one, if_neg hc] at this
          omega
      · rw [List.concat_eq_append, ← List.append_assoc] at e
        obtain ⟨rfl, _⟩ := List.append_inj' e (by simp)
        exact h3 mid rest' rfl
    · refine ⟨l, c, [], rfl, hc, h1, h2, ?_⟩
      intro mid rest e
      cases List.append_eq_nil_iff.1 e.symm with
      | intro h5 _ => subst h5; rw [summed_nil]; omega

/-- What a description holds after the calls `l`. -/
structure Holds (l : List (Str × Int)) (p : Positional) : Prop where
  size : (p.names.length : Int) = summed l
  names : ∀ k n, p.names[k]? = some n ↔ Covered l k n
  trailing : ∀ n, ForTheRest l n ↔ n ≠ [] ∧ p.trailing = n

theorem addCalls_snoc (l : List (Str × Int)) (m : Str) (c : Int) (p : Positional) (h : Holds l p) :
    (∃ p', p.add m c = .ok p' ∧ Holds (l ++ [(m, c)]) p' ∧ ∀ f, ¬ AddFails l c f) ∨ ∃ f, p.add m c = .error f ∧ AddFails l c f ∧ ∀ f', AddFails l c f' → f' = f := by
  unfold add
  by_cases hc : c = -1
  · subst hc
    rw [if_pos rfl]
    by_cases ht : p.trailing = []
    · left
      rw [if_pos ht]
      refine ⟨_, rfl, ⟨?_, ?_, ?_⟩, ?_⟩
      · rw [summed_append, summed_one, if_pos rfl]; have := h.size; simp only; omega
      · intro k n
        rw [covered_snoc]
        simp only [ne_eq, not_true_eq_false, false_implies, and_true, false_and, and_false, or_false]
        exact h.names k n
      · intro n
        have := h.trailing n
        unfold ForTheRest at this ⊢
        rw [List.mem_append, List.mem_singleton]
        simp only [Prod.mk.injEq, and_true]
        constructor
        · rintro ⟨h0, h1 | h1⟩
          · exact absurd ((this.1 ⟨h0, h1⟩).2.symm.trans ht) h0
          · exact ⟨h0, h1.symm⟩
        · rintro ⟨h0, h1⟩
          exact ⟨h0, .inr h1.symm⟩
      · intro f hf
        cases hf with
        | twice m' _ hm => exact hm.1 (((h.trailing m').1 hm).2.symm.trans ht)
        | negative h1 _ => exact h1 rfl
    · right
      rw [if_neg ht]
      refine ⟨_, rfl, .twice p.trailing rfl ((h.trailing _).2 ⟨ht, rfl⟩), ?_⟩
      intro f' hf
      cases hf with
      | twice => rfl
      | negative h1 _ => exact absurd rfl h1
  · rw [if_neg hc]
    dsimp only
    have hs := h.size
    by_cases hn : (p.names.length : Int) + c < 0
    · right
      rw [if_pos hn]
      refine ⟨_, rfl, .negative hc (by omega), ?_⟩
      intro f' hf
      cases hf with
      | twice _ h1 _ => exact absurd h1 hc
      | negative => rfl
    · left
      rw [if_neg hn]
      generalize hN : ((p.names.length : Int) + c).toNat = N
      refine ⟨_, rfl, ⟨?_, ?_, ?_⟩, ?_⟩
      · simp only [List.length_append, List.length_take, List.length_replicate]
        rw [summed_append, summed_one, if_neg hc]
        omega
      · intro k n
        rw [covered_snoc, ← h.names k n]
        simp only
        rw [List.getElem?_append, List.getElem?_replicate, List.getElem?_take, List.length_take]
        by_cases h1 : k < min N p.names.length
        · rw [if_pos h1, if_pos (by omega)]
          constructor
          · intro h2
            exact .inl ⟨h2, fun _ => by omega⟩
          · rintro (h2 | ⟨_, _, h3, h4⟩)
            · exact h2.1
            · omega
        · rw [if_neg h1]
          constructor
          · intro h2
            split at h2
            · cases h2
              exact .inr ⟨rfl, hc, by omega, by omega⟩
            · cases h2
          · rintro (⟨h2, h3⟩ | ⟨rfl, _, h3, h4⟩)
            · have := (List.getElem?_eq_some_iff.1 h2).1
              have := h3 hc
              omega
            · rw [if_pos (by omega)]
      · intro n
        rw [← h.trailing n]
        unfold ForTheRest
        rw [List.mem_append, List.mem_singleton]
        constructor
        · rintro ⟨h0, h1 | h1⟩
          · exact ⟨h0, h1⟩
          · cases h1; exact absurd rfl hc
        · rintro ⟨h0, h1⟩
          exact ⟨h0, .inl h1⟩
      · intro f hf
        cases hf with
        | twice _ h1 _ => exact hc h1
        | negative _ h2 => omega

theorem holds_nil : Holds [] {} := by
  refine ⟨rfl, ?_, ?_⟩
  · intro k n
    simp [Covered]
  · intro n
    constructor
    · rintro ⟨_, h⟩; cases h
    · rintro ⟨h, rfl⟩; exact absurd rfl h

theorem addCalls_holds (l : List (Str × Int)) (p : Positional) (h : addCalls {} l = .ok p) : Holds l p := by
  induction l using List.reverseRecOn generalizing p with
  | nil => cases h; exact holds_nil
  | append_singleton l x ih =>
    obtain ⟨m, c⟩ := x
    rw [addCalls_append] at h
    cases hl : addCalls {} l with
    | error f => rw [hl] at h; cases h
    | ok q =>
      rw [hl] at h
      dsimp only [addCalls] at h
      rcases addCalls_snoc l m c q (ih q hl) with ⟨p', e, hp, _⟩ | ⟨f, e, _⟩
      · rw [e] at h; cases h; exact hp
      · rw [e] at h; cases h

end Positional
open Positional

/-! ### The calls -/

/-- **C143, failures:** the calls fail iff one of them does after those before it: with a second name for all further positions, or if
the sum of the counts gets negative. -/
theorem C143_fails_iff (l : List (Str × Int)) (f : Fail) :
    addCalls {} l = .error f ↔ ∃ pre n c post p, l = pre ++ (n, c) :: post ∧ addCalls {} pre = .ok p ∧ AddFails pre c f := by
  constructor
  · intro h
    induction l using List.reverseRecOn with
    | nil => cases h
    | append_singleton l x ih =>
      obtain ⟨m, c⟩ := x
      rw [addCalls_append] at h
      cases hl : addCalls {} l with
      | error f' =>
        rw [hl] at h
        cases h
        obtain ⟨pre, n, c', post, p, rfl, h1, h2⟩ := ih hl
        exact ⟨pre, n, c', post ++ [(m, c)], p, by simp, h1, h2⟩
      | ok q =>
        rw [hl] at h
        dsimp only [addCalls] at h
        rcases addCalls_snoc l m c q (addCalls_holds l q hl) with ⟨p', e, _⟩ | ⟨f', e, hf, _⟩
        · rw [e] at h; cases h
        · rw [e] at h; cases h; exact ⟨l, m, c, [], q, rfl, hl, hf⟩
  · rintro ⟨pre, n, c, post, p, rfl, h1, h2⟩
    rw [addCalls_append, h1]
    dsimp only
    rw [addCalls]
    rcases addCalls_snoc pre n c p (addCalls_holds pre p h1) with ⟨p', e, _, h3⟩ | ⟨f', e, _, h3⟩
    · exact absurd h2 (h3 f)
    · rw [e, h3 f h2]

/-- **C143, names:** the name of a position is that of the call whose run it is in, unless the sum of the counts got down to it later; after all
runs it is the one for all further positions. -/
theorem C143_names (l : List (Str × Int)) (p : Positional) (h : addCalls {} l = .ok p) (k : Nat) (n : Str) :
    p.nameForPosition k = .ok n ↔ Covered l k n ∨ (summed l ≤ k ∧ ForTheRest l n) := by
  have hh := addCalls_holds l p h
  unfold nameForPosition
  have hs := hh.size
  cases hk : p.names[k]? with
  | some m =>
    have h1 := (hh.names k m).1 hk
    have h2 := covered_lt h1
    dsimp only
    constructor
    · intro e; cases e; exact .inl h1
    · rintro (h3 | ⟨h3, _⟩)
      · have := (hh.names k n).2 h3
        rw [hk] at this
        cases this
        rfl
      · omega
  | none =>
    have h1 := List.getElem?_eq_none_iff.1 hk
    dsimp only
    constructor
    · intro e
      right
      split at e
      · cases e
      · cases e
        rename_i ht
        exact ⟨by omega, (hh.trailing _).2 ⟨ht, rfl⟩⟩
    · rintro (h3 | ⟨_, h3⟩)
      · have := (hh.names k n).2 h3
        rw [hk] at this
        cases this
      · obtain ⟨h4, h5⟩ := (hh.trailing n).1 h3
        rw [if_neg (by rw [h5]; exact h4), h5]

/-- **C143, number:** there is no limit iff a call has given a non-empty name for all further positions; otherwise it is the sum of the counts. -/
theorem C143_limit (l : List (Str × Int)) (p : Positional) (h : addCalls {} l = .ok p) :
    ((∃ n, ForTheRest l n) → p.maxTotalCount = none) ∧ ((¬ ∃ n, ForTheRest l n) → ∃ m : Nat, p.maxTotalCount = some m ∧ (m : Int) = summed l) := by
  have hh := addCalls_holds l p h
  unfold maxTotalCount
  constructor
  · rintro ⟨n, hn⟩
    obtain ⟨h4, h5⟩ := (hh.trailing n).1 hn
    rw [if_neg (by rw [h5]; exact h4)]
  · intro hn
    rw [if_pos (by
      cases ht : p.trailing with
      | nil => rfl
      | cons a t => exact absurd ⟨a :: t, (hh.trailing (a :: t)).2 ⟨by simp, ht⟩⟩ hn)]
    exact ⟨_, rfl, hh.size⟩

/-- **C143, arguments:** the `i`-th positional argument of an accepted command line is in a run, and has the name of its call, or is after all runs. -/
theorem C143_arguments (l : List (Str × Int)) (p : Positional) (h : addCalls {} l = .ok p) (c : Cmdline) (hs : c.styleParser = none) (hc : c.positional = some p)
    (args : List Str) (res : List Opt) (hr : c.run args = .ok res) (i : Nat) (o : Opt) (ho : (positionals res)[i]? = some o) :
    Covered l i o.stringKey ∨ (summed l ≤ i ∧ ForTheRest l o.stringKey) := by
  have := (C08_numbered c hs args res hr i o ho).2.2
  rw [hc] at this
  exact (C143_names l p h i _).1 this

/-! ### What later calls do -/

theorem Positional.covered_kept (l l' : List (Str × Int)) (k : Nat) (n : Str) (h : Covered l k n) :
    Covered (l ++ l') k n ∧ (∀ mid rest, l' = mid ++ rest → k < summed (l ++ mid)) ∨
      ∃ mid rest, l' = mid ++ rest ∧ summed (l ++ mid) ≤ k := by
  induction l' using List.reverseRecOn with
  | nil =>
    left
    refine ⟨by simpa using h, ?_⟩
    intro mid rest e
    obtain ⟨rfl, _⟩ := List.append_eq_nil_iff.1 e.symm
    rw [List.append_nil]
    exact covered_lt h
  | append_singleton l' x ih =>
    obtain ⟨m, c⟩ := x
    rcases ih with ⟨h1, h2⟩ | ⟨mid, rest, rfl, h1⟩
    · by_cases h3 : k < summed (l ++ (l' ++ [(m, c)]))
      · left
        constructor
        · rw [← List.append_assoc, covered_snoc]
          refine .inl ⟨h1, fun hc => ?_⟩
          rw [← List.append_assoc, summed_append, summed_one, if_neg hc] at h3
          exact h3
        · intro mid rest e
          rcases List.eq_nil_or_concat rest with rfl | ⟨rest', x, rfl⟩
          · rw [List.append_nil] at e
            rw [← e]
            exact h3
          · rw [List.concat_eq_append, ← List.append_assoc] at e
            obtain ⟨rfl, _⟩ := List.append_inj' e (by simp)
            exact h2 mid rest' rfl
      · exact .inr ⟨_, [], (List.append_nil _).symm, by omega⟩
    · exact .inr ⟨mid, rest ++ [(m, c)], by simp, h1⟩

/-- **C143, later calls:** a position keeps the run it is in through all later calls iff the sum of the counts stays above it. -/
theorem C143_kept_iff (l l' : List (Str × Int)) (k : Nat) (n : Str) (h : Covered l k n) :
    (∀ mid rest, l' = mid ++ rest → Covered (l ++ mid) k n) ↔ ∀ mid rest, l' = mid ++ rest → k < summed (l ++ mid) := by
  refine ⟨fun hc mid rest e => covered_lt (hc mid rest e), fun hk mid rest e => ?_⟩
  rcases covered_kept l mid k n h with ⟨h1, _⟩ | ⟨mid', rest', rfl, h1⟩
  · exact h1
  · have := hk mid' (rest' ++ rest) (by rw [e, List.append_assoc])
    omega

/-- The claim of C143 that calls only add names: "up to 'max_count' next positional options should be given the 'name'". -/
def C143_claim : Prop := ∀ (l l' : List (Str × Int)) (p p' : Positional), addCalls {} l = .ok p → addCalls {} (l ++ l') = .ok p' →
  ∀ (k : Nat) n, (k : Int) < summed l → p.nameForPosition k = .ok n → p'.nameForPosition k = .ok n

/-- **C143 is violated:** a count of -2 takes the last two names away; the next call names these positions anew. -/
theorem C143_negation : ¬ C143_claim := by
  intro h
  have := h [(['a'], 3)] [(['b'], -2), (['c'], 1)] _ _ rfl rfl 1 ['a'] (by decide) rfl
  exact absurd this (by decide)

/-- **C143, part that holds:** calls with counts of -1 or more only add names. Missing: counts below -1. -/
theorem C143_kept_partial (l l' : List (Str × Int)) (p p' : Positional) (h : addCalls {} l = .ok p) (h' : addCalls {} (l ++ l') = .ok p')
    (hl : ∀ x ∈ l', -1 ≤ x.2) (k : Nat) (n : Str) (hk : (k : Int) < summed l) (hn : p.nameForPosition k = .ok n) : p'.nameForPosition k = .ok n := by
  have h0 : ∀ mid : List (Str × Int), (∀ x ∈ mid, -1 ≤ x.2) → 0 ≤ summed mid := by
    intro mid hm
    induction mid with
    | nil => simp [summed_nil]
    | cons x mid ih =>
      have h1 := ih fun y hy => hm y (by simp [hy])
      have h2 := hm x (by simp)
      obtain ⟨m, c⟩ := x
      rw [show (m, c) :: mid = [(m, c)] ++ mid from rfl, summed_append, summed_one]
      simp only at h2
      split <;> omega
  rcases (C143_names l p h k n).1 hn with h1 | ⟨h1, _⟩
  · rcases covered_kept l l' k n h1 with ⟨h2, _⟩ | ⟨mid, rest, rfl, h2⟩
    · exact (C143_names _ p' h' k n).2 (.inl h2)
    · have h3 := h0 mid fun x hx => hl x (by simp [hx])
      rw [summed_append] at h2
      omega
  · omega

/-- A call after the one for all further positions, which the documentation forbids, inserts its names before those. -/
theorem C143_after_endless (l : List (Str × Int)) (n m : Str) (c : Nat) (p : Positional) (h : addCalls {} l = .ok p) (hn : ForTheRest l n) :
    ∃ p', addCalls {} (l ++ [(m, (c : Int))]) = .ok p' ∧ ∀ k : Nat, (summed l ≤ k → k < summed l + c → p'.nameForPosition k = .ok m) ∧
      (summed l + c ≤ k → p'.nameForPosition k = .ok n) := by
  have hh := addCalls_holds l p h
  have hs := hh.size
  have hc : (c : Int) ≠ -1 := by omega
  have hok : ∃ p', addCalls {} (l ++ [(m, (c : Int))]) = .ok p' := by
    rw [addCalls_append, h]
    dsimp only [addCalls]
    rcases addCalls_snoc l m c p hh with ⟨p', e, _⟩ | ⟨f, e, hf, _⟩
    · rw [e]; exact ⟨p', rfl⟩
    · exfalso
      cases hf with
      | twice _ h1 _ => exact hc h1
      | negative _ h2 => omega
  obtain ⟨p', h'⟩ := hok
  refine ⟨p', h', fun k => ⟨fun h1 h2 => (C143_names _ p' h' k m).2 (.inl ?_), fun h1 => (C143_names _ p' h' k n).2 (.inr ⟨?_, ?_⟩)⟩⟩
  · rw [covered_snoc]
    exact .inr ⟨rfl, hc, h1, h2⟩
  · rw [summed_append, summed_one, if_neg hc]
    exact h1
  · exact ⟨hn.1, by rw [List.mem_append]; exact .inl hn.2⟩

example : (addCalls {} [(['a'], 3), (['b'], -2), (['c'], 1), (['z'], -1), (['d'], 1)]) = .ok { names := [['a'], ['c'], ['d']], trailing := ['z'] } := rfl
example : addCalls {} [(['a'], 1), (['b'], -2), (['c'], 7)] = .error .lengthError := rfl
example : addCalls {} [(['a'], -1), (['b'], 2), (['c'], -1)] = .error (.ub .trailingTwice) := rfl
/-- An empty name for all further positions is none. -/
example : ∃ p, addCalls {} [(['a'], 1), ([], -1)] = .ok p ∧ p.maxTotalCount = some 1 := ⟨_, rfl, rfl⟩
example : Covered [(['a'], 3), (['b'], -2), (['c'], 1)] 1 ['c'] ∧ ¬ Covered [(['a'], 3), (['b'], -2), (['c'], 1)] 1 ['a'] := by
  have h := addCalls_holds [(['a'], 3), (['b'], -2), (['c'], 1)] _ rfl
  exact ⟨(h.names 1 _).1 rfl, fun h2 => absurd ((h.names 1 _).2 h2) (by decide)⟩

end PO
