import Verif.Model.Positional
import Verif.Tests.Util
/-
C07: names of positional options.
-/
namespace PO

/-- A call `add(name, count)` for each entry, `none` standing for the count -1. -/
def addAll (p : Positional) : List (Str × Option Nat) → Except Fail Positional
  | [] => .ok p
  | (n, c) :: rest =>
    match p.add n (match c with | some k => (k : Int) | none => -1) with
    | .error f => .error f
    | .ok p' => addAll p' rest

/-- Specification: the name of position `k` given by the runs with a count; `none` beyond them. -/
def nameAt : List (Str × Option Nat) → Nat → Option Str
  | [], _ => none
  | (_, none) :: rest, k => nameAt rest k
  | (n, some c) :: rest, k => if k < c then some n else nameAt rest (k - c)

/-- Specification: the sum of the counts. -/
def totalCount : List (Str × Option Nat) → Nat
  | [] => 0
  | (_, none) :: rest => totalCount rest
  | (_, some c) :: rest => c + totalCount rest

/-- Specification: the names given with count -1. -/
def trailingNames : List (Str × Option Nat) → List Str
  | [] => []
  | (n, none) :: rest => n :: trailingNames rest
  | (_, some _) :: rest => trailingNames rest

theorem add_nat (p : Positional) (n : Str) (k : Nat) :
    p.add n (k : Int) = .ok { p with names := p.names ++ List.replicate k n } := by
  unfold Positional.add
  have h1 : ¬ ((k : Int) = -1) := by omega
  have h2 : ¬ ((p.names.length : Int) + k < 0) := by omega
  have h3 : ((p.names.length : Int) + k).toNat = p.names.length + k := by omega
  simp only [h1, if_false, h2, h3]
  simp [List.take_of_length_le]

theorem nameAt_lt (l : List (Str × Option Nat)) (k : Nat) (h : nameAt l k = none) : totalCount l ≤ k := by
  induction l generalizing k with
  | nil => simp [totalCount]
  | cons a l ih =>
    obtain ⟨n, _ | c⟩ := a
    · exact ih k h
    · simp only [nameAt] at h
      split at h
      · cases h
      · have := ih _ h; simp only [totalCount]; omega

theorem nameAt_none (l : List (Str × Option Nat)) (k : Nat) (h : totalCount l ≤ k) : nameAt l k = none := by
  induction l generalizing k with
  | nil => rfl
  | cons a l ih =>
    obtain ⟨n, _ | c⟩ := a
    · exact ih k h
    · simp only [totalCount] at h
      simp only [nameAt]
      rw [if_neg (by omega)]
      exact ih _ (by omega)

/-- The positions of a run of `c`, counted from the sum of the counts before it. -/
theorem nameAt_run (pre post : List (Str × Option Nat)) (n : Str) (c i : Nat) (h1 : totalCount pre ≤ i) (h2 : i < totalCount pre + c) :
    nameAt (pre ++ (n, some c) :: post) i = some n := by
  induction pre generalizing i with
  | nil => simp only [totalCount] at h2; simp only [List.nil_append, nameAt]; rw [if_pos (by omega)]
  | cons a l ih =>
    obtain ⟨m, _ | k⟩ := a
    · exact ih i h1 h2
    · simp only [totalCount] at h1 h2
      simp only [List.cons_append, nameAt]
      rw [if_neg (by omega)]
      exact ih _ (by omega) (by omega)

theorem addAll_spec (l : List (Str × Option Nat)) (p : Positional)
    (ht : (p.trailing = [] ∧ (trailingNames l).length ≤ 1) ∨ trailingNames l = []) :
    ∃ q, addAll p l = .ok q ∧
      (q.trailing = if trailingNames l = [] then p.trailing else (trailingNames l).headD []) ∧
      ∀ k, q.names[k]? = if k < p.names.length then p.names[k]? else nameAt l (k - p.names.length) := by
  induction l generalizing p with
  | nil =>
    refine ⟨p, rfl, by simp [trailingNames], fun k => ?_⟩
    simp only [nameAt]
    split
    · rfl
    · rename_i h; simpa using h
  | cons a l ih =>
    obtain ⟨n, _ | c⟩ := a
    · simp only [trailingNames] at ht
      rcases ht with ⟨h1, h2⟩ | h
      · have hl : trailingNames l = [] := by
          cases h : trailingNames l with
          | nil => rfl
          | cons x xs => simp [h] at h2
        obtain ⟨q, hq, hqt, hqn⟩ := ih { p with trailing := n } (.inr hl)
        refine ⟨q, ?_, ?_, ?_⟩
        · simp [addAll, Positional.add, h1, hq]
        · simp [trailingNames, hqt, hl]
        · intro k; rw [hqn k]; rfl
      · cases h
    · obtain ⟨q, hq, hqt, hqn⟩ := ih { p with names := p.names ++ List.replicate c n } ht
      refine ⟨q, ?_, ?_, ?_⟩
      · simp only [addAll, add_nat, hq]
      · rw [hqt]; rfl
      · intro k
        rw [hqn k]
        simp only [List.length_append, List.length_replicate, nameAt]
        by_cases h1 : k < p.names.length
        · rw [if_pos (by omega), if_pos h1, List.getElem?_append_left h1]
        · rw [if_neg h1]
          by_cases h2 : k < p.names.length + c
          · rw [if_pos h2, if_pos (by omega), List.getElem?_append_right (by omega)]
            simp only [List.getElem?_replicate]
            rw [if_pos (by omega)]
          · rw [if_neg h2, if_neg (by omega)]
            congr 1; omega

/-- **C07, bounded.** After calls with counts only: the maximum is the sum of the counts, and each
position below it carries the name of the run it falls in. -/
theorem C07_positional_names (l : List (Str × Option Nat)) (hl : trailingNames l = []) :
    ∃ p, addAll {} l = .ok p ∧ p.maxTotalCount = some (totalCount l) ∧
      ∀ k < totalCount l, ∃ n, nameAt l k = some n ∧ p.nameForPosition k = .ok n := by
  obtain ⟨p, hp, hpt, hpn⟩ := addAll_spec l {} (.inr hl)
  have hn : ∀ k, p.names[k]? = nameAt l k := fun k => by simpa using hpn k
  have hlen : p.names.length = totalCount l := by
    apply Nat.le_antisymm
    · apply Nat.le_of_not_lt
      intro h
      have h1 := hn (totalCount l)
      rw [nameAt_none l _ (Nat.le_refl _)] at h1
      simp at h1; omega
    · exact nameAt_lt l _ (by rw [← hn]; simp)
  refine ⟨p, hp, ?_, ?_⟩
  · rw [hl] at hpt
    simp only [if_true] at hpt
    simp [Positional.maxTotalCount, hpt, hlen]
  · intro k hk
    cases h : nameAt l k with
    | none => exact absurd (nameAt_lt l k h) (by omega)
    | some n =>
      refine ⟨n, rfl, ?_⟩
      simp [Positional.nameForPosition, hn, h]

/-- **C07, with a trailing name.** If one of the calls has count -1 (and a non-empty name `t`), there
is no maximum, positions below the sum of the counts are named by the runs, and every later position
is named `t`. -/
theorem C07_positional_trailing (l : List (Str × Option Nat)) (t : Str) (ht : t ≠ [])
    (hl : trailingNames l = [t]) :
    ∃ p, addAll {} l = .ok p ∧ p.maxTotalCount = none ∧
      ∀ k, p.nameForPosition k = .ok ((nameAt l k).getD t) ∧ ((nameAt l k).isSome ↔ k < totalCount l) := by
  obtain ⟨p, hp, hpt, hpn⟩ := addAll_spec l {} (.inl ⟨rfl, by simp [hl]⟩)
  have hn : ∀ k, p.names[k]? = nameAt l k := fun k => by simpa using hpn k
  have hpt' : p.trailing = t := by simpa [hl] using hpt
  refine ⟨p, hp, by simp [Positional.maxTotalCount, hpt', ht], fun k => ⟨?_, ?_⟩⟩
  · simp only [Positional.nameForPosition, hn, hpt']
    cases nameAt l k <;> simp [ht]
  · cases h : nameAt l k with
    | none => simp [nameAt_lt l k h]
    | some n =>
      simp only [Option.isSome_some, true_iff]
      apply Classical.byContradiction
      intro hc
      rw [nameAt_none l k (by omega)] at h
      cases h

/-- A second call with count -1 trips the assertion in `add`. -/
theorem C07_two_trailing (p : Positional) (t : Str) (h : p.trailing ≠ []) :
    p.add t (-1) = .error (.ub .trailingTwice) := by
  simp [Positional.add, h]

example : trailingNames [(Test.L "in", some 2), (Test.L "out", some 1), (Test.L "rest", none)] = [Test.L "rest"] ∧
    (List.range 5).map (nameAt [(Test.L "in", some 2), (Test.L "out", some 1), (Test.L "rest", none)]) =
      [some (Test.L "in"), some (Test.L "in"), some (Test.L "out"), none, none] := by decide

end PO
