import Verif.Model.Str
namespace PO

theorem findSub_eq_zero (s p : Str) : findSub s p = some 0 ↔ p <+: s := by
  cases s with
  | nil => cases p <;> simp [findSub]
  | cons x xs =>
    simp only [findSub]
    by_cases h : p.isPrefixOf (x :: xs) = true
    · simp [h, List.isPrefixOf_iff_prefix.1 h]
    · simp only [h]
      have : ¬ p <+: x :: xs := fun hp => h (List.isPrefixOf_iff_prefix.2 hp)
      simp [this]

theorem findChar_eq_none {s : Str} {c : Char} : findChar s c = none ↔ c ∉ s := by
  induction s with
  | nil => simp [findChar]
  | cons x xs ih =>
    simp only [findChar]
    by_cases h : x = c
    · simp [h]
    · simp [h, ih, Ne.symm h]

theorem findChar_isSome {s : Str} {c : Char} : (findChar s c).isSome = true ↔ c ∈ s := by
  cases h : findChar s c with
  | none => simp [findChar_eq_none.1 h]
  | some n =>
    simp only [Option.isSome_some, true_iff]
    exact Classical.byContradiction fun hc => by rw [findChar_eq_none.2 hc] at h; cases h

/-- `findChar` splits at the first occurrence. -/
theorem findChar_eq_some {s : Str} {c : Char} {n : Nat} :
    findChar s c = some n ↔ ∃ a b, s = a ++ c :: b ∧ c ∉ a ∧ a.length = n := by
  induction s generalizing n with
  | nil => simp [findChar]
  | cons x xs ih =>
    simp only [findChar]
    by_cases h : x = c
    · subst h
      simp only [if_true, Option.some.injEq]
      constructor
      · rintro rfl; exact ⟨[], xs, by simp⟩
      · rintro ⟨a, b, he, hn, hl⟩
        cases a with
        | nil => simpa using hl
        | cons y ys => simp at he; simp [he.1] at hn
    · simp only [h, if_false, Option.map_eq_some_iff]
      constructor
      · rintro ⟨m, hm, rfl⟩
        obtain ⟨a, b, rfl, ha, hl⟩ := ih.1 hm
        exact ⟨x :: a, b, by simp, by simp [ha, Ne.symm h], by simp [hl]⟩
      · rintro ⟨a, b, he, hn, hl⟩
        cases a with
        | nil => simp at he; exact absurd he.1 h
        | cons y ys =>
          simp at he
          refine ⟨ys.length, ih.2 ⟨ys, b, he.2, ?_, rfl⟩, by simpa using hl⟩
          exact fun hc => hn (by simp [hc])

theorem findChar_append {a b : Str} {c : Char} (h : c ∉ a) :
    findChar (a ++ c :: b) c = some a.length := findChar_eq_some.2 ⟨a, b, rfl, h, rfl⟩

theorem toLower_toLower_char (c : Char) : c.toLower.toLower = c.toLower := by
  simp only [Char.toLower]
  split
  · rename_i h
    rw [dif_neg]
    simp only [UInt32.le_iff_toNat_le, UInt32.toNat_add] at h ⊢
    have h1 : ('A' : Char).val.toNat = 65 := rfl
    have h2 : ('Z' : Char).val.toNat = 90 := rfl
    have h3 : UInt32.toNat ('a'.val - 'A'.val) = 32 := rfl
    simp only [h1, h2, h3] at h ⊢
    omega
  · rfl

theorem toLower_toLower (s : Str) : toLower (toLower s) = toLower s := by
  simp [toLower, toLower_toLower_char]

end PO
