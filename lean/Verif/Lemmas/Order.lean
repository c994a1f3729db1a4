import Verif.Spec.Order
/-
The order on strings, ordered sets and ordered maps.
-/
namespace PO

theorem char_eq_of_toNat {a b : Char} (h : a.toNat = b.toNat) : a = b := by
  apply Char.ext
  exact UInt32.toNat_inj.1 h

theorem strLt_irrefl (a : Str) : strLt a a = false := by
  induction a with
  | nil => rfl
  | cons x xs ih => simp [strLt, ih]

theorem strLt_trans {a b c : Str} (h1 : strLt a b = true) (h2 : strLt b c = true) : strLt a c = true := by
  induction a generalizing b c with
  | nil =>
    cases c with
    | nil => cases b <;> simp [strLt] at h2
    | cons => rfl
  | cons x xs ih =>
    cases b with
    | nil => simp [strLt] at h1
    | cons y ys =>
      cases c with
      | nil => simp [strLt] at h2
      | cons z zs =>
        simp only [strLt] at h1 h2 ⊢
        grind

theorem strLt_connex {a b : Str} (h1 : strLt a b = false) (h2 : strLt b a = false) : a = b := by
  induction a generalizing b with
  | nil => cases b with
    | nil => rfl
    | cons => simp [strLt] at h1
  | cons x xs ih =>
    cases b with
    | nil => simp [strLt] at h2
    | cons y ys =>
      simp only [strLt] at h1 h2
      have hx : x = y := char_eq_of_toNat (by grind)
      subst hx
      rw [ih (b := ys) (by grind) (by grind)]

theorem strLt_asymm {a b : Str} (h : strLt a b = true) : strLt b a = false := by
  cases h' : strLt b a with
  | false => rfl
  | true => rw [← strLt_irrefl a, strLt_trans h h']

theorem strLt_iff (a b : Str) : strLt a b = true ↔ Spec.Earlier a b := by
  induction a generalizing b with
  | nil =>
    cases b with
    | nil =>
      refine ⟨(fun h => nomatch h), ?_⟩
      rintro (⟨x, t, h⟩ | ⟨p, x, y, s, t, h, -, -⟩)
      · cases h
      · cases p <;> cases h
    | cons y t => exact ⟨fun _ => .inl ⟨y, t, rfl⟩, fun _ => rfl⟩
  | cons x s ih =>
    cases b with
    | nil =>
      refine ⟨(fun h => nomatch h), ?_⟩
      rintro (⟨x, t, h⟩ | ⟨p, x, y, s, t, -, h, -⟩)
      · cases h
      · cases p <;> cases h
    | cons y t =>
      unfold strLt
      by_cases h1 : x.toNat < y.toNat
      · rw [if_pos h1]
        exact ⟨fun _ => .inr ⟨[], x, y, s, t, rfl, rfl, h1⟩, fun _ => rfl⟩
      · rw [if_neg h1]
        by_cases h2 : y.toNat < x.toNat
        · rw [if_pos h2]
          refine ⟨(fun h => nomatch h), ?_⟩
          rintro (⟨x', t', h⟩ | ⟨p, x', y', s', t', h, h', hlt⟩)
          · cases h; omega
          · cases p with
            | nil => cases h; cases h'; omega
            | cons c p => cases h; cases h'; omega
        · rw [if_neg h2, ih]
          have e : x = y := Char.toNat_inj.1 (by omega)
          subst e
          constructor
          · rintro (⟨x', t', rfl⟩ | ⟨p, x', y', s', t', rfl, rfl, hlt⟩)
            · exact .inl ⟨x', t', rfl⟩
            · exact .inr ⟨x :: p, x', y', s', t', rfl, rfl, hlt⟩
          · rintro (⟨x', t', h⟩ | ⟨p, x', y', s', t', h, h', hlt⟩)
            · cases h; exact .inl ⟨x', t', rfl⟩
            · cases p with
              | nil => cases h; cases h'; omega
              | cons c p => cases h; cases h'; exact .inr ⟨p, x', y', s', t', rfl, rfl, hlt⟩

theorem strLt_iff_not (a b : Str) : strLt a b = false ↔ ¬ Spec.Earlier a b := by
  rw [← strLt_iff, Bool.not_eq_true]

theorem strLt_ne {a b : Str} (h : strLt a b = true) : a ≠ b := by
  rintro rfl; simp [strLt_irrefl] at h

/-! ### Sets -/

/-- A `std::set` is strictly increasing. -/
abbrev SSet.Sorted (m : SSet) : Prop := m.Pairwise fun a b => strLt a b = true

theorem SSet.mem_insert (m : SSet) (s x : Str) : x ∈ m.insert s ↔ x = s ∨ x ∈ m := by
  induction m with
  | nil => simp [SSet.insert]
  | cons y ys ih =>
    simp only [SSet.insert]
    split
    · simp only [List.mem_cons, ih]; grind
    · split
      · simp
      · rename_i h1 h2
        have := strLt_connex (by simpa using h1) (by simpa using h2)
        subst this; simp

theorem SSet.sorted_insert {m : SSet} (h : m.Sorted) (s : Str) : (m.insert s).Sorted := by
  induction m with
  | nil => simp [SSet.insert]
  | cons y ys ih =>
    rw [SSet.Sorted, List.pairwise_cons] at h
    simp only [SSet.insert]
    split
    · rename_i h1
      rw [SSet.Sorted, List.pairwise_cons]
      refine ⟨fun a ha => ?_, ih h.2⟩
      rcases (SSet.mem_insert _ _ _).1 ha with rfl | ha
      · exact h1
      · exact h.1 a ha
    · split
      · rename_i h1 h2
        rw [SSet.Sorted, List.pairwise_cons]
        refine ⟨fun a ha => ?_, List.pairwise_cons.2 h⟩
        rcases List.mem_cons.1 ha with rfl | ha
        · exact h2
        · exact strLt_trans h2 (h.1 a ha)
      · exact List.pairwise_cons.2 h

theorem SSet.mem_insertAll (m : SSet) (xs : List Str) (x : Str) : x ∈ m.insertAll xs ↔ x ∈ m ∨ x ∈ xs := by
  unfold SSet.insertAll
  induction xs generalizing m with
  | nil => simp
  | cons y ys ih => simp only [List.foldl_cons, ih, SSet.mem_insert, List.mem_cons]; grind

theorem SSet.sorted_insertAll {m : SSet} (h : m.Sorted) (xs : List Str) : (m.insertAll xs).Sorted := by
  unfold SSet.insertAll
  induction xs generalizing m with
  | nil => exact h
  | cons y ys ih => exact ih (SSet.sorted_insert h y)

theorem SSet.has_iff (m : SSet) (s : Str) : m.has s = true ↔ s ∈ m := by
  simp [SSet.has, List.any_eq_true]

/-- Two strictly increasing lists with the same elements are equal. -/
theorem SSet.ext {a b : SSet} (ha : a.Sorted) (hb : b.Sorted) (h : ∀ x, x ∈ a ↔ x ∈ b) : a = b := by
  induction a generalizing b with
  | nil =>
    cases b with
    | nil => rfl
    | cons y ys => exact absurd ((h y).2 (by simp)) (by simp)
  | cons x xs ih =>
    cases b with
    | nil => exact absurd ((h x).1 (by simp)) (by simp)
    | cons y ys =>
      rw [SSet.Sorted, List.pairwise_cons] at ha hb
      have hxy : x = y := by
        rcases List.mem_cons.1 ((h x).1 (by simp)) with e | e
        · exact e
        · rcases List.mem_cons.1 ((h y).2 (by simp)) with e' | e'
          · exact e'.symm
          · have h1 := hb.1 x e
            have h2 := ha.1 y e'
            rw [strLt_asymm h1] at h2; cases h2
      subst hxy
      congr 1
      apply ih ha.2 hb.2
      intro z
      constructor
      · intro hz
        rcases List.mem_cons.1 ((h z).1 (by simp [hz])) with e | e
        · subst e; exact absurd rfl (strLt_ne (ha.1 z hz))
        · exact e
      · intro hz
        rcases List.mem_cons.1 ((h z).2 (by simp [hz])) with e | e
        · subst e; exact absurd rfl (strLt_ne (hb.1 z hz))
        · exact e

/-! ### Maps -/

/-- A `std::map` has strictly increasing keys. -/
abbrev SMap.Sorted {α : Type} (m : SMap α) : Prop := m.Pairwise fun a b => strLt a.1 b.1 = true

theorem SMap.get?_set {α : Type} (m : SMap α) (k s : Str) (v : α) :
    (m.set k v).get? s = if k = s then some v else m.get? s := by
  induction m with
  | nil => simp [SMap.set, SMap.get?]
  | cons p m ih =>
    obtain ⟨k', w⟩ := p
    simp only [SMap.set]
    split
    · rename_i h; subst h; simp only [SMap.get?]; split <;> simp_all
    · split
      · simp only [SMap.get?, ih]; split <;> grind
      · simp only [SMap.get?]

theorem SMap.mem_keys_set {α : Type} (m : SMap α) (k : Str) (v : α) (p : Str × α) (h : p ∈ m.set k v) :
    p = (k, v) ∨ (p ∈ m) := by
  induction m with
  | nil => simpa [SMap.set] using h
  | cons q m ih =>
    obtain ⟨k', w⟩ := q
    simp only [SMap.set] at h
    split at h
    · rename_i e; subst e; rcases List.mem_cons.1 h with e | e <;> simp [e]
    · split at h
      · rcases List.mem_cons.1 h with e | e
        · simp [e]
        · rcases ih e with e | e <;> simp [e]
      · rcases List.mem_cons.1 h with e | e
        · simp [e]
        · simp [e]

theorem SMap.sorted_set {α : Type} {m : SMap α} (h : m.Sorted) (k : Str) (v : α) : (m.set k v).Sorted := by
  induction m with
  | nil => simp [SMap.set]
  | cons p m ih =>
    obtain ⟨k', w⟩ := p
    rw [SMap.Sorted, List.pairwise_cons] at h
    simp only [SMap.set]
    split
    · exact List.pairwise_cons.2 h
    · rename_i hne
      split
      · rename_i hlt
        rw [SMap.Sorted, List.pairwise_cons]
        refine ⟨fun q hq => ?_, ih h.2⟩
        rcases SMap.mem_keys_set _ _ _ _ hq with e | e
        · subst e; exact hlt
        · exact h.1 q e
      · rename_i hlt
        have hlt' : strLt k k' = true := by
          cases h' : strLt k k' with
          | true => rfl
          | false => exact absurd (strLt_connex (by simpa using hlt) h') hne
        rw [SMap.Sorted, List.pairwise_cons]
        refine ⟨fun q hq => ?_, List.pairwise_cons.2 h⟩
        rcases List.mem_cons.1 hq with e | e
        · subst e; exact hlt'
        · exact strLt_trans hlt' (h.1 q e)

theorem SMap.get?_eq_some {α : Type} {m : SMap α} (h : m.Sorted) (k : Str) (v : α) :
    m.get? k = some v ↔ (k, v) ∈ m := by
  induction m with
  | nil => simp [SMap.get?]
  | cons p m ih =>
    obtain ⟨k', w⟩ := p
    rw [SMap.Sorted, List.pairwise_cons] at h
    simp only [SMap.get?]
    split
    · rename_i e; subst e
      constructor
      · intro e; injection e with e; simp [e]
      · intro hm
        rcases List.mem_cons.1 hm with e | e
        · injection e with _ e; simp [e]
        · exact absurd rfl (strLt_ne (h.1 (k', v) e))
    · rename_i e
      rw [ih h.2]
      constructor
      · intro hm; simp [hm]
      · intro hm
        rcases List.mem_cons.1 hm with e' | e'
        · injection e' with e1; exact absurd e1.symm e
        · exact e'

theorem SMap.get?_isSome {α : Type} (m : SMap α) (k : Str) : (m.get? k).isSome = true ↔ k ∈ m.map (·.1) := by
  induction m with
  | nil => simp [SMap.get?]
  | cons p m ih =>
    obtain ⟨k', w⟩ := p
    simp only [SMap.get?, List.map_cons, List.mem_cons]
    split
    · rename_i e; simp [e]
    · rename_i e; rw [ih]; simp [Ne.symm e]

end PO
