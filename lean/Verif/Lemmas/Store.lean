import Verif.Lemmas.Str
import Verif.Spec.Store
import Verif.Lemmas.Order
/-
What one `store` does to one name.
-/
namespace PO
open Spec

theorem key_nil (d : OptionDesc) : d.key [] = d.own := by
  unfold OptionDesc.key OptionDesc.own
  cases d.longNames with
  | nil => rfl
  | cons n t =>
    simp only [List.head?_cons]
    by_cases hs : '*' ∈ n
    · rw [if_pos (findChar_isSome.2 hs), if_pos hs]
    · rw [if_neg (fun h => hs (findChar_isSome.1 h)), if_neg hs]


theorem mentions_iff (os : List Opt) (name : Str) : Mentions os name ↔ occurrences os name ≠ [] := by
  unfold Mentions occurrences
  constructor
  · rintro ⟨o, ho, hc⟩ he
    rw [List.filter_eq_nil_iff] at he
    exact he o ho (by simpa using hc)
  · intro h
    obtain ⟨o, ho⟩ := List.exists_mem_of_ne_nil _ h
    rw [List.mem_filter] at ho
    exact ⟨o, ho.1, by simpa using ho.2⟩

theorem mentions_nil (name : Str) : ¬ Mentions [] name := by simp [Mentions]

/-- A round of the first loop leaves every other name alone, failing or not. -/
theorem storeOne_frame (desc pre utf8 final m nf o) (name : Str)
    (h : ¬ (o.stringKey = name ∧ name ≠ [] ∧ o.unregistered = false ∧ name ∉ final)) :
    (storeOne desc pre utf8 final m nf o).1.1.get? name = m.get? name ∧
    (name ∈ (storeOne desc pre utf8 final m nf o).1.2 ↔ name ∈ nf) := by
  unfold storeOne
  simp only
  split
  · simp
  · split
    · simp
    · split
      · simp
      · rename_i h1 h2 h3
        have hk : o.stringKey ≠ name := by
          intro e
          rw [SSet.has_iff] at h3
          exact h ⟨e, e ▸ h1, by simpa using h2, e ▸ h3⟩
        cases findOrThrow desc o.stringKey false false false with
        | error f => simp
        | ok d =>
          simp only
          split
          · simp [SMap.get?_set, hk]
          · refine ⟨by simp [SMap.get?_set, hk], ?_⟩
            cases d.semantic.isComposing
            · simp [SSet.mem_insert, Ne.symm hk]
            · simp

/-- A round about `name` itself. -/
theorem storeOne_hit (desc pre utf8 final m nf o) (name : Str) (m' nf')
    (h1 : o.stringKey = name) (h2 : name ≠ []) (h3 : o.unregistered = false) (h4 : name ∉ final)
    (hok : storeOne desc pre utf8 final m nf o = ((m', nf'), none)) :
    ∃ d a, findOrThrow desc name false false false = .ok d ∧
      d.semantic.parse (if ((m.get? name).getD {}).defaulted then none else ((m.get? name).getD {}).v) o.value utf8 = (a, none) ∧
      m'.get? name = some { v := a, defaulted := false, semantic := some d.semantic } ∧
      (name ∈ nf' ↔ name ∈ nf ∨ d.semantic.isComposing = false) := by
  unfold storeOne at hok
  have h4' : ¬ final.has name = true := by rwa [SSet.has_iff]
  subst h1
  simp only [if_neg h2, h3, if_neg h4', Bool.false_eq_true, if_false] at hok
  cases hf : findOrThrow desc o.stringKey false false false with
  | error f => simp [hf] at hok
  | ok d =>
    simp only [hf] at hok
    refine ⟨d, ?_⟩
    have hv : (if ((m.get? o.stringKey).getD {}).defaulted = true then ({} : VarValue) else (m.get? o.stringKey).getD {}).v =
        if ((m.get? o.stringKey).getD {}).defaulted = true then none else ((m.get? o.stringKey).getD {}).v := by
      split <;> rfl
    have hdf : (if ((m.get? o.stringKey).getD {}).defaulted = true then ({} : VarValue) else (m.get? o.stringKey).getD {}).defaulted = false := by
      cases hdd : ((m.get? o.stringKey).getD {}).defaulted
      · simpa using hdd
      · rfl
    rw [hv] at hok
    cases hp : d.semantic.parse (if ((m.get? o.stringKey).getD {}).defaulted = true then none else ((m.get? o.stringKey).getD {}).v) o.value utf8 with
    | mk a e =>
      rw [hp] at hok
      cases e with
      | some f => simp at hok
      | none =>
        simp only [Prod.mk.injEq, and_true] at hok
        obtain ⟨rfl, rfl⟩ := hok
        refine ⟨a, rfl, rfl, ?_, ?_⟩
        · rw [SMap.get?_set, if_pos rfl, hdf]
        · cases d.semantic.isComposing <;> simp [SSet.mem_insert]

theorem occurrences_cons (o : Opt) (os : List Opt) (name : Str) :
    occurrences (o :: os) name =
      if o.stringKey = name ∧ name ≠ [] ∧ o.unregistered = false then o :: occurrences os name else occurrences os name := by
  unfold occurrences
  rw [List.filter_cons]
  by_cases h : o.stringKey = name ∧ name ≠ [] ∧ o.unregistered = false
  · simp only [h, decide_true, if_true, ne_eq, not_false_eq_true, and_self]
  · simp only [h, decide_false, if_false]
    rfl

/-- The first loop, seen from a name that is final or not mentioned. -/
theorem storeLoop_frame (desc pre utf8 final) (name : Str) (os : List Opt) (m nf)
    (h : ¬ Mentions os name ∨ name ∈ final) :
    (storeLoop desc pre utf8 final os m nf).1.1.get? name = m.get? name ∧
    (name ∈ (storeLoop desc pre utf8 final os m nf).1.2 ↔ name ∈ nf) := by
  induction os generalizing m nf with
  | nil => simp [storeLoop]
  | cons o os ih =>
    have hf := storeOne_frame desc pre utf8 final m nf o name (by
      rintro ⟨a, b, c, d⟩
      rcases h with h | h
      · exact h ⟨o, by simp, a, b, c⟩
      · exact d h)
    have h' : ¬ Mentions os name ∨ name ∈ final := by
      rcases h with h | h
      · exact .inl fun ⟨o', hm, r⟩ => h ⟨o', by simp [hm], r⟩
      · exact .inr h
    rw [storeLoop]
    generalize storeOne desc pre utf8 final m nf o = r at *
    obtain ⟨⟨m', nf'⟩, e⟩ := r
    cases e with
    | some f => exact hf
    | none =>
      obtain ⟨i1, i2⟩ := ih m' nf' h'
      exact ⟨i1.trans hf.1, i2.trans hf.2⟩

/-- The first loop, seen from a mentioned name that is not final. -/
theorem storeLoop_hit (desc pre utf8 final) (name : Str) (os : List Opt) (m nf m' nf')
    (h : Mentions os name) (hfin : name ∉ final)
    (hok : storeLoop desc pre utf8 final os m nf = ((m', nf'), none)) :
    ∃ d a, findOrThrow desc name false false false = .ok d ∧
      parseAll d.semantic utf8 (if ((m.get? name).getD {}).defaulted then none else ((m.get? name).getD {}).v)
        ((occurrences os name).map (·.value)) = .ok a ∧
      m'.get? name = some { v := a, defaulted := false, semantic := some d.semantic } ∧
      (name ∈ nf' ↔ name ∈ nf ∨ d.semantic.isComposing = false) := by
  induction os generalizing m nf with
  | nil => exact absurd h (mentions_nil _)
  | cons o os ih =>
    rw [storeLoop] at hok
    by_cases hc : o.stringKey = name ∧ name ≠ [] ∧ o.unregistered = false
    · have hone := storeOne_hit desc pre utf8 final m nf o name
      generalize storeOne desc pre utf8 final m nf o = r at *
      obtain ⟨⟨m1, nf1⟩, e⟩ := r
      cases e with
      | some f => simp at hok
      | none =>
        simp only at hok
        obtain ⟨d, a, hd, hp, hg, hn⟩ := hone m1 nf1 hc.1 hc.2.1 hc.2.2 hfin rfl
        rw [occurrences_cons, if_pos hc, List.map_cons]
        by_cases hm : Mentions os name
        · obtain ⟨d', a', hd', hp', hg', hn'⟩ := ih m1 nf1 hm hok
          rw [hd] at hd'
          injection hd' with hd'
          subst hd'
          refine ⟨d, a', hd, ?_, hg', ?_⟩
          · rw [parseAll, hp]
            simpa [hg] using hp'
          · rw [hn', hn]
            constructor
            · rintro ((h | h) | h) <;> simp [h]
            · rintro (h | h) <;> simp [h]
        · have hfr := storeLoop_frame desc pre utf8 final name os m1 nf1 (.inl hm)
          rw [hok] at hfr
          refine ⟨d, a, hd, ?_, hfr.1.trans hg, hfr.2.trans hn⟩
          have : occurrences os name = [] := by
            rw [mentions_iff] at hm; simpa using hm
          rw [this, List.map_nil, parseAll, hp]
          rfl
    · have hfr := storeOne_frame desc pre utf8 final m nf o name (fun h => hc ⟨h.1, h.2.1, h.2.2.1⟩)
      have hm : Mentions os name := by
        obtain ⟨o', ho', r⟩ := h
        rcases List.mem_cons.1 ho' with e | e
        · subst e; exact absurd r hc
        · exact ⟨o', e, r⟩
      generalize storeOne desc pre utf8 final m nf o = r at *
      obtain ⟨⟨m1, nf1⟩, e⟩ := r
      cases e with
      | some f => simp at hok
      | none =>
        simp only at hok hfr
        obtain ⟨d, a, hd, hp, hg, hn⟩ := ih m1 nf1 hm hok
        refine ⟨d, a, hd, ?_, hg, hn.trans (by rw [hfr.2])⟩
        rw [occurrences_cons, if_neg hc, ← hfr.1]
        exact hp

theorem storeLoop_sorted (desc pre utf8 final) (os : List Opt) (m nf) (hm : SMap.Sorted m) :
    SMap.Sorted (storeLoop desc pre utf8 final os m nf).1.1 := by
  induction os generalizing m nf with
  | nil => exact hm
  | cons o os ih =>
    have h1 : SMap.Sorted (storeOne desc pre utf8 final m nf o).1.1 := by
      unfold storeOne
      simp only
      split
      · exact hm
      · split
        · exact hm
        · split
          · exact hm
          · cases findOrThrow desc o.stringKey false false false with
            | error f => exact hm
            | ok d =>
              simp only
              split
              · exact SMap.sorted_set hm _ _
              · exact SMap.sorted_set hm _ _
    rw [storeLoop]
    generalize storeOne desc pre utf8 final m nf o = r at *
    obtain ⟨⟨m', nf'⟩, e⟩ := r
    cases e with
    | some f => exact h1
    | none => exact ih m' nf' h1

/-! ### Second loop -/

theorem applyOne_get (pre : Nat) (m req d) (name : Str) :
    (applyOne pre m req d).1.get? name =
      match m.get? name with
      | some v => some v
      | none =>
        if d.own = name ∧ name ≠ [] then
          d.semantic.applyDefault.map fun a => { v := a, defaulted := true, semantic := some d.semantic }
        else none := by
  unfold applyOne
  simp only [key_nil]
  by_cases hk : d.own = []
  · rw [if_pos hk]
    have : ¬ (d.own = name ∧ name ≠ []) := by rw [hk]; rintro ⟨a, b⟩; exact b a.symm
    rw [if_neg this]
    cases m.get? name <;> rfl
  · rw [if_neg hk]
    simp only
    by_cases hh : m.has (d.own) = true
    · rw [if_pos hh]
      cases hg : m.get? name with
      | some v => rfl
      | none =>
        have : ¬ (d.own = name ∧ name ≠ []) := by
          rintro ⟨rfl, _⟩
          simp [SMap.has, hg] at hh
        simp [this]
    · rw [if_neg hh]
      have hn : m.get? (d.own) = none := by simpa [SMap.has] using hh
      cases hd : d.semantic.applyDefault with
      | none => cases m.get? name <;> simp
      | some a =>
        simp only [SMap.get?_set]
        by_cases e : d.own = name
        · subst e; simp [hn, hk]
        · simp only [e, if_false, false_and]
          cases m.get? name <;> rfl

theorem applyAll_get (pre : Nat) (desc : List OptionDesc) (m req) (name : Str) :
    (applyAll pre desc m req).1.get? name =
      match m.get? name with
      | some v => some v
      | none => (firstDefault desc name).map fun p => { v := p.2, defaulted := true, semantic := some p.1 } := by
  induction desc generalizing m req with
  | nil => simp only [applyAll, firstDefault, List.findSome?_nil]; cases m.get? name <;> rfl
  | cons d ds ih =>
    rw [applyAll]
    have h1 := applyOne_get pre m req d name
    generalize applyOne pre m req d = r at *
    obtain ⟨m1, r1⟩ := r
    simp only at h1 ⊢
    rw [ih, h1]
    simp only [firstDefault, List.findSome?_cons]
    cases m.get? name with
    | some v => rfl
    | none =>
      simp only
      by_cases e : d.own = name ∧ name ≠ []
      · simp only [if_pos e]
        cases d.semantic.applyDefault <;> rfl
      · simp only [if_neg e]

theorem applyAll_sorted (pre : Nat) (desc : List OptionDesc) (m req) (hm : SMap.Sorted m) :
    SMap.Sorted (applyAll pre desc m req).1 := by
  induction desc generalizing m req with
  | nil => exact hm
  | cons d ds ih =>
    rw [applyAll]
    have h1 : SMap.Sorted (applyOne pre m req d).1 := by
      unfold applyOne
      simp only
      split
      · exact hm
      · simp only
        split
        · exact hm
        · split
          · exact SMap.sorted_set hm _ _
          · exact hm
    exact ih _ _ h1

theorem store_ok {p : Parsed} {xm xm' : VarMap} {utf8 : Bool} (h : store p xm utf8 = (xm', none)) :
    ∃ m nf, storeLoop p.desc p.pre utf8 xm.final p.options xm.map [] = ((m, nf), none) ∧
      xm' = { map := (applyAll p.pre p.desc m xm.required).1, final := xm.final.insertAll nf
              required := (applyAll p.pre p.desc m xm.required).2 } := by
  unfold store at h
  split at h
  · simp at h
  · rename_i m nf heq
    refine ⟨m, nf, heq, ?_⟩
    simp only [Prod.mk.injEq, and_true] at h
    exact h.symm

theorem store_failed {p : Parsed} {xm xm' : VarMap} {utf8 : Bool} {f : Fail} (h : store p xm utf8 = (xm', some f)) :
    ∃ m nf, storeLoop p.desc p.pre utf8 xm.final p.options xm.map [] = ((m, nf), some f) ∧
      xm' = { xm with map := m } := by
  unfold store at h
  split at h
  · rename_i m nf f' heq
    simp only [Prod.mk.injEq, Option.some.injEq] at h
    obtain ⟨rfl, rfl⟩ := h
    exact ⟨m, nf, heq, rfl⟩
  · simp at h

/-- The effect of a successful store on a name that it mentions and that is not final. -/
theorem store_hit {p : Parsed} {xm xm' : VarMap} {utf8 : Bool} (h : store p xm utf8 = (xm', none))
    (name : Str) (hm : Mentions p.options name) (hf : name ∉ xm.final) :
    ∃ d a, findOrThrow p.desc name false false false = .ok d ∧
      parseAll d.semantic utf8 (if (xm.get name).defaulted then none else (xm.get name).v)
        ((occurrences p.options name).map (·.value)) = .ok a ∧
      xm'.map.get? name = some { v := a, defaulted := false, semantic := some d.semantic } ∧
      (name ∈ xm'.final ↔ d.semantic.isComposing = false) := by
  obtain ⟨m, nf, hl, rfl⟩ := store_ok h
  obtain ⟨d, a, hd, hp, hg, hn⟩ := storeLoop_hit _ _ _ _ name _ _ _ _ _ hm hf hl
  refine ⟨d, a, hd, hp, ?_, ?_⟩
  · simp only [applyAll_get, hg]
  · simp only [SSet.mem_insertAll, hn, hf, List.not_mem_nil, false_or]

/-- The effect of a successful store on a name that it does not mention or that is final. -/
theorem store_miss {p : Parsed} {xm xm' : VarMap} {utf8 : Bool} (h : store p xm utf8 = (xm', none))
    (name : Str) (hm : ¬ Mentions p.options name ∨ name ∈ xm.final) :
    xm'.map.get? name =
        (match xm.map.get? name with
         | some v => some v
         | none => (firstDefault p.desc name).map fun q => { v := q.2, defaulted := true, semantic := some q.1 }) ∧
      (name ∈ xm'.final ↔ name ∈ xm.final) := by
  obtain ⟨m, nf, hl, rfl⟩ := store_ok h
  have hfr := storeLoop_frame p.desc p.pre utf8 xm.final name p.options xm.map [] hm
  rw [hl] at hfr
  refine ⟨?_, ?_⟩
  · simp only [applyAll_get]; rw [hfr.1]
  · simp only [SSet.mem_insertAll]
    rw [hfr.2]; simp

/-- A failed store changes no name that it does not mention. -/
theorem store_failed_frame {p : Parsed} {xm xm' : VarMap} {utf8 : Bool} {f : Fail} (h : store p xm utf8 = (xm', some f)) :
    xm'.final = xm.final ∧ xm'.required = xm.required ∧
    ∀ name, ¬ Mentions p.options name ∨ name ∈ xm.final → xm'.map.get? name = xm.map.get? name := by
  obtain ⟨m, nf, hl, rfl⟩ := store_failed h
  refine ⟨rfl, rfl, fun name hm => ?_⟩
  have hfr := storeLoop_frame p.desc p.pre utf8 xm.final name p.options xm.map [] hm
  rw [hl] at hfr
  exact hfr.1

theorem store_sorted (p : Parsed) (xm : VarMap) (utf8 : Bool) (h : SMap.Sorted xm.map) :
    SMap.Sorted (store p xm utf8).1.map := by
  cases hs : store p xm utf8 with
  | mk xm' e =>
    cases e with
    | none =>
      obtain ⟨m, nf, hl, rfl⟩ := store_ok hs
      have := storeLoop_sorted p.desc p.pre utf8 xm.final p.options xm.map [] h
      rw [hl] at this
      exact applyAll_sorted _ _ _ _ this
    | some f =>
      obtain ⟨m, nf, hl, rfl⟩ := store_failed hs
      have := storeLoop_sorted p.desc p.pre utf8 xm.final p.options xm.map [] h
      rw [hl] at this
      exact this

end PO
