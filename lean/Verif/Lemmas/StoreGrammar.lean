import Verif.Lemmas.Store
import Verif.Props.Lookup
import Verif.Spec.StoreGrammar
/-
`store`, name by name.
-/
namespace PO
open Spec

theorem find_candidates (desc : List OptionDesc) (name : Str) :
    findOrThrow desc name false false false =
      match candidates desc name with
      | [] => .error errUnknown
      | [d] => .ok d
      | d :: d' :: ds => .error (errAmbiguous ((d :: d' :: ds).map (reportedKey · name))) := by
  rw [C01_find_throws, C01_lookup_decision]
  unfold candidates
  cases h : exacts desc name false false with
  | nil =>
    rw [if_neg (by simp)]
    cases h2 : approximates desc name false false false with
    | nil => rfl
    | cons a l => cases l <;> rfl
  | cons a l =>
    rw [if_pos (by simp)]
    cases l <;> rfl

theorem find_ok_iff (desc : List OptionDesc) (name : Str) (d : OptionDesc) :
    findOrThrow desc name false false false = .ok d ↔ candidates desc name = [d] := by
  rw [find_candidates]
  cases candidates desc name with
  | nil => simp
  | cons a l => cases l <;> simp

theorem find_error_cases {desc : List OptionDesc} {name : Str} {f : Fail} (h : findOrThrow desc name false false false = .error f) :
    (candidates desc name = [] ∧ f = errUnknown) ∨
    (2 ≤ (candidates desc name).length ∧ f = errAmbiguous ((candidates desc name).map (reportedKey · name))) := by
  rw [find_candidates] at h
  cases hc : candidates desc name with
  | nil => rw [hc] at h; cases h; exact .inl ⟨rfl, rfl⟩
  | cons a l =>
    cases l with
    | nil => rw [hc] at h; cases h
    | cons b l => rw [hc] at h; cases h; exact .inr ⟨by simp, rfl⟩

theorem given_eq (xm : VarMap) (name : Str) : given xm name = if (xm.get name).defaulted then none else (xm.get name).v := by
  unfold given VarMap.get
  cases xm.map.get? name with
  | none => rfl
  | some v => rfl

theorem parseAll_append (s : ValueSemantic) (u : Bool) (v : Any) (a b : List (List Str)) :
    parseAll s u v (a ++ b) = match parseAll s u v a with | .error f => .error f | .ok w => parseAll s u w b := by
  induction a generalizing v with
  | nil => rfl
  | cons t a ih =>
    rw [List.cons_append, parseAll, parseAll]
    split
    · rfl
    · exact ih _

theorem occurrences_append (a b : List Opt) (name : Str) : occurrences (a ++ b) name = occurrences a name ++ occurrences b name := by
  unfold occurrences; rw [List.filter_append]

theorem occurrences_self {o : Opt} (h0 : o.stringKey ≠ []) (hu : o.unregistered = false) (os : List Opt) :
    occurrences (o :: os) o.stringKey = o :: occurrences os o.stringKey := by
  rw [occurrences_cons, if_pos ⟨rfl, h0, hu⟩]

theorem mentions_append (a b : List Opt) (name : Str) : Mentions (a ++ b) name ↔ Mentions a name ∨ Mentions b name := by
  unfold Mentions
  simp only [List.mem_append]
  constructor
  · rintro ⟨o, h | h, r⟩
    · exact .inl ⟨o, h, r⟩
    · exact .inr ⟨o, h, r⟩
  · rintro (⟨o, h, r⟩ | ⟨o, h, r⟩)
    · exact ⟨o, .inl h, r⟩
    · exact ⟨o, .inr h, r⟩

theorem storeLoop_append' (desc pre utf8 final) (a b : List Opt) (m nf) :
    storeLoop desc pre utf8 final (a ++ b) m nf =
      match storeLoop desc pre utf8 final a m nf with
      | (s, some f) => (s, some f)
      | ((m', nf'), none) => storeLoop desc pre utf8 final b m' nf' := by
  induction a generalizing m nf with
  | nil => rfl
  | cons o a ih =>
    rw [List.cons_append, storeLoop, storeLoop]
    cases h : storeOne desc pre utf8 final m nf o with
    | mk s f =>
      cases f with
      | some f => rfl
      | none => exact ih s.1 s.2

/-- A failing loop fails at some option. -/
theorem storeLoop_fails (desc pre utf8 final) (os : List Opt) (m nf s f) (h : storeLoop desc pre utf8 final os m nf = (s, some f)) :
    ∃ before o after m1 nf1, os = before ++ o :: after ∧ storeLoop desc pre utf8 final before m nf = ((m1, nf1), none) ∧
      storeOne desc pre utf8 final m1 nf1 o = (s, some f) := by
  induction os generalizing m nf with
  | nil => cases h
  | cons o os ih =>
    rw [storeLoop] at h
    cases h1 : storeOne desc pre utf8 final m nf o with
    | mk s1 f1 =>
      rw [h1] at h
      cases f1 with
      | some f1 => cases h; exact ⟨[], o, os, m, nf, rfl, rfl, h1⟩
      | none =>
        obtain ⟨before, o', after, m1, nf1, rfl, hb, ho⟩ := ih s1.1 s1.2 h
        refine ⟨o :: before, o', after, m1, nf1, rfl, ?_, ho⟩
        rw [storeLoop, h1]; exact hb

/-- The value of a name after the loop. -/
theorem storeLoop_given {desc pre utf8} {xm : VarMap} {os : List Opt} {m nf} (h : storeLoop desc pre utf8 xm.final os xm.map [] = ((m, nf), none))
    (name : Str) (hf : name ∉ xm.final) (d : OptionDesc) (hd : candidates desc name = [d]) :
    ∃ a, parseAll d.semantic utf8 (given xm name) ((occurrences os name).map (·.value)) = .ok a ∧
      (if ((m.get? name).getD {}).defaulted then none else ((m.get? name).getD {}).v) = a ∧
      (Mentions os name → m.get? name = some { v := a, defaulted := false, semantic := some d.semantic }) ∧
      (¬ Mentions os name → m.get? name = xm.map.get? name) := by
  by_cases hm : Mentions os name
  · obtain ⟨d', a, h1, h2, h3, -⟩ := storeLoop_hit _ _ _ _ name os _ _ _ _ hm hf h
    rw [find_ok_iff, hd] at h1; cases h1
    refine ⟨a, ?_, by rw [h3]; rfl, fun _ => h3, fun hn => absurd hm hn⟩
    rw [given_eq]; exact h2
  · have := (storeLoop_frame desc pre utf8 xm.final name os xm.map [] (.inl hm)).1
    rw [h] at this
    have ho : occurrences os name = [] := Decidable.byContradiction fun hh => hm ((mentions_iff _ _).2 hh)
    refine ⟨given xm name, by rw [ho]; rfl, ?_, fun h' => absurd h' hm, fun _ => this⟩
    rw [this, given_eq]; rfl

theorem storeLoop_yield {desc pre utf8} {xm : VarMap} {os : List Opt} {m nf} (h : storeLoop desc pre utf8 xm.final os xm.map [] = ((m, nf), none)) :
    AllYield desc xm utf8 os := by
  intro name hm hf
  obtain ⟨d, a, h1, h2, -⟩ := storeLoop_hit _ _ _ _ name os _ _ _ _ hm hf h
  refine ⟨d, a, (find_ok_iff _ _ _).1 h1, ?_⟩
  rw [given_eq]; exact h2

/-- What `storeOne` does with an option it looks at. -/
theorem storeOne_open (desc pre utf8 final m nf) (o : Opt) (h0 : o.stringKey ≠ []) (hu : o.unregistered = false) (hf : o.stringKey ∉ final) :
    storeOne desc pre utf8 final m nf o =
      match findOrThrow desc o.stringKey false false false with
      | .error f => ((m, nf), some (f.addContext o.stringKey (o.originalTokens.headD []) pre))
      | .ok d =>
        let v0 : VarValue := (m.get? o.stringKey).getD {}
        let v : VarValue := if v0.defaulted then {} else v0
        match d.semantic.parse v.v o.value utf8 with
        | (a, some f) => ((m.set o.stringKey { v with v := a }, nf), some (f.addContext o.stringKey (o.originalTokens.headD []) pre))
        | (a, none) => ((m.set o.stringKey { v with v := a, semantic := some d.semantic }, if d.semantic.isComposing then nf else nf.insert o.stringKey), none) := by
  have hf' : ¬ final.has o.stringKey = true := by rw [SSet.has_iff]; exact hf
  unfold storeOne
  simp only [if_neg h0, hu, if_neg hf', Bool.false_eq_true, if_false]
  cases o.originalTokens <;> rfl

theorem storeOne_skip (desc pre utf8 final m nf) (o : Opt) (h : o.stringKey = [] ∨ o.unregistered = true ∨ o.stringKey ∈ final) :
    storeOne desc pre utf8 final m nf o = ((m, nf), none) := by
  unfold storeOne
  by_cases h0 : o.stringKey = []
  · simp only [if_pos h0]
  · by_cases h1 : o.unregistered = true
    · simp only [if_neg h0, if_pos h1]
    · have h2 : o.stringKey ∈ final := by
        rcases h with h | h | h
        · exact absurd h h0
        · exact absurd h h1
        · exact h
      simp only [if_neg h0, if_neg h1, if_pos ((SSet.has_iff _ _).2 h2)]

/-- The record of a name with an explicit value, or a fresh one. -/
def current (m : SMap VarValue) (name : Str) : VarValue :=
  if ((m.get? name).getD {}).defaulted then {} else (m.get? name).getD {}

theorem current_v (m : SMap VarValue) (name : Str) :
    (current m name).v = if ((m.get? name).getD {}).defaulted then none else ((m.get? name).getD {}).v := by
  unfold current; split <;> rfl

/-- `storeOne` fails exactly if `Objects` says so. -/
theorem storeOne_objects {desc pre utf8} {xm : VarMap} {before : List Opt} {m nf}
    (h : storeLoop desc pre utf8 xm.final before xm.map [] = ((m, nf), none)) (o : Opt)
    (h0 : o.stringKey ≠ []) (hu : o.unregistered = false) (hf : o.stringKey ∉ xm.final) (g : Fail) :
    (∃ s, storeOne desc pre utf8 xm.final m nf o = (s, some g)) ↔
      ∃ e, Objects desc xm utf8 before o e ∧ g = e.addContext o.stringKey (o.originalTokens.headD []) pre := by
  rw [storeOne_open desc pre utf8 xm.final m nf o h0 hu hf]
  cases hfind : findOrThrow desc o.stringKey false false false with
  | error f =>
    simp only
    constructor
    · rintro ⟨s, hs⟩
      cases hs
      refine ⟨f, ?_, rfl⟩
      rcases find_error_cases hfind with ⟨h1, rfl⟩ | ⟨h1, rfl⟩
      · exact .unknown h1
      · exact .ambiguous h1
    · rintro ⟨e, he, rfl⟩
      refine ⟨(m, nf), ?_⟩
      have : f = e := by
        rcases find_error_cases hfind with ⟨h1, rfl⟩ | ⟨h1, rfl⟩
        · cases he with
          | unknown => rfl
          | ambiguous h => rw [h1] at h; simp at h
          | value d a h => rw [h.1] at h1; cases h1
        · cases he with
          | unknown h => rw [h] at h1; simp at h1
          | ambiguous => rfl
          | value d a h => rw [h.1] at h1; simp at h1
      rw [this]
  | ok d =>
    have hc := (find_ok_iff _ _ _).1 hfind
    obtain ⟨a, ha, hv, -⟩ := storeLoop_given h o.stringKey hf d hc
    have hv' : (if ((m.get? o.stringKey).getD {}).defaulted = true then ({} : VarValue) else (m.get? o.stringKey).getD {}).v = a := by
      rw [← hv]; split <;> rfl
    simp only [hv']
    constructor
    · rintro ⟨s, hs⟩
      cases hp : d.semantic.parse a o.value utf8 with
      | mk b e =>
        rw [hp] at hs
        cases e with
        | none => cases hs
        | some e =>
          cases hs
          exact ⟨e, .value d a ⟨hc, ha⟩ (by rw [hp]), rfl⟩
    · rintro ⟨e, he, rfl⟩
      cases he with
      | unknown h => rw [hc] at h; cases h
      | ambiguous h => rw [hc] at h; simp at h
      | value d' a' h he =>
        rw [h.1] at hc; cases hc
        rw [h.2] at ha; cases ha
        cases hp : d.semantic.parse a o.value utf8 with
        | mk b e' =>
          rw [hp] at he
          simp only at he; subst he
          exact ⟨_, rfl⟩

/-- A value accepted in all is accepted up to any point. -/
theorem allYield_no_fault {desc : List OptionDesc} {xm : VarMap} {utf8 : Bool} {before after : List Opt} {o : Opt} {e : Fail}
    (h0 : o.stringKey ≠ []) (hu : o.unregistered = false) (hf : o.stringKey ∉ xm.final)
    (h : AllYield desc xm utf8 (before ++ o :: after)) : ¬ Objects desc xm utf8 before o e := by
  obtain ⟨d, a, hc, hp⟩ := h o.stringKey ((mentions_append _ _ _).2 (.inr ⟨o, by simp, rfl, h0, hu⟩)) hf
  rw [occurrences_append, occurrences_self h0 hu, List.map_append, parseAll_append] at hp
  intro ho
  cases ho with
  | unknown h => rw [hc] at h; cases h
  | ambiguous h => rw [hc] at h; simp at h
  | value d' a' h he =>
    rw [h.1] at hc; cases hc
    rw [h.2] at hp
    simp only [List.map_cons] at hp
    rw [parseAll] at hp
    cases hq : d.semantic.parse a' o.value utf8 with
    | mk b e' =>
      rw [hq] at hp he
      simp only at he; subst he
      cases hp

theorem storeLoop_some (desc pre utf8) (xm : VarMap) (os : List Opt) (s f) (h : storeLoop desc pre utf8 xm.final os xm.map [] = (s, some f)) :
    ∃ before o after m nf e, os = before ++ o :: after ∧ o.stringKey ≠ [] ∧ o.unregistered = false ∧ o.stringKey ∉ xm.final ∧
      storeLoop desc pre utf8 xm.final before xm.map [] = ((m, nf), none) ∧ Objects desc xm utf8 before o e ∧
      f = e.addContext o.stringKey (o.originalTokens.headD []) pre ∧ storeOne desc pre utf8 xm.final m nf o = (s, some f) := by
  obtain ⟨before, o, after, m, nf, rfl, hb, ho⟩ := storeLoop_fails _ _ _ _ _ _ _ _ _ h
  have hskip : ¬ (o.stringKey = [] ∨ o.unregistered = true ∨ o.stringKey ∈ xm.final) := by
    intro hh
    rw [storeOne_skip _ _ _ _ _ _ _ hh] at ho
    cases ho
  have h0 : o.stringKey ≠ [] := fun hh => hskip (.inl hh)
  have hu : o.unregistered = false := Bool.eq_false_iff.2 fun hh => hskip (.inr (.inl hh))
  have hf : o.stringKey ∉ xm.final := fun hh => hskip (.inr (.inr hh))
  obtain ⟨e, he, hg⟩ := (storeOne_objects hb o h0 hu hf f).1 ⟨s, ho⟩
  exact ⟨before, o, after, m, nf, e, rfl, h0, hu, hf, hb, he, hg, ho⟩

theorem storeLoop_none_iff (desc pre utf8) (xm : VarMap) (os : List Opt) :
    (storeLoop desc pre utf8 xm.final os xm.map []).2 = none ↔ AllYield desc xm utf8 os := by
  constructor
  · intro h
    cases hl : storeLoop desc pre utf8 xm.final os xm.map [] with
    | mk s f => rw [hl] at h; simp only at h; subst h; exact storeLoop_yield (m := s.1) (nf := s.2) hl
  · intro h
    cases hl : storeLoop desc pre utf8 xm.final os xm.map [] with
    | mk s f =>
      cases f with
      | none => rfl
      | some f =>
        obtain ⟨before, o, after, m, nf, e, rfl, h0, hu, hf, -, he, -⟩ := storeLoop_some _ _ _ _ _ _ _ hl
        exact absurd he (allYield_no_fault h0 hu hf h)

theorem store_snd (p : Parsed) (xm : VarMap) (utf8 : Bool) :
    (store p xm utf8).2 = (storeLoop p.desc p.pre utf8 xm.final p.options xm.map []).2 := by
  unfold store
  split <;> rename_i h <;> rw [h]

end PO
