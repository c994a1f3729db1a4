import Verif.Props.StoreGrammar
import Verif.Spec.Edit
/-
Maps that the program changes itself, name by name.
-/
namespace PO
open Spec

theorem SMap.get?_erase {α : Type} (m : SMap α) (s t : Str) : (m.erase s).get? t = if t = s then none else m.get? t := by
  unfold SMap.erase
  induction m with
  | nil => simp [SMap.get?]
  | cons e m ih =>
    obtain ⟨k, v⟩ := e
    rw [List.filter_cons]
    by_cases he : k = s
    · rw [if_neg (by simp [he]), ih]
      by_cases ht : t = s
      · rw [if_pos ht, if_pos ht]
      · rw [if_neg ht, if_neg ht, SMap.get?, if_neg (fun h => ht (h.symm.trans he))]
    · rw [if_pos (by simp [he]), SMap.get?, SMap.get?]
      by_cases h : k = t
      · rw [if_pos h, if_pos h, if_neg (by rw [← h]; exact he)]
      · rw [if_neg h, if_neg h, ih]

namespace Edit

/-- The record of a name, and whether sources are heard about it. -/
def heardAbout (m : VarMap) (name : Str) : Bool := !decide (name ∈ m.final)

theorem given_explicitIn (m : VarMap) (name : Str) : given m name = explicitIn (m.map.get? name) := by
  unfold given explicitIn
  cases m.map.get? name <;> rfl

theorem performs_nil {m m' : VarMap} : Performs m [] m' ↔ m' = m := by
  constructor
  · intro h; cases h; rfl
  · rintro rfl; exact .done _

theorem performs_cons {m m' : VarMap} {act : Act} {rest : List Act} :
    Performs m (act :: rest) m' ↔ ∃ m1, perform m act = (m1, none) ∧ Performs m1 rest m' := by
  constructor
  · intro h; cases h with | next h t => exact ⟨_, h, t⟩
  · rintro ⟨m1, h, t⟩; exact .next h t

theorem performs_append {m m' : VarMap} {a b : List Act} : Performs m (a ++ b) m' ↔ ∃ m1, Performs m a m1 ∧ Performs m1 b m' := by
  induction a generalizing m with
  | nil => simp [performs_nil]
  | cons x a ih =>
    rw [List.cons_append, performs_cons]
    constructor
    · rintro ⟨m1, h, t⟩
      obtain ⟨m2, t1, t2⟩ := ih.1 t
      exact ⟨m2, .next h t1, t2⟩
    · rintro ⟨m2, t1, t2⟩
      obtain ⟨m1, h, t⟩ := performs_cons.1 t1
      exact ⟨m1, h, ih.2 ⟨m2, t, t2⟩⟩

theorem performs_unique {m a b : VarMap} {acts : List Act} (ha : Performs m acts a) (hb : Performs m acts b) : a = b := by
  induction ha with
  | done => cases hb; rfl
  | next h t ih =>
    obtain ⟨m1, h', t'⟩ := performs_cons.1 hb
    rw [h] at h'; cases h'
    exact ih t'

/-- A map with the record `r` of the name, about which sources are heard if `heard`. -/
def At (m : VarMap) (name : Str) (r : Option VarValue) (heard : Bool) : Prop := m.map.get? name = r ∧ (heard = true ↔ name ∉ m.final)

theorem at_heardAbout (m : VarMap) (name : Str) : At m name (m.map.get? name) (heardAbout m name) :=
  ⟨rfl, by unfold heardAbout; simp⟩

theorem At.eq {m : VarMap} {name : Str} {r s h k} (a : At m name r h) (b : At m name s k) : r = s ∧ h = k :=
  ⟨a.1.symm.trans b.1, by
    have := a.2.trans b.2.symm
    cases h <;> cases k <;> simp at this <;> rfl⟩

theorem change_other {m m1 : VarMap} {n : Str} {v : Any} (h : perform m (.change n v) = (m1, none)) (name : Str) :
    m1.final = m.final ∧ m1.required = m.required ∧
      m1.map.get? name = if name = n then (m.map.get? n).map fun x => { x with v } else m.map.get? name := by
  unfold perform at h
  dsimp only at h
  split at h
  · rename_i r hr
    cases h
    refine ⟨rfl, rfl, ?_⟩
    dsimp only
    rw [SMap.get?_set]
    by_cases e : name = n
    · rw [if_pos e, if_pos e.symm, hr]; rfl
    · rw [if_neg e, if_neg (fun x => e x.symm)]
  · rename_i hr
    cases h
    refine ⟨rfl, rfl, ?_⟩
    by_cases e : name = n
    · rw [if_pos e, hr, e, hr]; rfl
    · rw [if_neg e]

theorem insert_other {m m1 : VarMap} {n : Str} {v : Any} {d : Bool} (h : perform m (.insert n v d) = (m1, none)) (name : Str) :
    m1.final = m.final ∧ m1.required = m.required ∧
      m1.map.get? name = if name = n then some ((m.map.get? n).getD { v, defaulted := d }) else m.map.get? name := by
  unfold perform at h
  dsimp only at h
  cases hr : m.map.get? n with
  | some x =>
    rw [hr] at h
    cases h
    refine ⟨rfl, rfl, ?_⟩
    by_cases e : name = n
    · rw [if_pos e, e, hr]; rfl
    · rw [if_neg e]
  | none =>
    rw [hr] at h
    cases h
    refine ⟨rfl, rfl, ?_⟩
    dsimp only
    rw [SMap.get?_set]
    by_cases e : name = n
    · rw [if_pos e, if_pos e.symm]; rfl
    · rw [if_neg e, if_neg (fun x => e x.symm)]

theorem erase_other {m m1 : VarMap} {n : Str} (h : perform m (.erase n) = (m1, none)) (name : Str) :
    m1.final = m.final ∧ m1.required = m.required ∧ m1.map.get? name = if name = n then none else m.map.get? name := by
  cases h
  exact ⟨rfl, rfl, SMap.get?_erase _ _ _⟩

theorem quiet (m : VarMap) (act : Act) (h : ∀ q u, act ≠ .store q u) : ∃ m1, perform m act = (m1, none) := by
  cases act with
  | store q u => exact absurd rfl (h q u)
  | insert n v d => exact ⟨_, rfl⟩
  | erase n => exact ⟨_, rfl⟩
  | change n v =>
    cases hr : m.map.get? n with
    | some x => exact ⟨_, by dsimp only [perform]; rw [hr]⟩
    | none => exact ⟨_, by dsimp only [perform]; rw [hr]⟩
  | clear => exact ⟨_, rfl⟩

/-- What one action does to one name. -/
theorem course_cons {m m1 : VarMap} {act : Act} (h : perform m act = (m1, none)) (name : Str) (rest : List Act) (r : Option VarValue) (heard : Bool)
    (ha : At m name r heard) (r' : Option VarValue) (h' : Bool) :
    ∃ r1 k, At m1 name r1 k ∧ (Course name (act :: rest) r heard r' h' ↔ Course name rest r1 k r' h') := by
  cases act with
  | store q u =>
    have h : store q m u = (m1, none) := h
    by_cases hm : Mentions q.options name ∧ name ∉ m.final
    · obtain ⟨d, a, ⟨y1, y2⟩, y3, y4⟩ := (C65_result q m m1 u h name).1 hm.1 hm.2
      have hh : heard = true := ha.2.2 hm.2
      rw [given_explicitIn, ha.1] at y2
      refine ⟨_, d.semantic.isComposing, ⟨y3, ?_⟩, ?_⟩
      · rw [y4]; cases d.semantic.isComposing <;> simp
      · constructor
        · intro t
          cases t with
          | heard _ hd hp t =>
            rw [y1] at hd; cases hd
            rw [y2] at hp; cases hp
            exact t
          | unheard hn t => rcases hn with hn | hn
                            · exact absurd hm.1 hn
                            · rw [hh] at hn; cases hn
          | other hn t => obtain ⟨n, -, ⟨_, _, hx⟩ | hx | ⟨_, hx⟩⟩ := hn <;> cases hx
        · intro t
          subst hh
          exact .heard hm.1 y1 y2 t
    · have hm' : ¬ Mentions q.options name ∨ name ∈ m.final := by
        by_cases hx : Mentions q.options name
        · exact .inr (Decidable.byContradiction fun hy => hm ⟨hx, hy⟩)
        · exact .inl hx
      obtain ⟨y1, y2⟩ := (C65_result q m m1 u h name).2 hm'
      rw [ha.1] at y1
      refine ⟨_, heard, ⟨y1, by rw [ha.2, y2]⟩, ?_⟩
      constructor
      · intro t
        cases t with
        | heard hx hd hp t => exact absurd ⟨hx, ha.2.1 rfl⟩ hm
        | unheard hn t => exact t
        | other hn t => obtain ⟨n, -, ⟨_, _, hx⟩ | hx | ⟨_, hx⟩⟩ := hn <;> cases hx
      · intro t
        refine .unheard ?_ t
        rcases hm' with hx | hx
        · exact .inl hx
        · refine .inr ?_
          cases heard
          · rfl
          · exact absurd hx (ha.2.1 rfl)
  | insert n v d =>
    obtain ⟨e1, -, e3⟩ := insert_other h name
    by_cases hn : name = n
    · subst hn
      rw [if_pos rfl, ha.1] at e3
      refine ⟨_, heard, ⟨e3, by rw [e1]; exact ha.2⟩, ?_⟩
      constructor
      · intro t
        cases t with
        | inserted t => exact t
        | present t => exact t
        | other hn t => obtain ⟨n, hne, ⟨_, _, hx⟩ | hx | ⟨_, hx⟩⟩ := hn <;> cases hx; exact absurd rfl hne
      · intro t
        cases r with
        | none => exact .inserted t
        | some x => exact .present t
    · rw [if_neg hn, ha.1] at e3
      refine ⟨_, heard, ⟨e3, by rw [e1]; exact ha.2⟩, ?_⟩
      constructor
      · intro t
        cases t with
        | inserted t => exact absurd rfl hn
        | present t => exact absurd rfl hn
        | other _ t => exact t
      · intro t; exact .other ⟨n, fun e => hn e.symm, .inl ⟨v, d, rfl⟩⟩ t
  | erase n =>
    obtain ⟨e1, -, e3⟩ := erase_other h name
    by_cases hn : name = n
    · subst hn
      rw [if_pos rfl] at e3
      refine ⟨_, heard, ⟨e3, by rw [e1]; exact ha.2⟩, ?_⟩
      constructor
      · intro t
        cases t with
        | erased t => exact t
        | other hn t => obtain ⟨n, hne, ⟨_, _, hx⟩ | hx | ⟨_, hx⟩⟩ := hn <;> cases hx; exact absurd rfl hne
      · intro t; exact .erased t
    · rw [if_neg hn, ha.1] at e3
      refine ⟨_, heard, ⟨e3, by rw [e1]; exact ha.2⟩, ?_⟩
      constructor
      · intro t
        cases t with
        | erased t => exact absurd rfl hn
        | other _ t => exact t
      · intro t; exact .other ⟨n, fun e => hn e.symm, .inr (.inl rfl)⟩ t
  | change n v =>
    obtain ⟨e1, -, e3⟩ := change_other h name
    by_cases hn : name = n
    · subst hn
      rw [if_pos rfl, ha.1] at e3
      refine ⟨_, heard, ⟨e3, by rw [e1]; exact ha.2⟩, ?_⟩
      constructor
      · intro t
        cases t with
        | changed t => exact t
        | other hn t => obtain ⟨n, hne, ⟨_, _, hx⟩ | hx | ⟨_, hx⟩⟩ := hn <;> cases hx; exact absurd rfl hne
      · intro t; exact .changed t
    · rw [if_neg hn, ha.1] at e3
      refine ⟨_, heard, ⟨e3, by rw [e1]; exact ha.2⟩, ?_⟩
      constructor
      · intro t
        cases t with
        | changed t => exact absurd rfl hn
        | other _ t => exact t
      · intro t; exact .other ⟨n, fun e => hn e.symm, .inr (.inr ⟨v, rfl⟩)⟩ t
  | clear =>
    cases h
    refine ⟨none, true, ⟨rfl, ?_⟩, ?_⟩
    · show true = true ↔ name ∉ []
      simp
    · constructor
      · intro t
        cases t with
        | cleared t => exact t
        | other hn t => obtain ⟨n, -, ⟨_, _, hx⟩ | hx | ⟨_, hx⟩⟩ := hn <;> cases hx
      · intro t; exact .cleared t

/-- The course of a name is what happens to it. -/
theorem course_iff {m m' : VarMap} {acts : List Act} (h : Performs m acts m') (name : Str) {r heard} (ha : At m name r heard) (r' : Option VarValue) (h' : Bool) :
    Course name acts r heard r' h' ↔ At m' name r' h' := by
  induction h generalizing r heard with
  | done m =>
    constructor
    · intro t; cases t; exact ha
    · intro t
      obtain ⟨rfl, rfl⟩ := ha.eq t
      exact .done _ _
  | next hp _ ih =>
    rename_i rest _
    obtain ⟨r1, k, h1, h2⟩ := course_cons hp name rest r heard ha r' h'
    rw [h2]; exact ih h1

/-- If all names have a course then nothing throws. -/
theorem performs_of_course (acts : List Act) (m : VarMap)
    (h : ∀ name, ∃ r' h', Course name acts (m.map.get? name) (heardAbout m name) r' h') : ∃ m', Performs m acts m' := by
  induction acts generalizing m with
  | nil => exact ⟨m, .done m⟩
  | cons act rest ih =>
    have hok : ∃ m1, perform m act = (m1, none) := by
      by_cases hs : ∃ q u, act = .store q u
      · obtain ⟨q, u, rfl⟩ := hs
        refine ⟨(store q m u).1, Prod.ext rfl ?_⟩
        show (store q m u).2 = none
        rw [C65_succeeds]
        intro name hm hf
        obtain ⟨r', h', t⟩ := h name
        have hh : heardAbout m name = true := (at_heardAbout m name).2.2 hf
        generalize heardAbout m name = k at t hh
        cases t with
        | heard _ hd hp t => exact ⟨_, _, hd, by rw [given_explicitIn]; exact hp⟩
        | unheard hn t => rcases hn with hn | hn
                          · exact absurd hm hn
                          · rw [hh] at hn; cases hn
        | other hn t => obtain ⟨n, -, ⟨_, _, hx⟩ | hx | ⟨_, hx⟩⟩ := hn <;> cases hx
      · exact quiet m act fun q u e => hs ⟨q, u, e⟩
    obtain ⟨m1, hp⟩ := hok
    obtain ⟨m', t⟩ := ih m1 (by
      intro name
      obtain ⟨r', h', t⟩ := h name
      obtain ⟨r1, k, h1, h2⟩ := course_cons hp name rest _ _ (at_heardAbout m name) r' h'
      obtain ⟨rfl, rfl⟩ := h1.eq (at_heardAbout m1 name)
      exact ⟨r', h', h2.1 t⟩)
    exact ⟨m', .next hp t⟩

end Edit
end PO
