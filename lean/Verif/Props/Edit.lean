import Verif.Lemmas.Edit
import Verif.Props.Store
import Verif.Props.Occurrences
/-
C139: a `variables_map` is a `std::map`: programs insert, erase and change records between stores.
-/
namespace PO
open Spec Edit

/-! ### One name -/

/-- **C139.** What a program's map holds of a name, and whether sources are still heard about it, is what its actions did to that name. -/
theorem C139_course (acts : List Act) (m : VarMap) (h : Performs {} acts m) (name : Str) (r : Option VarValue) (heard : Bool) :
    Course name acts none true r heard ↔ m.map.get? name = r ∧ (heard = true ↔ name ∉ m.final) :=
  course_iff h name (r := none) (heard := true) ⟨rfl, by show true = true ↔ name ∉ []; simp⟩ r heard

/-- Nothing throws exactly if each name by itself has a course. -/
theorem C139_performs_iff (acts : List Act) : (∃ m, Performs {} acts m) ↔ ∀ name, ∃ r heard, Course name acts none true r heard := by
  constructor
  · rintro ⟨m, h⟩ name
    exact ⟨_, _, (C139_course acts m h name _ _).2 (at_heardAbout m name)⟩
  · exact fun h => performs_of_course acts {} h

theorem settledBy_cons (name : Str) (act : Act) (rest : List Act) :
    SettledBy name (act :: rest) ↔ SettledBy name rest ∨ ((∃ q u d, act = .store q u ∧ Mentions q.options name ∧ candidates q.desc name = [d] ∧
      d.semantic.isComposing = false) ∧ .clear ∉ rest) := by
  constructor
  · rintro ⟨before, q, u, after, d, e, h1, h2, h3, h4⟩
    cases before with
    | nil => cases e; exact .inr ⟨⟨q, u, d, rfl, h1, h2, h3⟩, h4⟩
    | cons x before => cases e; exact .inl ⟨before, q, u, after, d, rfl, h1, h2, h3, h4⟩
  · rintro (⟨before, q, u, after, d, rfl, h⟩ | ⟨⟨q, u, d, rfl, h1, h2, h3⟩, h4⟩)
    · exact ⟨act :: before, q, u, after, d, rfl, h⟩
    · exact ⟨[], q, u, rest, d, rfl, h1, h2, h3, h4⟩

theorem final_performs {m m' : VarMap} {acts : List Act} (h : Performs m acts m') (name : Str) :
    name ∈ m'.final ↔ SettledBy name acts ∨ (name ∈ m.final ∧ .clear ∉ acts) := by
  induction h with
  | done m =>
    constructor
    · intro h; exact .inr ⟨h, List.not_mem_nil⟩
    · rintro (⟨before, q, u, after, d, e, -⟩ | h)
      · cases before <;> cases e
      · exact h.1
  | @next m m1 m2 act rest hp _ ih =>
    rw [ih, settledBy_cons, or_assoc]
    refine or_congr_right ?_
    by_cases hr : Act.clear ∈ rest
    · constructor
      · intro h; exact absurd hr h.2
      · rintro (h | h)
        · exact absurd hr h.2
        · exact absurd (List.mem_cons_of_mem _ hr) h.2
    · have frame : (∀ q u, act ≠ .store q u) → act ≠ .clear → m1.final = m.final → ((name ∈ m1.final ∧ Act.clear ∉ rest) ↔
          ((∃ q u d, act = .store q u ∧ Mentions q.options name ∧ candidates q.desc name = [d] ∧ d.semantic.isComposing = false) ∧ Act.clear ∉ rest) ∨
          name ∈ m.final ∧ Act.clear ∉ act :: rest) := by
        intro h1 h2 h3
        rw [h3]
        constructor
        · intro h; exact .inr ⟨h.1, fun hx => (List.mem_cons.1 hx).elim (fun e => h2 e.symm) hr⟩
        · rintro (⟨⟨q, u, d, e, -⟩, -⟩ | h)
          · exact absurd e (h1 q u)
          · exact ⟨h.1, hr⟩
      cases act with
      | store q u =>
        obtain ⟨y1, y2⟩ := C65_result q m m1 u hp name
        have hc : Act.clear ∉ Act.store q u :: rest := fun hx => (List.mem_cons.1 hx).elim (fun e => by cases e) hr
        by_cases hm : Mentions q.options name ∧ name ∉ m.final
        · obtain ⟨d, a, ⟨c1, -⟩, -, c3⟩ := y1 hm.1 hm.2
          rw [c3]
          constructor
          · intro h; exact .inl ⟨⟨q, u, d, rfl, hm.1, c1, h.1⟩, hr⟩
          · rintro (⟨⟨q', u', d', e, -, e2, e3⟩, -⟩ | h)
            · cases e; rw [c1] at e2; cases e2; exact ⟨e3, hr⟩
            · exact absurd h.1 hm.2
        · by_cases hf : name ∈ m.final
          · have := (y2 (.inr hf)).2
            exact ⟨fun _ => .inr ⟨hf, hc⟩, fun _ => ⟨this.2 hf, hr⟩⟩
          · have hn : ¬ Mentions q.options name := fun x => hm ⟨x, hf⟩
            have := (y2 (.inl hn)).2
            constructor
            · intro h; exact absurd (this.1 h.1) hf
            · rintro (⟨⟨q', u', d', e, e1, -⟩, -⟩ | h)
              · cases e; exact absurd e1 hn
              · exact absurd h.1 hf
      | insert n v d => exact frame (fun q u e => by cases e) (fun e => by cases e) (insert_other hp name).1
      | erase n => exact frame (fun q u e => by cases e) (fun e => by cases e) (erase_other hp name).1
      | change n v => exact frame (fun q u e => by cases e) (fun e => by cases e) (change_other hp name).1
      | clear =>
        cases hp
        constructor
        · intro h; exact absurd h.1 List.not_mem_nil
        · rintro (⟨⟨q, u, d, e, -⟩, -⟩ | h)
          · cases e
          · exact absurd List.mem_cons_self h.2

/-- Sources are not heard about a name exactly if one was stored that settled it, and the map was not cleared since: erasing, inserting and changing do not matter. -/
theorem C139_settled_iff (acts : List Act) (m : VarMap) (h : Performs {} acts m) (name : Str) : name ∈ m.final ↔ SettledBy name acts := by
  rw [final_performs h name]
  constructor
  · rintro (h | h)
    · exact h
    · exact absurd h.1 List.not_mem_nil
  · exact .inl

/-! ### Erasing -/

/-- After a name was erased, a source that mentions it gives it a value exactly if no source had settled it; the value is then that of the source alone. -/
theorem C139_given_anew_iff (acts : List Act) (m m' : VarMap) (h : Performs {} acts m) (name : Str) (q : Parsed) (u : Bool)
    (ht : Performs m [.erase name, .store q u] m') (hm : Mentions q.options name) :
    ((∃ r, m'.map.get? name = some r ∧ r.defaulted = false) ↔ ¬ SettledBy name acts) ∧
    (¬ SettledBy name acts → ∃ d a, candidates q.desc name = [d] ∧ parseAll d.semantic u none ((occurrences q.options name).map (·.value)) = .ok a ∧
      m'.map.get? name = some { v := a, defaulted := false, semantic := some d.semantic }) ∧
    (SettledBy name acts → m'.map.get? name = (firstDefault q.desc name).map fun p => { v := p.2, defaulted := true, semantic := some p.1 }) := by
  rw [← C139_settled_iff acts m h name]
  obtain ⟨m1, h1, t⟩ := performs_cons.1 ht
  obtain ⟨m2, h2, t⟩ := performs_cons.1 t
  cases performs_nil.1 t
  have h2 : store q m1 u = (m', none) := h2
  obtain ⟨e1, -, e3⟩ := erase_other h1 name
  rw [if_pos rfl] at e3
  obtain ⟨y1, y2⟩ := C65_result q m1 m' u h2 name
  rw [e1, e3] at y2
  rw [e1] at y1
  have a1 : name ∉ m.final → ∃ d a, candidates q.desc name = [d] ∧ parseAll d.semantic u none ((occurrences q.options name).map (·.value)) = .ok a ∧
      m'.map.get? name = some { v := a, defaulted := false, semantic := some d.semantic } := by
    intro hf
    obtain ⟨d, a, ⟨c1, c2⟩, c3, -⟩ := y1 hm hf
    rw [given_explicitIn, e3] at c2
    exact ⟨d, a, c1, c2, c3⟩
  refine ⟨⟨?_, ?_⟩, a1, fun hf => (y2 (.inr hf)).1⟩
  · rintro ⟨r, hr, hd⟩ hf
    rw [(y2 (.inr hf)).1] at hr
    dsimp only at hr
    cases hx : firstDefault q.desc name with
    | none => rw [hx] at hr; cases hr
    | some p => rw [hx] at hr; cases hr; cases hd
  · intro hf
    obtain ⟨d, a, -, -, c⟩ := a1 hf
    exact ⟨_, c, rfl⟩

/-- The claim: whatever a program did to its map, a name it erases takes its value from the next source that mentions it. -/
def GivenAnew : Prop :=
  ∀ (acts : List Act) (m m' : VarMap) (name : Str) (q : Parsed) (u : Bool), Performs {} acts m → Performs m [.erase name, .store q u] m' →
    Mentions q.options name → ∃ r, m'.map.get? name = some r ∧ r.defaulted = false

/-- It holds for the options no source has settled. -/
theorem C139_given_anew_partial (acts : List Act) (m m' : VarMap) (name : Str) (q : Parsed) (u : Bool) (h : Performs {} acts m)
    (hs : ¬ SettledBy name acts) (ht : Performs m [.erase name, .store q u] m') (hm : Mentions q.options name) :
    ∃ r, m'.map.get? name = some r ∧ r.defaulted = false :=
  (C139_given_anew_iff acts m m' h name q u ht hm).1.2 hs

/-! ### Inserting and changing -/

/-- A value the program inserted stays as it is while sources do not mention the name, and their defaults do not replace it. -/
theorem C139_inserted (m m' : VarMap) (name : Str) (v : Any) (dflt : Bool) (hn : m.map.get? name = none) (sources : List (Parsed × Bool))
    (hq : ∀ s ∈ sources, ¬ Mentions s.1.options name) (h : Performs m (.insert name v dflt :: sources.map fun s => .store s.1 s.2) m') :
    m'.map.get? name = some { v, defaulted := dflt } := by
  obtain ⟨m1, h1, t⟩ := performs_cons.1 h
  have e2 := (insert_other h1 name).2.2
  rw [if_pos rfl, hn] at e2
  have e3 : m1.map.get? name = some { v, defaulted := dflt } := e2
  clear h h1 e2
  induction sources generalizing m1 with
  | nil => cases performs_nil.1 t; exact e3
  | cons s sources ih =>
    obtain ⟨m2, h2, t⟩ := performs_cons.1 t
    have h2 : store s.1 m1 s.2 = (m2, none) := h2
    refine ih (fun x hx => hq x (List.mem_cons_of_mem _ hx)) m2 t ?_
    rw [((C65_result _ _ _ _ h2 name).2 (.inl (hq s List.mem_cons_self))).1, e3]

/-- A value the program inserted as a default gives way to the first source that mentions the name, as if it had not been there. -/
theorem C139_inserted_default (m m1 m2 : VarMap) (name : Str) (v : Any) (hn : m.map.get? name = none)
    (h1 : perform m (.insert name v true) = (m1, none)) (q : Parsed) (u : Bool) (h2 : store q m1 u = (m2, none)) (hm : Mentions q.options name) (hf : name ∉ m.final) :
    ∃ m2', store q m u = (m2', none) ∧ m2'.map.get? name = m2.map.get? name := by
  obtain ⟨e1, -, -⟩ := insert_other h1 name
  have hg : ∀ n, given m1 n = given m n := by
    intro n
    rw [given_explicitIn, given_explicitIn, (insert_other h1 n).2.2]
    by_cases e : n = name
    · rw [if_pos e, hn, e, hn]; rfl
    · rw [if_neg e]
  have ok : (store q m u).2 = none := by
    rw [C65_succeeds]
    have := (C65_succeeds q m1 u).1 (by rw [h2])
    intro n hn hnf
    obtain ⟨d, a, y1, y2⟩ := this n hn (by rw [e1]; exact hnf)
    exact ⟨d, a, y1, by rw [← hg n]; exact y2⟩
  refine ⟨(store q m u).1, Prod.ext rfl ok, ?_⟩
  obtain ⟨d, a, ⟨y1, y2⟩, y3, -⟩ := (C65_result q m1 m2 u h2 name).1 hm (by rw [e1]; exact hf)
  obtain ⟨d', a', ⟨z1, z2⟩, z3, -⟩ := (C65_result q m _ u (Prod.ext rfl ok) name).1 hm hf
  rw [y1] at z1; cases z1
  rw [hg name, z2] at y2; cases y2
  rw [y3, z3]

theorem parseAll_scalar_held (env : Env) (t : TypedValue) (st : SType) (ht : t.type = .scalar st) (hi : t.implicit = none) (u : Bool) (x : AVal)
    (toks : List (List Str)) (hne : toks ≠ []) (a : Any) : parseAll (t.toSemantic env) u (some x) toks ≠ .ok a := by
  have hx : ∀ {α : Type} (scalar : SType → List α → Except Fail SVal) (l : List α), (t.xparse scalar (some x) l).2 ≠ none := by
    intro α scalar l
    rw [xparse_noimplicit scalar t (some x) l (.inl hi), ht]
    intro h
    unfold validate at h
    simp at h
  cases toks with
  | nil => exact absurd rfl hne
  | cons l rest =>
    rw [parseAll]
    have : ((t.toSemantic env).parse (some x) l u).2 ≠ none := by
      show (t.parse env (some x) l u).2 ≠ none
      unfold TypedValue.parse
      split
      · split
        · simp
        · exact hx _ _
      · split
        · split
          · simp
          · exact hx _ _
        · exact hx _ _
    split
    · intro h; cases h
    · rename_i h
      rw [h] at this
      exact absurd rfl this

/-- An explicit value that the program put there itself, or left there, is in the way of a source that mentions the name: if the option has a single value and no
implicit one then storing the source throws. -/
theorem C139_in_the_way (m : VarMap) (name : Str) (r : VarValue) (x : AVal) (hr : m.map.get? name = some r) (hd : r.defaulted = false) (hv : r.v = some x)
    (hf : name ∉ m.final) (q : Parsed) (u : Bool) (hm : Mentions q.options name) (env : Env) (t : TypedValue) (st : SType) (d : OptionDesc)
    (hc : candidates q.desc name = [d]) (hs : d.semantic = t.toSemantic env) (ht : t.type = .scalar st) (hi : t.implicit = none) :
    (store q m u).2 ≠ none := by
  intro h
  obtain ⟨d', a, y1, y2⟩ := (C65_succeeds q m u).1 h name hm hf
  rw [hc] at y1; cases y1
  rw [given_explicitIn, hr, hs] at y2
  have e : explicitIn (some r) = some x := by unfold explicitIn; simp [hd, hv]
  rw [e] at y2
  refine parseAll_scalar_held env t st ht hi u x _ ?_ a y2
  intro he
  rw [List.map_eq_nil_iff] at he
  exact (mentions_iff _ _).1 hm he

/-! ### Notification -/

theorem sorted_erase {α : Type} {m : SMap α} (h : m.Sorted) (s : Str) : (m.erase s).Sorted := List.Pairwise.sublist List.filter_sublist h

theorem performs_sorted {m m' : VarMap} {acts : List Act} (h : Performs m acts m') (hs : m.map.Sorted) : m'.map.Sorted := by
  induction h with
  | done => exact hs
  | @next m m1 m2 act rest hp _ ih =>
    refine ih ?_
    cases act with
    | store q u =>
      have := store_sorted q m u hs
      have hp : store q m u = (m1, none) := hp
      rw [hp] at this; exact this
    | insert n v d =>
      unfold perform at hp
      dsimp only at hp
      cases hr : m.map.get? n with
      | some x => rw [hr] at hp; cases hp; exact hs
      | none => rw [hr] at hp; cases hp; exact SMap.sorted_set hs _ _
    | erase n => cases hp; exact sorted_erase hs n
    | change n v =>
      unfold perform at hp
      dsimp only at hp
      split at hp
      · cases hp; exact SMap.sorted_set hs _ _
      · cases hp; exact hs
    | clear => cases hp; exact List.Pairwise.nil

theorem notifyLoop_skip (m : SMap VarValue) (name : Str) (h : ∀ r, (name, r) ∈ m → r.semantic = none) :
    VarMap.notifyLoop (m.erase name) = VarMap.notifyLoop m := by
  unfold SMap.erase
  induction m with
  | nil => rfl
  | cons e m ih =>
    obtain ⟨k, r⟩ := e
    have ih := ih fun r hr => h r (List.mem_cons_of_mem _ hr)
    rw [List.filter_cons]
    by_cases hk : k = name
    · rw [if_neg (by simp [hk]), ih]
      have : r.semantic = none := h r (by rw [← hk]; exact List.mem_cons_self)
      rw [VarMap.notifyLoop, this]
    · rw [if_pos (by simp [hk]), VarMap.notifyLoop, VarMap.notifyLoop, ih]

/-- Nothing is called or assigned for a record that the program inserted: the notifications are those there would be without it. -/
theorem C139_not_told (acts : List Act) (m : VarMap) (h : Performs {} acts m) (name : Str) (r : VarValue) (hr : m.map.get? name = some r) (hn : r.semantic = none) :
    VarMap.notifyLoop m.map = VarMap.notifyLoop (m.map.erase name) := by
  have hs : m.map.Sorted := performs_sorted h List.Pairwise.nil
  refine (notifyLoop_skip _ _ fun r' hr' => ?_).symm
  rw [← SMap.get?_eq_some hs, hr] at hr'
  cases hr'
  exact hn

/-- An inserted value that is not empty satisfies a required option: the others are the ones that may be missing. -/
theorem C139_required (m m' : VarMap) (name : Str) (x : AVal) (dflt : Bool) (hn : m.map.get? name = none)
    (h : perform m (.insert name (some x) dflt) = (m', none)) :
    VarMap.missingRequired m'.map m'.required = VarMap.missingRequired m.map (m.required.erase name) := by
  rw [(insert_other h name).2.1]
  have hg := fun n => (insert_other h n).2.2
  unfold SMap.erase
  induction m.required with
  | nil => rfl
  | cons e l ih =>
    obtain ⟨k, s⟩ := e
    rw [List.filter_cons, VarMap.missingRequired, hg]
    by_cases hk : k = name
    · rw [if_pos hk, if_neg (by simp [hk]), hn]
      exact ih
    · rw [if_neg hk, if_pos (by simp [hk]), VarMap.missingRequired]
      cases m.map.get? k with
      | none => rfl
      | some v => dsimp only; rw [ih]

/-- Erasing a required option does not make it optional. -/
theorem C139_erased_required (m m' : VarMap) (name : Str) (s : Str) (hr : (name, s) ∈ m.required) (h : perform m (.erase name) = (m', none)) :
    VarMap.missingRequired m'.map m'.required ≠ none := by
  obtain ⟨-, e2, e3⟩ := erase_other h name
  rw [if_pos rfl] at e3
  rw [e2]
  revert hr
  induction m.required with
  | nil => intro hr; cases hr
  | cons e l ih =>
    obtain ⟨k, s'⟩ := e
    intro hr
    rw [VarMap.missingRequired]
    cases hx : m'.map.get? k with
    | none => simp
    | some v =>
      dsimp only
      split
      · simp
      · rcases List.mem_cons.1 hr with e | hr
        · cases e; rw [e3] at hx; cases hx
        · exact ih hr

/-! ### Swapping -/

/-- Swapping exchanges the two maps if the same names are settled and required in both. -/
theorem C139_swap_partial (a b : VarMap) (hf : a.final = b.final) (hr : a.required = b.required) : swap a b = (b, a) := by
  cases a; cases b; cases hf; cases hr; rfl

/-- What is settled is not exchanged: after a swap a source that mentions a name is heard by a map exactly if it was heard by this map before. -/
theorem C139_swap_heard (a b m : VarMap) (name : Str) (q : Parsed) (u : Bool) (hm : Mentions q.options name) (h : store q (swap a b).1 u = (m, none)) :
    (name ∉ a.final → ∃ d v, candidates q.desc name = [d] ∧ parseAll d.semantic u (given b name) ((occurrences q.options name).map (·.value)) = .ok v ∧
      m.map.get? name = some { v, defaulted := false, semantic := some d.semantic }) ∧
    (name ∈ a.final → given m name = given b name) := by
  have hg : given (swap a b).1 name = given b name := rfl
  obtain ⟨y1, y2⟩ := C65_result q _ m u h name
  constructor
  · intro hf
    obtain ⟨d, v, ⟨c1, c2⟩, c3, -⟩ := y1 hm hf
    exact ⟨d, v, c1, by rw [← hg]; exact c2, c3⟩
  · intro hf
    rw [← hg]
    unfold given
    rw [(y2 (.inr hf)).1]
    cases (swap a b).1.map.get? name with
    | some v => rfl
    | none =>
      dsimp only
      cases firstDefault q.desc name <;> rfl

/-! ### Witnesses -/

namespace Ex
open Test

/-- The map after a source that gives `--name a`. -/
def named : VarMap := (store src1 {} false).1

theorem named_performs : Performs {} [.store src1 false] named := .next rfl (.done _)

theorem anew_performs : Performs named [.erase (L "name"), .store src2 false] (store src2 { named with map := named.map.erase (L "name") } false).1 :=
  .next rfl (.next rfl (.done _))

theorem name_mentioned : Mentions src2.options (L "name") := ⟨o "name" ["b"], by simp [src2], rfl, by decide, rfl⟩

end Ex

open Ex Test

/-- **The code disagrees**: erasing leaves the name among the settled ones, so the next source is not heard. -/
theorem C139_negation : ¬ GivenAnew := by
  intro h
  obtain ⟨r, hr, -⟩ := h _ _ _ (L "name") src2 false named_performs anew_performs name_mentioned
  have : (store src2 { named with map := named.map.erase (L "name") } false).1.map.get? (L "name") = none := rfl
  rw [this] at hr; cases hr

/-- After a swap the value is in the other map, but this one does not hear sources about it, and in the other one it is in the way. -/
theorem C139_swap_negation : ¬ ∀ (a b : VarMap) (q : Parsed) (u : Bool), (store q (swap a b).1 u).2 = (store q b u).2 := by
  intro h
  have := h {} named src2 false
  have e1 : (store src2 (swap {} named).1 false).2 ≠ none := by
    refine C139_in_the_way _ (L "name") _ _ (rfl : (swap {} named).1.map.get? (L "name") = some _) rfl rfl (by show L "name" ∉ []; simp) src2 false name_mentioned
      env _ .str dStr rfl rfl rfl rfl
  exact e1 (this.trans rfl)

/-- A composing option is heard again after it was erased, from nothing. -/
example : ∃ m', Performs named [.erase (L "inc"), .store src2 false] m' ∧ ∃ r, m'.map.get? (L "inc") = some r ∧
    r.v = some (.vector .str [.str (L "w")]) := ⟨_, .next rfl (.next rfl (.done _)), _, rfl, rfl⟩

/-- An inserted vector is continued by the next source. -/
example : ∃ m', Performs {} [.insert (L "inc") (some (.vector .str [.str (L "mine")])) false, .store src2 false] m' ∧ ∃ r, m'.map.get? (L "inc") = some r ∧
    r.v = some (.vector .str [.str (L "mine"), .str (L "w")]) := ⟨_, .next rfl (.next rfl (.done _)), _, rfl, rfl⟩

/-- A changed value is the one that stays. -/
example : ∃ m', Performs named [.change (L "name") (some (.scalar (.str (L "c")))), .store src2 false] m' ∧ ∃ r, m'.map.get? (L "name") = some r ∧
    r.v = some (.scalar (.str (L "c"))) := ⟨_, .next rfl (.next rfl (.done _)), _, rfl, rfl⟩

/-- Clearing makes the sources heard again. -/
example : ∃ m', Performs named [.clear, .store src2 false] m' ∧ ∃ r, m'.map.get? (L "name") = some r ∧ r.v = some (.scalar (.str (L "b"))) :=
  ⟨_, .next rfl (.next rfl (.done _)), _, rfl, rfl⟩

/-- `name` is settled by the first source, `inc` is not. -/
example : SettledBy (L "name") [.store src1 false, .erase (L "name")] ∧ ¬ SettledBy (L "inc") [.store src1 false] := by
  refine ⟨⟨[], src1, false, [.erase (L "name")], dStr, rfl, ⟨o "name" ["a"], by simp [src1], rfl, by decide, rfl⟩, rfl, rfl, by simp⟩, ?_⟩
  intro h
  have := (C139_settled_iff _ _ named_performs (L "inc")).2 h
  have e : L "inc" ∉ named.final := by decide
  exact e this

/-- The required option is satisfied by an inserted value, and still required when it is erased again. -/
example : (let m : VarMap := (store { desc := [dReq], options := [] } {} false).1
    (VarMap.missingRequired m.map m.required,
      VarMap.missingRequired (perform m (.insert (L "need") (some (.scalar (.str (L "x")))) false)).1.map m.required,
      VarMap.missingRequired (perform (perform m (.insert (L "need") (some (.scalar (.str (L "x")))) false)).1 (.erase (L "need"))).1.map m.required)) =
    (some (L "need"), none, some (L "need")) := rfl

end PO
