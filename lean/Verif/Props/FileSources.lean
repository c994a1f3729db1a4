import Verif.Spec.FileSources
import Verif.Lemmas.Store
import Verif.Props.StoreGrammar
import Verif.Tests.Util
/-
C148: token counts do not matter to files and the environment.
-/
namespace PO
namespace FileSources

/-- Both relations: `D` gives the defaults that may have been added, by name. -/
structure Rel (D : Str → Option Any) (d d' : OptionDesc) : Prop where
  short : d'.shortName = d.shortName
  long : d'.longNames = d.longNames
  parse : ∀ v t ts utf8, d'.semantic.parse v (t :: ts) utf8 = d.semantic.parse v (t :: ts) utf8
  composing : d'.semantic.isComposing = d.semantic.isComposing
  required : d'.semantic.isRequired = d.semantic.isRequired
  notify : d'.semantic.notify = d.semantic.notify
  keeps : D (d.key []) = none → d'.semantic.applyDefault = d.semantic.applyDefault
  gains : ∀ a, D (d.key []) = some a → d.semantic.applyDefault = none ∧ (d'.semantic.applyDefault = none ∨ d'.semantic.applyDefault = some a)

theorem Rel.key {D d d'} (h : Rel D d d') (n : Str) : d'.key n = d.key n := by unfold OptionDesc.key; rw [h.long, h.short]
theorem Rel.matches {D d d'} (h : Rel D d d') (n : Str) (a b c : Bool) : d'.match n a b c = d.match n a b c := by
  unfold OptionDesc.match; rw [h.long, h.short]
theorem Rel.display {D d d'} (h : Rel D d d') (pre : Nat) : d'.canonicalDisplayName pre = d.canonicalDisplayName pre := by
  unfold OptionDesc.canonicalDisplayName; rw [h.long, h.short]

variable {D : Str → Option Any}

theorem findLoop_pairs (name : Str) (a b c : Bool) (ps : List (OptionDesc × OptionDesc)) (hp : ∀ p ∈ ps, Rel D p.1 p.2)
    (x : Option (OptionDesc × OptionDesc)) (hx : ∀ p, x = some p → Rel D p.1 p.2) (full apx : List Str) :
    ∃ y : Option (OptionDesc × OptionDesc), (∀ p, y = some p → Rel D p.1 p.2) ∧
      ∃ r, findLoop name a b c (ps.map (·.1)) (x.map (·.1)) full apx = (y.map (·.1), r) ∧
        findLoop name a b c (ps.map (·.2)) (x.map (·.2)) full apx = (y.map (·.2), r) := by
  induction ps generalizing x full apx with
  | nil => exact ⟨x, hx, (full, apx), rfl, rfl⟩
  | cons p ps ih =>
    have hr := hp p (by simp)
    have ih' := ih (fun q hq => hp q (by simp [hq]))
    have hsome : ∀ q, some p = some q → Rel D q.1 q.2 := by intro q hq; injection hq with hq; rw [← hq]; exact hr
    simp only [List.map_cons, findLoop, hr.matches, hr.key]
    cases p.1.match name a b c with
    | noMatch => exact ih' x hx _ _
    | fullMatch => exact ih' (some p) hsome _ _
    | approximateMatch =>
      by_cases hf : full = []
      · simp only [if_pos hf]
        exact ih' (some p) hsome _ _
      · simp only [if_neg hf]
        exact ih' x hx _ _

theorem findOrThrow_pairs (name : Str) (a b c : Bool) (ps : List (OptionDesc × OptionDesc)) (hp : ∀ p ∈ ps, Rel D p.1 p.2) :
    (∃ f, findOrThrow (ps.map (·.1)) name a b c = .error f ∧ findOrThrow (ps.map (·.2)) name a b c = .error f) ∨
    ∃ d d', Rel D d d' ∧ findOrThrow (ps.map (·.1)) name a b c = .ok d ∧ findOrThrow (ps.map (·.2)) name a b c = .ok d' := by
  obtain ⟨y, hy, ⟨full, apx⟩, h1, h2⟩ := findLoop_pairs name a b c ps hp none (fun _ h => nomatch h) [] []
  simp only [Option.map_none] at h1 h2
  unfold findOrThrow findNothrow
  rw [h1, h2]
  dsimp only
  by_cases hf : full.length > 1
  · exact .inl ⟨_, by rw [if_pos hf], by rw [if_pos hf]⟩
  · by_cases ha : full = [] ∧ apx.length > 1
    · exact .inl ⟨_, by rw [if_neg hf, if_pos ha], by rw [if_neg hf, if_pos ha]⟩
    · rw [if_neg hf, if_neg ha, if_neg hf, if_neg ha]
      cases y with
      | none => exact .inl ⟨_, rfl, rfl⟩
      | some p => exact .inr ⟨p.1, p.2, hy p rfl, rfl, rfl⟩

/-- Entries of one name in the two maps. -/
def Entry (D : Str → Option Any) (n : Str) (v v' : Option VarValue) : Prop :=
  v'.map shown = v.map shown ∨ (v = none ∧ ∃ a w, D n = some a ∧ v' = some w ∧ w.v = a ∧ w.defaulted = true)

def Maps (D : Str → Option Any) (m m' : SMap VarValue) : Prop := ∀ n, Entry D n (m.get? n) (m'.get? n)

theorem Maps.set {m m' : SMap VarValue} (h : Maps D m m') (n : Str) {v v' : VarValue} (hv : shown v' = shown v) :
    Maps D (m.set n v) (m'.set n v') := by
  intro k
  rw [SMap.get?_set, SMap.get?_set]
  split
  · exact .inl (by simp [hv])
  · exact h k

/-- What `store` begins with. -/
theorem Maps.current {m m' : SMap VarValue} (h : Maps D m m') (n : Str) :
    shown (if ((m'.get? n).getD {}).defaulted then {} else (m'.get? n).getD {}) =
      shown (if ((m.get? n).getD {}).defaulted then {} else (m.get? n).getD {}) := by
  rcases h n with h | ⟨h1, a, w, _, h2, _, h3⟩
  · cases h1 : m.get? n with
    | none =>
      rw [h1] at h
      cases h2 : m'.get? n with
      | none => rfl
      | some w => rw [h2] at h; cases h
    | some v =>
      rw [h1] at h
      cases h2 : m'.get? n with
      | none => rw [h2] at h; cases h
      | some w =>
        rw [h2] at h
        simp only [Option.map_some, Option.some.injEq] at h
        have hd : w.defaulted = v.defaulted := congrArg (·.2.1) h
        simp only [Option.getD_some, hd]
        split
        · rfl
        · exact h
  · rw [h1, h2]
    simp [h3]

theorem storeOne_pairs (ps : List (OptionDesc × OptionDesc)) (hp : ∀ p ∈ ps, Rel D p.1 p.2) (pre : Nat) (utf8 : Bool) (final : SSet)
    {m m' : SMap VarValue} (h : Maps D m m') (nf : SSet) (o : Opt) (ho : o.value ≠ []) :
    (storeOne (ps.map (·.2)) pre utf8 final m' nf o).2 = (storeOne (ps.map (·.1)) pre utf8 final m nf o).2 ∧
    (storeOne (ps.map (·.2)) pre utf8 final m' nf o).1.2 = (storeOne (ps.map (·.1)) pre utf8 final m nf o).1.2 ∧
    Maps D (storeOne (ps.map (·.1)) pre utf8 final m nf o).1.1 (storeOne (ps.map (·.2)) pre utf8 final m' nf o).1.1 := by
  unfold storeOne
  dsimp only
  by_cases h1 : o.stringKey = []
  · rw [if_pos h1, if_pos h1]; exact ⟨rfl, rfl, h⟩
  by_cases h2 : o.unregistered = true
  · rw [if_neg h1, if_pos h2, if_neg h1, if_pos h2]; exact ⟨rfl, rfl, h⟩
  by_cases h3 : final.has o.stringKey = true
  · rw [if_neg h1, if_neg h2, if_pos h3, if_neg h1, if_neg h2, if_pos h3]; exact ⟨rfl, rfl, h⟩
  rw [if_neg h1, if_neg h2, if_neg h3, if_neg h1, if_neg h2, if_neg h3]
  rcases findOrThrow_pairs o.stringKey false false false ps hp with ⟨f, e1, e2⟩ | ⟨d, d', hr, e1, e2⟩
  · rw [e1, e2]; exact ⟨rfl, rfl, h⟩
  · rw [e1, e2]
    dsimp only
    have hc := h.current o.stringKey
    generalize (if ((m'.get? o.stringKey).getD {}).defaulted then {} else (m'.get? o.stringKey).getD {}) = v' at hc ⊢
    generalize (if ((m.get? o.stringKey).getD {}).defaulted then {} else (m.get? o.stringKey).getD {}) = v at hc ⊢
    have hv : v'.v = v.v := congrArg (·.1) hc
    have hd : v'.defaulted = v.defaulted := congrArg (·.2.1) hc
    have hs : v'.semantic.map (·.notify) = v.semantic.map (·.notify) := congrArg (·.2.2) hc
    have hparse : d'.semantic.parse v.v o.value utf8 = d.semantic.parse v.v o.value utf8 := by
      obtain ⟨t, ts, e⟩ := List.exists_cons_of_ne_nil ho
      rw [e]
      exact hr.parse _ _ _ _
    rw [hv, hparse]
    cases hq : d.semantic.parse v.v o.value utf8 with
    | mk a r =>
      cases r with
      | some f => exact ⟨rfl, rfl, h.set _ (by simp [shown, hd, hs])⟩
      | none => exact ⟨rfl, by simp only [hr.composing], h.set _ (by simp [shown, hd, hr.notify])⟩

theorem storeLoop_pairs (ps : List (OptionDesc × OptionDesc)) (hp : ∀ p ∈ ps, Rel D p.1 p.2) (pre : Nat) (utf8 : Bool) (final : SSet)
    (os : List Opt) (ho : ∀ o ∈ os, o.value ≠ []) {m m' : SMap VarValue} (h : Maps D m m') (nf : SSet) :
    (storeLoop (ps.map (·.2)) pre utf8 final os m' nf).2 = (storeLoop (ps.map (·.1)) pre utf8 final os m nf).2 ∧
    (storeLoop (ps.map (·.2)) pre utf8 final os m' nf).1.2 = (storeLoop (ps.map (·.1)) pre utf8 final os m nf).1.2 ∧
    Maps D (storeLoop (ps.map (·.1)) pre utf8 final os m nf).1.1 (storeLoop (ps.map (·.2)) pre utf8 final os m' nf).1.1 := by
  induction os generalizing m m' nf with
  | nil => exact ⟨rfl, rfl, h⟩
  | cons o os ih =>
    obtain ⟨h1, h2, h3⟩ := storeOne_pairs ps hp pre utf8 final h nf o (ho o (by simp))
    rw [storeLoop, storeLoop]
    generalize storeOne (ps.map (·.2)) pre utf8 final m' nf o = r' at h1 h2 h3 ⊢
    generalize storeOne (ps.map (·.1)) pre utf8 final m nf o = r at h1 h2 h3 ⊢
    obtain ⟨⟨m1, n1⟩, f1⟩ := r
    obtain ⟨⟨m2, n2⟩, f2⟩ := r'
    dsimp only at h1 h2 h3
    rw [h1, h2]
    cases f1 with
    | some f => exact ⟨rfl, rfl, h3⟩
    | none => exact ih (fun o h => ho o (by simp [h])) h3 _

theorem applyOne_pairs {d d' : OptionDesc} (hr : Rel D d d') (pre : Nat) {m m' : SMap VarValue} (h : Maps D m m') (req : SMap Str) :
    (applyOne pre m' req d').2 = (applyOne pre m req d).2 ∧ Maps D (applyOne pre m req d).1 (applyOne pre m' req d').1 := by
  unfold applyOne
  dsimp only
  rw [hr.key]
  by_cases hk : d.key [] = []
  · rw [if_pos hk, if_pos hk]; exact ⟨rfl, h⟩
  rw [if_neg hk, if_neg hk]
  refine ⟨?_, ?_⟩
  · dsimp only
    rw [hr.required, hr.display]
  · dsimp only
    unfold SMap.has
    rcases h (d.key []) with he | ⟨h1, a, w, hD, h2, hw, hwd⟩
    · have hs : (m'.get? (d.key [])).isSome = (m.get? (d.key [])).isSome := by
        have := congrArg Option.isSome he
        simpa using this
      rw [hs]
      by_cases hi : (m.get? (d.key [])).isSome = true
      · rw [if_pos hi, if_pos hi]; exact h
      · rw [if_neg hi, if_neg hi]
        cases hD : D (d.key []) with
        | none =>
          rw [hr.keeps hD]
          cases d.semantic.applyDefault with
          | none => exact h
          | some a => exact h.set _ (by simp [shown, hr.notify])
        | some a =>
          obtain ⟨g1, g2⟩ := hr.gains a hD
          rw [g1]
          dsimp only
          rcases g2 with g2 | g2
          · rw [g2]; exact h
          · rw [g2]
            dsimp only
            intro n
            rw [SMap.get?_set]
            split
            · rename_i hn
              refine .inr ⟨?_, a, _, by rw [← hn]; exact hD, rfl, rfl, rfl⟩
              rw [← hn]
              simpa using hi
            · exact h n
    · rw [h1, h2]
      simp only [Option.isSome_none, Option.isSome_some, if_true]
      rw [if_neg (by simp), (hr.gains a hD).1]
      exact h

theorem applyAll_pairs (ps : List (OptionDesc × OptionDesc)) (hp : ∀ p ∈ ps, Rel D p.1 p.2) (pre : Nat) {m m' : SMap VarValue}
    (h : Maps D m m') (req : SMap Str) :
    (applyAll pre (ps.map (·.2)) m' req).2 = (applyAll pre (ps.map (·.1)) m req).2 ∧
    Maps D (applyAll pre (ps.map (·.1)) m req).1 (applyAll pre (ps.map (·.2)) m' req).1 := by
  induction ps generalizing m m' req with
  | nil => exact ⟨rfl, h⟩
  | cons p ps ih =>
    obtain ⟨h1, h2⟩ := applyOne_pairs (hp p (by simp)) pre h req
    simp only [List.map_cons, applyAll]
    rw [h1]
    exact ih (fun q hq => hp q (by simp [hq])) h2 _

/-- The two maps of the two programs. -/
structure Both (D : Str → Option Any) (m m' : VarMap) : Prop where
  map : Maps D m.map m'.map
  final : m'.final = m.final
  required : m'.required = m.required

theorem store_pairs (ps : List (OptionDesc × OptionDesc)) (hp : ∀ p ∈ ps, Rel D p.1 p.2) (os : List Opt) (ho : ∀ o ∈ os, o.value ≠ []) (pre : Nat) (utf8 : Bool)
    {m m' : VarMap} (h : Both D m m') :
    (store { desc := ps.map (·.2), options := os, pre } m' utf8).2 = (store { desc := ps.map (·.1), options := os, pre } m utf8).2 ∧
    Both D (store { desc := ps.map (·.1), options := os, pre } m utf8).1 (store { desc := ps.map (·.2), options := os, pre } m' utf8).1 := by
  obtain ⟨h1, h2, h3⟩ := storeLoop_pairs ps hp pre utf8 m.final os ho h.map []
  unfold store
  dsimp only
  rw [h.final]
  generalize storeLoop (ps.map (·.2)) pre utf8 m.final os m'.map [] = r' at h1 h2 h3 ⊢
  generalize storeLoop (ps.map (·.1)) pre utf8 m.final os m.map [] = r at h1 h2 h3 ⊢
  obtain ⟨⟨m1, n1⟩, f1⟩ := r
  obtain ⟨⟨m2, n2⟩, f2⟩ := r'
  dsimp only at h1 h2 h3
  rw [h1, h2]
  cases f1 with
  | some f => exact ⟨rfl, h3, rfl, h.required⟩
  | none =>
    obtain ⟨g1, g2⟩ := applyAll_pairs ps hp pre h3 m.required
    dsimp only
    rw [h.required]
    exact ⟨rfl, g2, rfl, g1⟩

theorem allowedNames_pairs (ps : List (OptionDesc × OptionDesc)) (hp : ∀ p ∈ ps, Rel D p.1 p.2) (acc : SSet) :
    allowedNames (ps.map (·.2)) acc = allowedNames (ps.map (·.1)) acc := by
  induction ps generalizing acc with
  | nil => rfl
  | cons p ps ih =>
    have hl : p.2.longName = p.1.longName := by unfold OptionDesc.longName; rw [(hp p (by simp)).long]
    simp only [List.map_cons, allowedNames, hl]
    rw [ih fun q hq => hp q (by simp [hq])]

theorem line_value {it : ConfigIter} {pre s : Str} {o : Opt} (h : it.line pre s = .ok (.option o)) : o.value ≠ [] := by
  unfold ConfigIter.line at h
  split at h
  · cases h
  · split at h
    · dsimp only at h
      split at h <;> cases h
    · split at h
      · dsimp only at h
        split at h
        · cases h
        · injection h with h; injection h with h; rw [← h]; simp
      · cases h

theorem lines_value {it : ConfigIter} (ls : List Str) {pre : Str} {os : List Opt} (h : it.lines pre ls = .ok os) : ∀ o ∈ os, o.value ≠ [] := by
  induction ls generalizing pre os with
  | nil => rw [ConfigIter.lines] at h; cases h; simp
  | cons l ls ih =>
    rw [ConfigIter.lines] at h
    cases hl : it.line pre (stripLine l) with
    | error f => rw [hl] at h; cases h
    | ok r =>
      rw [hl] at h
      cases r with
      | skip => exact ih h
      | section_ p => exact ih h
      | option o =>
        dsimp only at h
        cases hr : it.lines pre ls with
        | error f => rw [hr] at h; cases h
        | ok os' =>
          rw [hr] at h
          injection h with h
          rw [← h]
          intro x hx
          rcases List.mem_cons.1 hx with rfl | hx
          · exact line_value hl
          · exact ih hr x hx

theorem wlines_value {it : ConfigIter} {env : Env} (ls : List WStr) {pre : Str} {os : List Opt} (h : it.wlines env pre ls = .ok os) :
    ∀ o ∈ os, o.value ≠ [] := by
  induction ls generalizing pre os with
  | nil => rw [ConfigIter.wlines] at h; cases h; simp
  | cons l ls ih =>
    rw [ConfigIter.wlines] at h
    cases he : env.toUtf8 l with
    | none => rw [he] at h; cases h
    | some l' =>
    rw [he] at h
    dsimp only at h
    cases hl : it.line pre (stripLine l') with
    | error f => rw [hl] at h; cases h
    | ok r =>
      rw [hl] at h
      cases r with
      | skip => exact ih h
      | section_ p => exact ih h
      | option o =>
        dsimp only at h
        cases hr : it.wlines env pre ls with
        | error f => rw [hr] at h; cases h
        | ok os' =>
          rw [hr] at h
          injection h with h
          rw [← h]
          intro x hx
          rcases List.mem_cons.1 hx with rfl | hx
          · exact line_value hl
          · exact ih hr x hx

theorem environment_value {mapper : Str → Str} (es : List Str) {os : List Opt} (h : parseEnvironmentLoop mapper es = .ok os) :
    ∀ o ∈ os, o.value ≠ [] := by
  induction es generalizing os with
  | nil => rw [parseEnvironmentLoop] at h; cases h; simp
  | cons e es ih =>
    rw [parseEnvironmentLoop] at h
    split at h
    · cases h
    · split at h
      · cases h
      · rename_i os' hos
        split at h
        · cases h; exact ih hos
        · cases h
          intro x hx
          rcases List.mem_cons.1 hx with rfl | hx
          · simp
          · exact ih hos x hx

theorem load_pairs (env : Env) (ps : List (OptionDesc × OptionDesc)) (hp : ∀ p ∈ ps, Rel D p.1 p.2) (s : Source) {m m' : VarMap} (h : Both D m m') :
    (s.load env (ps.map (·.2)) m').2 = (s.load env (ps.map (·.1)) m).2 ∧ Both D (s.load env (ps.map (·.1)) m).1 (s.load env (ps.map (·.2)) m').1 := by
  cases s with
  | file t u =>
    unfold Source.load parseConfigFile
    dsimp only
    rw [allowedNames_pairs ps hp]
    cases allowedNames (ps.map (·.1)) [] with
    | error f => exact ⟨rfl, h⟩
    | ok al =>
      dsimp only
      cases ConfigIter.make al u with
      | error f => exact ⟨rfl, h⟩
      | ok it =>
        dsimp only
        cases hl : it.lines [] (getlines '\n' t) with
        | error f => exact ⟨rfl, h⟩
        | ok os => exact store_pairs ps hp os (lines_value _ hl) 0 false h
  | wfile t u =>
    unfold Source.load wparseConfigFile
    dsimp only
    rw [allowedNames_pairs ps hp]
    cases allowedNames (ps.map (·.1)) [] with
    | error f => exact ⟨rfl, h⟩
    | ok al =>
      dsimp only
      cases ConfigIter.make al u with
      | error f => exact ⟨rfl, h⟩
      | ok it =>
        dsimp only
        cases hl : it.wlines env [] (wgetlinesAux 10 t []) with
        | error f => exact ⟨rfl, h⟩
        | ok os =>
          dsimp only [Parsed.toWide]
          cases mapOk (wopt env) os with
          | error f => exact ⟨rfl, h⟩
          | ok ws => exact store_pairs ps hp os (wlines_value _ hl) 0 true h
  | environment es mapper =>
    unfold Source.load parseEnvironment
    dsimp only
    cases hl : parseEnvironmentLoop mapper es with
    | error f => exact ⟨rfl, h⟩
    | ok os => exact store_pairs ps hp os (environment_value _ hl) 0 false h

theorem loadAll_pairs (env : Env) (ps : List (OptionDesc × OptionDesc)) (hp : ∀ p ∈ ps, Rel D p.1 p.2) (ss : List Source) {m m' : VarMap}
    (h : Both D m m') :
    (loadAll env (ps.map (·.2)) m' ss).2 = (loadAll env (ps.map (·.1)) m ss).2 ∧
    Both D (loadAll env (ps.map (·.1)) m ss).1 (loadAll env (ps.map (·.2)) m' ss).1 := by
  induction ss generalizing m m' with
  | nil => exact ⟨rfl, h⟩
  | cons s ss ih =>
    obtain ⟨h1, h2⟩ := load_pairs env ps hp s h
    rw [loadAll, loadAll]
    generalize s.load env (ps.map (·.2)) m' = r' at h1 h2 ⊢
    generalize s.load env (ps.map (·.1)) m = r at h1 h2 ⊢
    obtain ⟨m1, f1⟩ := r
    obtain ⟨m2, f2⟩ := r'
    dsimp only at h1 h2
    rw [h1]
    cases f1 with
    | some f => exact ⟨rfl, h2⟩
    | none => exact ih h2

theorem load_sorted (env : Env) (ds : List OptionDesc) (s : Source) {m : VarMap} (h : SMap.Sorted m.map) : SMap.Sorted (s.load env ds m).1.map := by
  cases s <;> unfold Source.load <;> dsimp only <;> split
  · exact h
  · exact store_sorted _ _ _ h
  · exact h
  · exact store_sorted _ _ _ h
  · exact h
  · exact store_sorted _ _ _ h

theorem loadAll_sorted (env : Env) (ds : List OptionDesc) (ss : List Source) {m : VarMap} (h : SMap.Sorted m.map) :
    SMap.Sorted (loadAll env ds m ss).1.map := by
  induction ss generalizing m with
  | nil => exact h
  | cons s ss ih =>
    have := load_sorted env ds s h
    rw [loadAll]
    generalize s.load env ds m = r at this ⊢
    obtain ⟨m1, f1⟩ := r
    cases f1 with
    | some f => exact this
    | none => exact ih this

/-- The map as it is shown. -/
def showAll (m : SMap VarValue) : SMap (Any × Bool × Option (Any → List Event × Option Fail)) := m.map fun x => (x.1, shown x.2)

theorem showAll_get (m : SMap VarValue) (n : Str) : (showAll m).get? n = (m.get? n).map shown := by
  induction m with
  | nil => rfl
  | cons x m ih =>
    obtain ⟨k, v⟩ := x
    unfold showAll at *
    rw [List.map_cons, SMap.get?, SMap.get?]
    split
    · rfl
    · exact ih

theorem showAll_sorted {m : SMap VarValue} (h : m.Sorted) : (showAll m).Sorted := by
  unfold showAll SMap.Sorted
  rw [List.pairwise_map]
  exact h

def notifyShown : SMap (Any × Bool × Option (Any → List Event × Option Fail)) → List Event × Option Fail
  | [] => ([], none)
  | (_, _, _, none) :: rest => notifyShown rest
  | (_, a, _, some f) :: rest =>
    match f a with
    | (es, some f) => (es, some f)
    | (es, none) => (es ++ (notifyShown rest).1, (notifyShown rest).2)

theorem notifyLoop_shown (m : SMap VarValue) : VarMap.notifyLoop m = notifyShown (showAll m) := by
  induction m with
  | nil => rfl
  | cons x m ih =>
    obtain ⟨k, v, d, s⟩ := x
    unfold showAll at *
    rw [VarMap.notifyLoop, List.map_cons, ih]
    cases s with
    | none => rfl
    | some s =>
      simp only [shown, Option.map_some, notifyShown]
      cases s.notify v with
      | mk es f => cases f <;> rfl

theorem missingRequired_shown {m m' : SMap VarValue} (h : ∀ n, (m'.get? n).map shown = (m.get? n).map shown) (req : SMap Str) :
    VarMap.missingRequired m' req = VarMap.missingRequired m req := by
  induction req with
  | nil => rfl
  | cons x req ih =>
    obtain ⟨k, display⟩ := x
    rw [VarMap.missingRequired, VarMap.missingRequired, ih]
    have hk := h k
    cases h1 : m.get? k with
    | none =>
      cases h2 : m'.get? k with
      | none => rfl
      | some w => rw [h1, h2] at hk; cases hk
    | some v =>
      cases h2 : m'.get? k with
      | none => rw [h1, h2] at hk; cases hk
      | some w =>
        rw [h1, h2] at hk
        injection hk with hk
        have : w.v = v.v := congrArg (·.1) hk
        have he : w.empty = v.empty := by unfold VarValue.empty; rw [this]
        dsimp only
        rw [he]

theorem notify_shown {m m' : VarMap} (hm : m.map.Sorted) (hm' : m'.map.Sorted) (h : ∀ n, (m'.map.get? n).map shown = (m.map.get? n).map shown)
    (hr : m'.required = m.required) : m'.notify = m.notify := by
  have e : showAll m'.map = showAll m.map := by
    apply smap_ext (showAll_sorted hm') (showAll_sorted hm)
    intro n
    rw [showAll_get, showAll_get, h]
  unfold VarMap.notify
  rw [hr, missingRequired_shown h, notifyLoop_shown, notifyLoop_shown, e]

theorem SameButCounts.rel {d d' : OptionDesc} (h : SameButCounts d d') (hD : D (d.key []) = none) : Rel D d d' :=
  ⟨h.short, h.long, h.parse, h.composing, h.required, h.notify, (fun _ => h.default), (fun a ha => by rw [hD] at ha; cases ha)⟩

theorem GainsDefault.rel {d d' : OptionDesc} {a : Any} (h : GainsDefault d d' a) (hD : D (d.key []) = some a) : Rel D d d' :=
  ⟨h.short, h.long, h.parse, h.composing, h.required, h.notify, (fun hn => by rw [hD] at hn; cases hn),
    (fun b hb => by rw [hD] at hb; cases hb; exact ⟨h.none, .inr h.default⟩)⟩

/-- After a source was loaded, an option with a default has a value. -/
theorem load_default (env : Env) (ds : List OptionDesc) (s : Source) (m : VarMap) (h : (s.load env ds m).2 = none) {d : OptionDesc} (hd : d ∈ ds)
    (hk : d.key [] ≠ []) (ha : d.semantic.applyDefault ≠ none) : ((s.load env ds m).1.map.get? (d.key [])).isSome := by
  have key : ∀ (p : Parsed) (utf8 : Bool), p.desc = ds → (store p m utf8).2 = none → ((store p m utf8).1.map.get? (d.key [])).isSome := by
    intro p utf8 hp hs
    obtain ⟨m1, nf, _, e⟩ := store_ok (p := p) (xm := m) (xm' := (store p m utf8).1) (utf8 := utf8) (by rw [← hs])
    rw [e]
    dsimp only
    rw [applyAll_get, hp]
    cases m1.get? (d.key []) with
    | some v => rfl
    | none =>
      dsimp only
      rw [Option.isSome_map, Spec.firstDefault, List.findSome?_isSome_iff]
      refine ⟨d, hd, ?_⟩
      rw [key_nil] at hk ⊢
      rw [if_pos ⟨rfl, hk⟩]
      cases e : d.semantic.applyDefault with
      | none => exact absurd e ha
      | some a => rfl
  cases s with
  | file t u =>
    unfold Source.load at h ⊢
    dsimp only at h ⊢
    cases hp : parseConfigFile t ds u with
    | error f => rw [hp] at h; cases h
    | ok p =>
      rw [hp] at h
      refine key p false ?_ h
      unfold parseConfigFile at hp
      repeat' split at hp
      all_goals cases hp
      rfl
  | wfile t u =>
    unfold Source.load at h ⊢
    dsimp only at h ⊢
    cases hp : wparseConfigFile env t ds u with
    | error f => rw [hp] at h; cases h
    | ok p =>
      rw [hp] at h
      refine key p.utf8 true ?_ h
      unfold wparseConfigFile Parsed.toWide at hp
      repeat' split at hp
      all_goals cases hp
      rfl
  | environment es mapper =>
    unfold Source.load at h ⊢
    dsimp only at h ⊢
    cases hp : parseEnvironment es ds mapper with
    | error f => rw [hp] at h; cases h
    | ok p =>
      rw [hp] at h
      refine key p false ?_ h
      unfold parseEnvironment at hp
      repeat' split at hp
      all_goals cases hp
      rfl

theorem loadAll_default (env : Env) (ds : List OptionDesc) (ss : List Source) (hs : ss ≠ []) (m : VarMap) (h : (loadAll env ds m ss).2 = none)
    {d : OptionDesc} (hd : d ∈ ds) (hk : d.key [] ≠ []) (ha : d.semantic.applyDefault ≠ none) :
    ((loadAll env ds m ss).1.map.get? (d.key [])).isSome := by
  induction ss generalizing m with
  | nil => exact absurd rfl hs
  | cons s ss ih =>
    rw [loadAll] at h ⊢
    cases hr : s.load env ds m with
    | mk m1 f1 =>
      rw [hr] at h
      cases f1 with
      | some f => cases h
      | none =>
        dsimp only at h ⊢
        by_cases he : ss = []
        · subst he
          have := load_default env ds s m (by rw [hr]) hd hk ha
          rw [hr] at this
          exact this
        · exact ih he m1 h

theorem mapM_ne_nil {α β : Type} {g : α → Option β} {x : α} {xs : List α} {ws : List β} (h : (x :: xs).mapM g = some ws) : ws ≠ [] := by
  rintro rfl
  rw [List.mapM_cons] at h
  cases hg : g x with
  | none => rw [hg] at h; cases h
  | some y =>
    rw [hg] at h
    cases hy : xs.mapM g with
    | none => rw [hy] at h; cases h
    | some ys => rw [hy] at h; cases h

end FileSources
open FileSources

/-- Two programs whose options differ only in the numbers of tokens, the implicit values, the names of the values and the descriptions read any
sequence of files and environments in the same way: the same exception or none, the same value under each name, the same options that later
sources cannot change, the same required ones, and the same notifications. -/
theorem C148_counts (env : Env) (ps : List (OptionDesc × OptionDesc)) (hp : ∀ p ∈ ps, SameButCounts p.1 p.2) (ss : List Source) (m : VarMap)
    (hm : SMap.Sorted m.map) :
    (loadAll env (ps.map (·.2)) m ss).2 = (loadAll env (ps.map (·.1)) m ss).2 ∧
    (∀ n, ((loadAll env (ps.map (·.2)) m ss).1.map.get? n).map shown = ((loadAll env (ps.map (·.1)) m ss).1.map.get? n).map shown) ∧
    (loadAll env (ps.map (·.2)) m ss).1.final = (loadAll env (ps.map (·.1)) m ss).1.final ∧
    (loadAll env (ps.map (·.2)) m ss).1.required = (loadAll env (ps.map (·.1)) m ss).1.required ∧
    (loadAll env (ps.map (·.2)) m ss).1.notify = (loadAll env (ps.map (·.1)) m ss).1.notify := by
  obtain ⟨h1, h2⟩ := loadAll_pairs (D := fun _ => none) env ps (fun p h => (hp p h).rel rfl) ss
    (m := m) (m' := m) ⟨(fun n => .inl rfl), rfl, rfl⟩
  have hg : ∀ n, ((loadAll env (ps.map (·.2)) m ss).1.map.get? n).map shown = ((loadAll env (ps.map (·.1)) m ss).1.map.get? n).map shown := by
    intro n
    rcases h2.map n with h | ⟨_, a, _, h, _⟩
    · exact h
    · cases h
  exact ⟨h1, hg, h2.final, h2.required, notify_shown (loadAll_sorted env _ ss hm) (loadAll_sorted env _ ss hm) hg h2.required⟩

/-- Adding defaults, here `D` by the name of the option, changes nothing else: the same exceptions, and each name has the value it had, unless it
had none and has the default, marked as such. Once a source was read without an exception it has. -/
theorem C148_switch (env : Env) (D : Str → Option Any) (ps : List (OptionDesc × OptionDesc))
    (hp : ∀ p ∈ ps, (D p.1.own = none ∧ SameButCounts p.1 p.2) ∨ ∃ a, D p.1.own = some a ∧ GainsDefault p.1 p.2 a) (ss : List Source) :
    (loadAll env (ps.map (·.2)) {} ss).2 = (loadAll env (ps.map (·.1)) {} ss).2 ∧
    (∀ n, ((loadAll env (ps.map (·.2)) {} ss).1.map.get? n).map shown = ((loadAll env (ps.map (·.1)) {} ss).1.map.get? n).map shown ∨
      ((loadAll env (ps.map (·.1)) {} ss).1.map.get? n = none ∧
        ∃ a w, D n = some a ∧ (loadAll env (ps.map (·.2)) {} ss).1.map.get? n = some w ∧ w.v = a ∧ w.defaulted = true)) ∧
    (ss ≠ [] → (loadAll env (ps.map (·.1)) {} ss).2 = none → ∀ p ∈ ps, p.1.own ≠ [] → ∀ a, D p.1.own = some a →
      (loadAll env (ps.map (·.1)) {} ss).1.map.get? p.1.own = none →
      ∃ w, (loadAll env (ps.map (·.2)) {} ss).1.map.get? p.1.own = some w ∧ w.v = a ∧ w.defaulted = true) := by
  have hr : ∀ p ∈ ps, Rel D p.1 p.2 := by
    intro p h
    rcases hp p h with ⟨hD, h⟩ | ⟨a, hD, h⟩
    · exact h.rel (by rw [key_nil]; exact hD)
    · exact h.rel (by rw [key_nil]; exact hD)
  obtain ⟨h1, h2⟩ := loadAll_pairs env ps hr ss (m := {}) (m' := {}) ⟨(fun n => .inl rfl), rfl, rfl⟩
  refine ⟨h1, h2.map, ?_⟩
  intro hs hok p hpm hk a hD hnone
  have hgain : GainsDefault p.1 p.2 a := by
    rcases hp p hpm with ⟨hD', h⟩ | ⟨b, hD', h⟩
    · rw [hD] at hD'; cases hD'
    · rw [hD] at hD'; cases hD'; exact h
  have hrel := hr p hpm
  have hsome := loadAll_default env (ps.map (·.2)) ss hs {} (by rw [h1, hok]) (d := p.2) (List.mem_map.2 ⟨p, hpm, rfl⟩)
    (by rw [hrel.key, key_nil]; exact hk) (by rw [hgain.default]; exact fun h => nomatch h)
  rw [hrel.key, key_nil] at hsome
  rcases h2.map p.1.own with h | ⟨_, b, w, hb, hw, hv, hdf⟩
  · rw [hnone] at h
    cases hq : (loadAll env (ps.map (·.2)) {} ss).1.map.get? p.1.own with
    | none => rw [hq] at hsome; cases hsome
    | some w => rw [hq] at h; cases h
  · rw [hD] at hb; cases hb
    exact ⟨w, hw, hv, hdf⟩

/-- `multitoken()`, `zero_tokens()`, `implicit_value()` and `value_name()` are among the differences of the first theorem, for all types. -/
theorem C148_typed (env : Env) (d : OptionDesc) (text : Str) (t : TypedValue) (multitoken zeroTokens : Bool) (implicit : Option (AVal × Str))
    (valueName : Str) :
    SameButCounts { d with semantic := t.toSemantic env }
      { d with description := text, semantic := ({ t with multitoken, zeroTokens, implicit, valueName } : TypedValue).toSemantic env } := by
  refine ⟨rfl, rfl, ?_, rfl, rfl, rfl, rfl⟩
  intro v x xs utf8
  have hx : ∀ {α : Type} (f : SType → List α → Except Fail SVal) (y : α) (ys : List α),
      TypedValue.xparse f { t with multitoken, zeroTokens, implicit, valueName } v (y :: ys) = TypedValue.xparse f t v (y :: ys) := by
    intro α f y ys
    unfold TypedValue.xparse
    rfl
  have hm : ∀ {α : Type} (f : SType → List α → Except Fail SVal) (ws : List α), ws ≠ [] →
      TypedValue.xparse f { t with multitoken, zeroTokens, implicit, valueName } v ws = TypedValue.xparse f t v ws := by
    intro α f ws hw
    obtain ⟨y, ys, rfl⟩ := List.exists_cons_of_ne_nil hw
    exact hx f y ys
  dsimp only [TypedValue.toSemantic, TypedValue.parse]
  by_cases hw : t.wide = true
  · rw [if_pos hw, if_pos hw]
    cases h : List.mapM (if utf8 = true then env.fromUtf8 else env.fromLocal) (x :: xs) with
    | none => rfl
    | some ws => exact hm _ _ (mapM_ne_nil h)
  · rw [if_neg hw, if_neg hw]
    by_cases hu : utf8 = true
    · rw [if_pos hu, if_pos hu]
      cases h : List.mapM (fun s => (env.fromUtf8 s).bind env.toLocal) (x :: xs) with
      | none => rfl
      | some ws => exact hm _ _ (mapM_ne_nil h)
    · rw [if_neg hu, if_neg hu]
      exact hx _ _ _

/-- So is whether an option without a type takes a value. -/
theorem C148_untyped (env : Env) (d : OptionDesc) (text : Str) (z z' : Bool) :
    SameButCounts { d with semantic := untypedValue env z } { d with description := text, semantic := untypedValue env z' } :=
  ⟨rfl, rfl, (fun _ _ _ _ => rfl), rfl, rfl, rfl, rfl⟩

/-- `bool_switch(v)` is `value<bool>(v)` with a default, for the second theorem. -/
theorem C148_bool_switch (env : Env) (d : OptionDesc) (text : Str) (to : Option Nat) :
    GainsDefault { d with semantic := ({ type := .scalar .bool, storeTo := to } : TypedValue).toSemantic env }
      { d with description := text, semantic := (boolSwitch to).toSemantic env } (some (.scalar (.bool false))) :=
  ⟨rfl, rfl, (fun _ _ _ _ => rfl), rfl, rfl, rfl, rfl, rfl⟩

namespace FileSources
open Test

/-- An option `path`, once a plain list and once with `multitoken()` and an implicit value; and a `verbose` without a type, once a switch. -/
def demo : List (OptionDesc × OptionDesc) :=
  [(od "path" (sem vvec), od "path" (sem { vvec with multitoken := true, implicit := some (.vector .str [], []), valueName := L "dir" }) "where to look"),
   (od "verbose" (untypedValue env false), od "verbose" unt)]

theorem demo_same : ∀ p ∈ demo, SameButCounts p.1 p.2 := by
  intro p hp
  simp only [demo, List.mem_cons, List.not_mem_nil, or_false] at hp
  rcases hp with rfl | rfl
  · exact C148_typed env (od "path" (sem vvec)) _ vvec _ _ _ _
  · exact C148_untyped env (od "verbose" unt) _ false true

def demoSources : List Source :=
  [.file (L "path = a b\npath=\n") false, .environment [L "MY_VERBOSE=1", L "MY_PATH=c"] (prefixMapper (L "MY_")), .wfile (widen (L "path=d")) true]

/-- The values the two programs find, and a command line that only the second takes. -/
example : (((loadAll env (demo.map (·.2)) {} demoSources).1.map.get? (L "path")).map (·.v)) = some (some (.vector .str [.str (L "a b"), .str []])) ∧
    (((loadAll env (demo.map (·.2)) {} demoSources).1.map.get? (L "verbose")).map (·.v)) = some (some (.scalar (.str (L "1")))) ∧
    (loadAll env (demo.map (·.2)) {} demoSources).2 = none ∧
    ((loadAll env (demo.map (·.1)) {} demoSources).1.map.get? (L "path")).map shown =
      ((loadAll env (demo.map (·.2)) {} demoSources).1.map.get? (L "path")).map shown ∧
    ((PO.parseCommandLine [L "prog", L "--verbose"] (demo.map (·.2))).toOption.map (·.options.length)) = some 1 ∧
    ((PO.parseCommandLine [L "prog", L "--verbose"] (demo.map (·.1))).toOption.map (·.options.length)) = none := by
  refine ⟨by decide, by decide, by decide, ((C148_counts env demo demo_same demoSources {} List.Pairwise.nil).2.1 _).symm, ?_, ?_⟩
  · decide
  · decide

/-- The booleans of /repo/example/config_file_types.cpp, as its comment has them and as its code has them. -/
def booleans : List (OptionDesc × OptionDesc) :=
  ["booleans.number_true", "booleans.onoff_false", "booleans.present_equal_true", "booleans.present_no_equal_true"].map fun n =>
    (od n (sem { type := .scalar .bool }), od n (sem (boolSwitch)))

theorem booleans_switch : ∀ p ∈ booleans, GainsDefault p.1 p.2 (some (.scalar (.bool false))) := by
  intro p hp
  obtain ⟨n, hn, rfl⟩ := List.mem_map.1 hp
  simp only [List.mem_cons, List.not_mem_nil, or_false] at hn
  rcases hn with rfl | rfl | rfl | rfl
  · exact C148_bool_switch env (od "booleans.number_true" unt) _ none
  · exact C148_bool_switch env (od "booleans.onoff_false" unt) _ none
  · exact C148_bool_switch env (od "booleans.present_equal_true" unt) _ none
  · exact C148_bool_switch env (od "booleans.present_no_equal_true" unt) _ none

def booleansFile : List Source :=
  [.file (L "[booleans]\nnumber_true = 1\nonoff_false = off\npresent_equal_true = \n") true]

/-- What the file has is the same with either; what it does not have shows: `as<bool>()` is `false` with the one and throws with the other. -/
example : (loadAll env (booleans.map (·.2)) {} booleansFile).2 = none ∧
    (booleans.map fun p => ((loadAll env (booleans.map (·.2)) {} booleansFile).1.map.get? p.2.own).map (·.v)) =
      [some (some (.scalar (.bool true))), some (some (.scalar (.bool false))), some (some (.scalar (.bool true))),
        some (some (.scalar (.bool false)))] ∧
    (booleans.map fun p => ((loadAll env (booleans.map (·.1)) {} booleansFile).1.map.get? p.2.own).map (·.v)) =
      [some (some (.scalar (.bool true))), some (some (.scalar (.bool false))), some (some (.scalar (.bool true))), none] := by
  decide

/-- And this is what the theorem says of them. -/
example : ∀ p ∈ booleans, (loadAll env (booleans.map (·.1)) {} booleansFile).1.map.get? p.1.own = none →
    ∃ w, (loadAll env (booleans.map (·.2)) {} booleansFile).1.map.get? p.1.own = some w ∧ w.v = some (.scalar (.bool false)) ∧ w.defaulted = true :=
  fun p hp => (C148_switch env (fun _ => some (some (.scalar (.bool false)))) booleans
    (fun q hq => .inr ⟨_, rfl, booleans_switch q hq⟩) booleansFile).2.2 (by simp [booleansFile]) (by decide) p hp
    (by revert p; decide) _ rfl

end FileSources

end PO
