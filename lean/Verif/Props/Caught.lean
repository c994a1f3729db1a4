import Verif.Spec.Caught
import Verif.Props.Parse
import Verif.Props.Config
import Verif.Props.Typed
import Verif.Props.ConfigGrammar
import Verif.Props.Several
import Verif.Props.Hierarchy
/-
C109: catching program_options::error is enough.
-/
namespace PO
open Spec

theorem library_kind : Cmdline.Kind LibraryException := by
  refine ⟨?_, ?_, ?_⟩
  · intro f n t s hf
    cases f <;> exact hf
  · intro alts; trivial
  · intro k n t s; trivial

theorem library_ctx {f : Fail} (h : LibraryException f) (n t : Str) (s : Nat) : LibraryException (f.addContext n t s) := library_kind.ctx f n t s h

theorem commandLine_library (c : Cmdline) (hs : c.styleParser = none) (hne : ∀ d ∈ c.desc, ¬ CanonicalName d [])
    (hcan : ∀ d ∈ c.desc, ∀ k, CanonicalName d k → (∃ d', Denotes c k d') ∨ Unknown c k) (args : List Str) (f : Fail) (h : c.run args = .error f) : LibraryException f := by
  rcases run_kind library_kind trivial trivial c hs hne hcan args f h with h1 | rfl
  · exact h1
  · exact absurd h (C10_terminates c (by intro p hp; rw [hs] at hp; cases hp) (by intro p hp; rw [hs] at hp; cases hp) args).2

theorem badLines_library {desc : List OptionDesc} {au : Bool} {pre : Str} {ls : List Str} {f : Fail} (h : BadLines desc au pre ls f) :
    LibraryException f ∨ ∃ u, f = .ub u := by
  induction h with
  | blank _ _ ih => exact ih
  | header _ _ _ _ ih => exact ih
  | item _ _ _ _ _ _ _ ih => exact ih
  | emptyHeader => exact .inr ⟨_, rfl⟩
  | unknown => exact .inl trivial
  | neither => exact .inl trivial

theorem configFile_library (text : Str) (desc : List OptionDesc) (au : Bool) (hl : EveryLine text fun l => ¬ Says l (str% "[]")) (f : Fail)
    (h : parseConfigFile text desc au = .error f) : LibraryException f := by
  have : LibraryException f ∨ ∃ u, f = .ub u := by
    cases (C64_refused text desc au f).1 h with
    | short => exact .inl trivial
    | overlap => exact .inl trivial
    | line _ _ _ _ _ _ _ h => exact badLines_library h
  rcases this with h1 | ⟨u, rfl⟩
  · exact h1
  · exact absurd h (C27_no_ub_partial text desc au hl u).1

theorem environment_ok (mapper : Str → Str) (environ : List Str) (he : ∀ e ∈ environ, '=' ∈ e) : ∃ os, parseEnvironmentLoop mapper environ = .ok os := by
  induction environ with
  | nil => exact ⟨_, rfl⟩
  | cons e es ih =>
    obtain ⟨os, h⟩ := ih fun x hx => he x (by simp [hx])
    have hs : ∃ q, splitEnv e = .ok q := by
      unfold splitEnv
      cases hf : findChar e '=' with
      | none => exact absurd (he e (by simp)) (findChar_eq_none.1 hf)
      | some n => exact ⟨_, rfl⟩
    obtain ⟨q, hq⟩ := hs
    rw [parseEnvironmentLoop, hq]
    simp only [h]
    split
    · exact ⟨_, rfl⟩
    · exact ⟨_, rfl⟩

theorem parse_library {srcs : List Origin} (ht : Tidy srcs) {s : Origin} (hs : s ∈ srcs) {f : Fail} (h : s.parse = .error f) : LibraryException f := by
  cases s with
  | commandLine c args =>
    obtain ⟨h1, h2, h3⟩ := ht.commandLine c args hs
    simp only [Origin.parse, Cmdline.parse] at h
    cases hr : c.run args with
    | error g => rw [hr] at h; cases h; exact commandLine_library c h1 h2 h3 args _ hr
    | ok os => rw [hr] at h; cases h
  | configFile desc text au => exact configFile_library text desc au (ht.configFile _ _ _ hs) f h
  | environment desc environ mapper =>
    obtain ⟨os, ho⟩ := environment_ok mapper environ (ht.environment _ _ _ hs)
    simp only [Origin.parse, parseEnvironment, ho] at h
    cases h

theorem parse_source_desc {s : Origin} {p : Parsed} (h : s.parse = .ok p) : p.desc = s.desc := by
  cases s with
  | commandLine c args => exact Hierarchy.parse_desc h
  | configFile desc text au => exact Hierarchy.file_desc h
  | environment desc environ mapper => exact Hierarchy.env_desc h

/-! ### Values -/

theorem narrow_declared {s : ValueSemantic} {T : VType} (h : Narrow s T) : Keeps s T := by
  cases h with
  | typed env t h hw => exact typed_keeps env t h (by rw [hw]; simp)
  | untyped env zero => exact untyped_keeps env zero

theorem validateScalar_library (env : Env) (t : SType) (xs : List Str) (f : Fail) (h : validateScalar env t xs = .error f) : LibraryException f := by
  have hg : ∀ b, getSingle [] xs b = .error f → LibraryException f := by
    intro b hb
    match xs, hb with
    | _ :: _ :: _, hb => cases hb; trivial
    | [x], hb => cases hb
    | [], hb =>
      cases b with
      | true => cases hb
      | false => cases hb; trivial
  cases t with
  | bool =>
    simp only [validateScalar] at h
    split at h
    · rename_i he; cases h; exact hg _ he
    · split at h
      · cases h
      · cases h; trivial
  | str =>
    simp only [validateScalar] at h
    split at h
    · rename_i he; cases h; exact hg _ he
    · cases h
  | wstr =>
    simp only [validateScalar] at h
    split at h
    · rename_i he; cases h; exact hg _ he
    · cases h; trivial
  | lex ty =>
    simp only [validateScalar] at h
    split at h
    · rename_i he; cases h; exact hg _ he
    · split at h
      · cases h
      · cases h; trivial

theorem vecLoop_library (env : Env) (t : SType) (xs : List Str) (acc : List SVal) (f : Fail) (h : (validateVecLoop (validateScalar env t) t acc xs).2 = some f) :
    LibraryException f := by
  induction xs generalizing acc with
  | nil => rw [validateVecLoop] at h; cases h
  | cons x xs ih =>
    rw [validateVecLoop] at h
    cases hv : validateScalar env t [x] with
    | error g => rw [hv] at h; cases h; exact validateScalar_library env t _ _ hv
    | ok v =>
      rw [hv] at h
      simp only [if_pos (validateScalar_type env t [x] v hv)] at h
      exact ih _ h

theorem validate_library (env : Env) (T : VType) (v : Any) (xs : List Str) (hv : ∀ x, v = some x → x.type = T) (f : Fail)
    (h : (validate (validateScalar env) T v xs).2 = some f) : LibraryException f := by
  cases T with
  | scalar st =>
    unfold validate at h
    cases v with
    | some w => cases h; trivial
    | none =>
      simp only at h
      cases hs : validateScalar env st xs with
      | error g => rw [hs] at h; cases h; exact validateScalar_library env st _ _ hs
      | ok r => rw [hs] at h; cases h
  | vector st =>
    unfold validate at h
    cases v with
    | none => exact vecLoop_library env st xs _ f h
    | some w =>
      have := hv w rfl
      cases w with
      | scalar => cases this
      | optional => cases this
      | vector st' vs =>
        have e : st' = st := by injection this
        simp only [if_pos e] at h
        exact vecLoop_library env st xs _ f h
  | optional st =>
    unfold validate at h
    cases v with
    | some w => cases h; trivial
    | none =>
      match xs, h with
      | [], h => cases h; trivial
      | _ :: _ :: _, h => cases h; trivial
      | [x], h =>
        simp only at h
        cases hs : validateScalar env st [x] with
        | error g => rw [hs] at h; cases h; exact validateScalar_library env st _ _ hs
        | ok r =>
          rw [hs] at h
          simp only [if_pos (validateScalar_type env st [x] r hs)] at h
          cases h

theorem narrow_library {s : ValueSemantic} {T : VType} (hn : Narrow s T) (v : Any) (xs : List Str) (hv : ∀ x, v = some x → x.type = T) (f : Fail)
    (h : (s.parse v xs false).2 = some f) : LibraryException f := by
  cases hn with
  | typed env t ht hw =>
    simp only [TypedValue.toSemantic, TypedValue.parse, hw, TypedValue.xparse] at h
    rw [if_neg (by simp), if_neg (by simp)] at h
    split at h
    · cases h
    · exact validate_library env t.type v _ hv f h
  | untyped env zero =>
    cases v with
    | some w => cases h; trivial
    | none =>
      match xs, h with
      | [], h => cases h
      | [x], h => cases h
      | _ :: _ :: _, h => cases h; trivial

theorem parseAll_keeps {s : ValueSemantic} {T : VType} (hk : Keeps s T) {v a : Any} {L : List (List Str)} (hv : ∀ x, v = some x → x.type = T)
    (h : parseAll s false v L = .ok a) : (∀ x, a = some x → x.type = T) ∧ (L ≠ [] → a ≠ none) ∧ (a = none → v = none) := by
  induction L generalizing v with
  | nil => rw [parseAll] at h; cases h; exact ⟨hv, fun h => absurd rfl h, id⟩
  | cons toks L ih =>
    rw [parseAll] at h
    obtain ⟨k1, k2, k3⟩ := hk.parse v toks false hv
    cases hp : s.parse v toks false with
    | mk b e =>
      rw [hp] at h k1 k2 k3
      cases e with
      | some e => cases h
      | none =>
        obtain ⟨i1, i2, i3⟩ := ih k1 h
        exact ⟨i1, fun _ ha => k2 rfl (i3 ha), fun ha => k3 (i3 ha)⟩

/-! ### The map -/

/-- What the map knows of a name: an explicit value of the type of the name, or a default of the type of its option. -/
theorem settled_typed {name : Str} {P : List (Parsed × Bool)} (hu : ∀ q ∈ P, q.2 = false) {T : VType}
    (hP : ∀ q ∈ P, Mentions q.1.options name → ∀ d, candidates q.1.desc name = [d] → Keeps d.semantic T) {r r' : Option (ValueSemantic × Any)}
    (hr : ∀ s a, r = some (s, a) → Keeps s T ∧ ∃ x, a = some x ∧ x.type = T) (h : Settled name P r r') :
    ∀ s a, r' = some (s, a) → Keeps s T ∧ ∃ x, a = some x ∧ x.type = T := by
  have step : ∀ {q : Parsed × Bool} {d : OptionDesc} {r : Option (ValueSemantic × Any)} {a : Any}, q.2 = false → Keeps d.semantic T → Mentions q.1.options name →
      (∀ s a, r = some (s, a) → Keeps s T ∧ ∃ x, a = some x ∧ x.type = T) →
      parseAll d.semantic q.2 (r.bind (·.2)) ((occurrences q.1.options name).map (·.value)) = .ok a → Keeps d.semantic T ∧ ∃ x, a = some x ∧ x.type = T := by
    intro q d r a h2 hk hm hr ha
    rw [h2] at ha
    obtain ⟨k1, k2, -⟩ := parseAll_keeps hk (by
      intro x hx
      cases r with
      | none => cases hx
      | some r =>
        obtain ⟨-, y, hy, hy'⟩ := hr r.1 r.2 rfl
        rw [Option.bind_some, hy] at hx
        cases hx
        exact hy') ha
    cases a with
    | none => exact absurd rfl (k2 (Hierarchy.occ_ne hm))
    | some x => exact ⟨hk, x, rfl, k1 x rfl⟩
  induction h with
  | done r => exact hr
  | silent hm h ih => exact ih (fun q hq => hu q (by simp [hq])) (fun q hq => hP q (by simp [hq])) hr
  | adds hm hd ha hc h ih =>
    refine ih (fun q hq => hu q (by simp [hq])) (fun q hq => hP q (by simp [hq])) ?_
    intro s a he
    cases he
    exact step (hu _ (by simp)) (hP _ (by simp) hm _ hd) hm hr ha
  | settles hm hd ha hc =>
    intro s a he
    cases he
    exact step (hu _ (by simp)) (hP _ (by simp) hm _ hd) hm hr ha

theorem store_library_of {P : List (Parsed × Bool)} (hu : ∀ q ∈ P, q.2 = false) {m : VarMap} (hst : Stores {} P m) {p : Parsed}
    (hT : ∀ name, ∃ T, ∀ q ∈ (p, false) :: P, Mentions q.1.options name → ∀ d, candidates q.1.desc name = [d] → Narrow d.semantic T) {m' : VarMap} {f : Fail}
    (h : store p m = (m', some f)) : LibraryException f := by
  have h2 : (store p m false).2 = some f := by rw [h]
  obtain ⟨before, o, after, e, hf, rfl⟩ := (C65_fails p m false f).1 h2
  apply library_ctx
  cases hf.fault with
  | unknown => trivial
  | ambiguous => trivial
  | value d a hy he =>
    obtain ⟨T, hT⟩ := hT o.stringKey
    have hn := hT (p, false) (by simp) ⟨o, by rw [hf.split]; simp, rfl, hf.named, hf.registered⟩ d hy.1
    refine narrow_library hn a o.value ?_ e he
    obtain ⟨r, h1, h2⟩ := C104_value P m hst o.stringKey
    have hr := settled_typed hu (fun q hq hm d hd => narrow_declared (hT q (by simp [hq]) hm d hd)) (r := none) (by simp) h1
    refine (parseAll_keeps (narrow_declared hn) ?_ hy.2).1
    intro x hx
    unfold given at hx
    rw [h2] at hx
    cases r with
    | some r =>
      obtain ⟨-, y, hy, hy'⟩ := hr r.1 r.2 rfl
      simp only [record] at hx
      rw [if_neg (by simp), hy] at hx
      cases hx
      exact hy'
    | none =>
      cases hdf : defaultFrom P o.stringKey with
      | none => rw [hdf] at hx; cases hx
      | some q => rw [hdf] at hx; simp [record] at hx

theorem store_library {P : List (Parsed × Bool)} (hu : ∀ q ∈ P, q.2 = false) {m : VarMap} (hst : Stores {} P m) {p : Parsed}
    (hT : ∀ name, ∃ T, ∀ q ∈ (p, false) :: P, ∀ d, candidates q.1.desc name = [d] → Narrow d.semantic T) {m' : VarMap} {f : Fail} (h : store p m = (m', some f)) :
    LibraryException f := store_library_of hu hst (fun name => (hT name).imp fun _ h q hq _ => h q hq) h

theorem delivers_of {P : List (Parsed × Bool)} (hu : ∀ q ∈ P, q.2 = false) {m : VarMap} (hst : Stores {} P m)
    (hd : ∀ q ∈ P, ∀ d ∈ q.1.desc, ∃ T, Keeps d.semantic T)
    (hT : ∀ name, ∃ T, ∀ q ∈ P, Mentions q.1.options name → ∀ d, candidates q.1.desc name = [d] → Keeps d.semantic T) {e : Str × VarValue} (he : e ∈ m.map)
    {s : ValueSemantic} (hs : e.2.semantic = some s) {f : Fail} (hf : (s.notify e.2.v).2 = some f) : False := by
  have hord : SMap.Sorted m.map := by
    have : ∀ (m m' : VarMap) (P : List (Parsed × Bool)), Stores m P m' → m.Ordered → m'.Ordered := by
      intro m m' P hst
      induction hst with
      | nil => exact id
      | @cons m m1 m2 p u rest h _ ih =>
        intro ho
        have := ordered_store ho p u
        rw [h] at this
        exact ih this
    exact (this _ _ _ hst ordered_empty).map
  have hget := (SMap.get?_eq_some hord e.1 e.2).2 he
  obtain ⟨r, h1, h2⟩ := C104_value P m hst e.1
  obtain ⟨T, hT⟩ := hT e.1
  have hr := settled_typed hu hT (r := none) (by simp) h1
  rw [hget] at h2
  cases r with
  | some r =>
    obtain ⟨hk, y, hy, hy'⟩ := hr r.1 r.2 rfl
    simp only [record, Option.some.injEq] at h2
    rw [h2] at hs hf
    cases hs
    simp only [hy] at hf
    rw [hk.notify y hy'] at hf
    cases hf
  | none =>
    cases hdf : defaultFrom P e.1 with
    | none => rw [hdf] at h2; cases h2
    | some q =>
      rw [hdf] at h2
      simp only [record, Option.some.injEq] at h2
      rw [h2] at hs hf
      cases hs
      unfold defaultFrom at hdf
      obtain ⟨p, hp, hq⟩ := List.exists_of_findSome?_eq_some hdf
      obtain ⟨d, hdm, -, e1, e2⟩ := firstDefault_mem hq
      obtain ⟨T', hk⟩ := hd p hp d hdm
      obtain ⟨x, hx, hx'⟩ := hk.dflt _ e2
      simp only [e1, hx] at hf
      rw [hk.notify x hx'] at hf
      cases hf

theorem delivers_keeps {P : List (Parsed × Bool)} (hu : ∀ q ∈ P, q.2 = false) {m : VarMap} (hst : Stores {} P m)
    (hd : ∀ q ∈ P, ∀ d ∈ q.1.desc, ∃ T, Keeps d.semantic T)
    (hT : ∀ name, ∃ T, ∀ q ∈ P, ∀ d, candidates q.1.desc name = [d] → Keeps d.semantic T) {e : Str × VarValue} (he : e ∈ m.map)
    {s : ValueSemantic} (hs : e.2.semantic = some s) {f : Fail} (hf : (s.notify e.2.v).2 = some f) : False :=
  delivers_of hu hst hd (fun name => (hT name).imp fun _ h q hq _ => h q hq) he hs hf

theorem delivers_ok {P : List (Parsed × Bool)} (hu : ∀ q ∈ P, q.2 = false) {m : VarMap} (hst : Stores {} P m)
    (hd : ∀ q ∈ P, ∀ d ∈ q.1.desc, ∃ T, Narrow d.semantic T)
    (hT : ∀ name, ∃ T, ∀ q ∈ P, ∀ d, candidates q.1.desc name = [d] → Narrow d.semantic T) {e : Str × VarValue} (he : e ∈ m.map)
    {s : ValueSemantic} (hs : e.2.semantic = some s) {f : Fail} (hf : (s.notify e.2.v).2 = some f) : False :=
  delivers_keeps hu hst (fun q hq d h => (hd q hq d h).imp fun _ => narrow_declared) (fun name => (hT name).imp fun _ h q hq d hd => narrow_declared (h q hq d hd)) he hs hf

theorem notify_library {P : List (Parsed × Bool)} (hu : ∀ q ∈ P, q.2 = false) {m : VarMap} (hst : Stores {} P m)
    (hd : ∀ q ∈ P, ∀ d ∈ q.1.desc, ∃ T, Narrow d.semantic T)
    (hT : ∀ name, ∃ T, ∀ q ∈ P, ∀ d, candidates q.1.desc name = [d] → Narrow d.semantic T) {f : Fail} (h : m.notify.2 = some f) : LibraryException f := by
  unfold VarMap.notify at h
  cases hm : VarMap.missingRequired m.map m.required with
  | some d => rw [hm] at h; cases h; trivial
  | none =>
    rw [hm] at h
    simp only at h
    obtain ⟨e, he, s, hs, hf⟩ := notifyLoop_fail _ _ h
    exact (delivers_ok hu hst hd hT he hs hf).elim

/-- **C109.** Whatever the command lines, configuration files and environment contain, everything that parsing, storing and notifying throws is a
`program_options::error`. -/
theorem C109_caught (srcs : List Origin) (ht : Tidy srcs) (f : Fail) (h : program srcs {} = some f) : LibraryException f := by
  suffices main : ∀ (rest : List Origin) (P : List (Parsed × Bool)) (m : VarMap), (∀ s ∈ rest, s ∈ srcs) → (∀ q ∈ P, q.2 = false ∧ ∃ s ∈ srcs, q.1.desc = s.desc) →
      Stores {} P m → program rest m = some f → LibraryException f from main srcs [] {} (fun _ h => h) (by simp) (.nil _) h
  clear h
  intro rest
  induction rest with
  | nil =>
    intro P m _ hP hst h
    refine notify_library (fun q hq => (hP q hq).1) hst ?_ ?_ h
    · intro q hq d hd
      obtain ⟨-, s, hs, he⟩ := hP q hq
      rw [he] at hd
      exact ht.declared s hs d hd
    · intro name
      obtain ⟨T, hT⟩ := ht.sameType name
      refine ⟨T, fun q hq d hd => ?_⟩
      obtain ⟨-, s, hs, he⟩ := hP q hq
      rw [he] at hd
      exact hT s hs d hd
  | cons s rest ih =>
    intro P m hr hP hst h
    rw [program] at h
    cases hp : s.parse with
    | error g => rw [hp] at h; cases h; exact parse_library ht (hr s (by simp)) hp
    | ok p =>
      rw [hp] at h
      simp only at h
      have hnew : ∀ q ∈ P ++ [(p, false)], q.2 = false ∧ ∃ s ∈ srcs, q.1.desc = s.desc := by
        intro q hq
        rcases List.mem_append.1 hq with hq | hq
        · exact hP q hq
        · rw [List.mem_singleton.1 hq]
          exact ⟨rfl, s, hr s (by simp), parse_source_desc hp⟩
      cases hs : store p m with
      | mk m1 e =>
        rw [hs] at h
        cases e with
        | none => exact ih _ m1 (fun s hs => hr s (by simp [hs])) hnew (Hierarchy.stores_append hst (.cons hs (.nil _))) h
        | some g =>
          cases h
          refine store_library (fun q hq => (hP q hq).1) hst ?_ hs
          intro name
          obtain ⟨T, hT⟩ := ht.sameType name
          refine ⟨T, fun q hq d hd => ?_⟩
          have hq' : q ∈ P ++ [(p, false)] := by simpa [or_comm] using hq
          obtain ⟨-, s, hs, he⟩ := hnew q hq'
          rw [he] at hd
          exact hT s hs d hd

/-- With `wvalue` this is not so: a value that is no text in the local character set gives a `std::logic_error`, and `wvalue<std::vector<std::string>>`
gives `boost::bad_any_cast`. -/
theorem C109_wide :
    program [.environment [Test.od "x" (TypedValue.toSemantic { Test.env with fromLocal := fun _ => none } { type := .scalar .wstr, wide := true })] [Test.L "x=1"] id] {} =
      some .conversion ∧
    program [.environment [Test.od "x" (TypedValue.toSemantic Test.env { type := .vector .str, wide := true })] [Test.L "x=1"] id] {} = some .badAnyCast ∧
    ¬ LibraryException .conversion ∧ ¬ LibraryException .badAnyCast := ⟨rfl, rfl, id, id⟩

def caughtDesc : List OptionDesc := [Test.od "verbose,v" Test.unt, Test.od "out,o" (Test.sem { Test.vstr with required := true })]

def caughtSources (args : List Str) (text : Str) (environ : List Str) : List Origin :=
  [.commandLine { desc := caughtDesc } args, .configFile caughtDesc text false, .environment caughtDesc environ (prefixMapper (Test.L "APP_"))]

/-- All conditions hold for this program with any arguments, and the rest are about what it reads. -/
theorem caught_tidy (args : List Str) (text : Str) (environ : List Str) (hl : EveryLine text fun l => ¬ Says l (str% "[]")) (he : ∀ e ∈ environ, '=' ∈ e) :
    Tidy (caughtSources args text environ) := by
  have hn : ∀ d ∈ caughtDesc, Narrow d.semantic (.scalar .str) := by
    intro d hd
    simp only [caughtDesc, List.mem_cons, List.not_mem_nil, or_false] at hd
    rcases hd with rfl | rfl
    · rw [od_semantic]; exact .untyped _ _
    · rw [od_semantic]; exact .typed _ { Test.vstr with required := true } ⟨nofun, nofun⟩ rfl
  have hs : ∀ s ∈ caughtSources args text environ, s.desc = caughtDesc := by
    intro s hs
    simp only [caughtSources, List.mem_cons, List.not_mem_nil, or_false] at hs
    rcases hs with rfl | rfl | rfl <;> rfl
  constructor
  · intro s h d hd
    rw [hs s h] at hd
    exact ⟨_, hn d hd⟩
  · refine fun name => ⟨.scalar .str, fun s h d hd => hn d ?_⟩
    rw [hs s h] at hd
    have : d ∈ candidates caughtDesc name := by rw [hd]; simp
    unfold candidates at this
    split at this <;> exact (List.mem_filter.1 this).1
  · intro c args' h
    simp only [caughtSources, List.mem_cons, List.not_mem_nil, or_false, Origin.commandLine.injEq, reduceCtorEq] at h
    obtain ⟨rfl, rfl⟩ := h
    have key : ∀ d ∈ caughtDesc, ∀ k, CanonicalName d k → k ≠ [] ∧ ({ desc := caughtDesc } : Cmdline).lookup k = .ok (some d) := by
      intro d hd k hk
      simp only [caughtDesc, List.mem_cons, List.not_mem_nil, or_false] at hd
      rcases hd with rfl | rfl
      · rcases hk with ⟨h, _⟩ | ⟨h, _⟩
        · cases h; exact ⟨by simp, rfl⟩
        · cases h
      · rcases hk with ⟨h, _⟩ | ⟨h, _⟩
        · cases h; exact ⟨by simp, rfl⟩
        · cases h
    exact ⟨rfl, fun d hd h => (key d hd [] h).1 rfl, fun d hd k hk => .inl ⟨d, Cmdline.lookup_denotes.1 (key d hd k hk).2⟩⟩
  · intro desc text' au h
    simp only [caughtSources, List.mem_cons, List.not_mem_nil, or_false, Origin.configFile.injEq, reduceCtorEq, false_or] at h
    obtain ⟨-, rfl, -⟩ := h
    exact hl
  · intro desc environ' mapper h
    simp only [caughtSources, List.mem_cons, List.not_mem_nil, or_false, Origin.environment.injEq, reduceCtorEq, false_or] at h
    obtain ⟨-, rfl, -⟩ := h
    exact he

/-- It succeeds, or throws what it can catch. -/
example : program (caughtSources [Test.L "-v"] (Test.L "out=x\n") [Test.L "APP_OUT=y"]) {} = none ∧
    (∃ f, program (caughtSources [Test.L "-x"] [] []) {} = some f ∧ LibraryException f) ∧
    (∃ f, program (caughtSources [] (Test.L "out=x\nout=y\n") []) {} = some f ∧ LibraryException f) ∧
    (∃ f, program (caughtSources [] [] [Test.L "APP_LOG=y"]) {} = some f ∧ LibraryException f) ∧
    ∃ f, program (caughtSources [] [] []) {} = some f ∧ LibraryException f :=
  ⟨rfl, ⟨_, rfl, trivial⟩, ⟨_, rfl, trivial⟩, ⟨_, rfl, trivial⟩, ⟨_, rfl, trivial⟩⟩

end PO
