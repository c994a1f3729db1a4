import Verif.Spec.EnvOptions
import Verif.Props.MultipleSources
import Verif.Props.MessageLoops
import Verif.Props.Environment
import Verif.Props.Hierarchy
/-
C112: what example/env_options.cpp prints.
-/
namespace PO
open Spec
open Hierarchy (occ_nil occ_ne)

namespace EnvOptions

def dPath (env : Env) : OptionDesc := { shortName := [], longNames := [str% "path"], description := [], semantic := untypedValue env true }
def tVerbosity : TypedValue := Hierarchy.stringOr (str% "INFO")
def dVerbosity (env : Env) : OptionDesc := { shortName := [], longNames := [str% "verbosity"], description := [], semantic := tVerbosity.toSemantic env }

theorem config_eq (env : Env) : config env = [dPath env, dVerbosity env] := rfl

theorem cand (env : Env) : candidates (config env) (str% "path") = [dPath env] ∧ candidates (config env) (str% "verbosity") = [dVerbosity env] := by
  rw [config_eq]
  simp [candidates, exacts, Exact, fold, dPath, dVerbosity]

/-- The parsed environment. -/
def parsed (env : Env) (vars : List (Str × Str)) : Parsed :=
  { desc := config env, options := (vars.filter fun v => mapper v.1 ≠ []).map fun v => { stringKey := mapper v.1, value := [v.2] } }

theorem parse_eq (env : Env) (vars : List (Str × Str)) (hv : ∀ v ∈ vars, '=' ∉ v.1) :
    parseEnvironment (vars.map envEntry) (config env) mapper = .ok (parsed env vars) := C32_environment_mapper vars hv _ _

theorem mapper_iff (var : Str) : (mapper var = str% "path" ↔ var.map Char.toUpper = str% "PATH") ∧
    (mapper var = str% "verbosity" ↔ var.map Char.toUpper = str% "EXAMPLE_VERBOSE") ∧
    (mapper var = [] ∨ mapper var = str% "path" ∨ mapper var = str% "verbosity") := by
  unfold mapper
  dsimp only
  by_cases h1 : var.map Char.toUpper = str% "PATH"
  · rw [if_pos h1, h1]
    refine ⟨by simp, ?_, by simp⟩
    exact ⟨fun h => absurd h (by decide), fun h => absurd h (by decide)⟩
  · rw [if_neg h1]
    by_cases h2 : var.map Char.toUpper = str% "EXAMPLE_VERBOSE"
    · rw [if_pos h2, h2]
      refine ⟨?_, by simp, by simp⟩
      exact ⟨fun h => absurd h (by decide), fun h => absurd h (by decide)⟩
    · rw [if_neg h2]
      exact ⟨⟨nofun, fun h => absurd h h1⟩, ⟨nofun, fun h => absurd h h2⟩, .inl rfl⟩

theorem occ (env : Env) (vars : List (Str × Str)) (name up : Str) (hn : name ≠ []) (h : ∀ var, mapper var = name ↔ var.map Char.toUpper = up) :
    (occurrences (parsed env vars).options name).map (·.value) = (inCapitals vars up).map ([·]) := by
  unfold parsed occurrences inCapitals
  dsimp only
  induction vars with
  | nil => rfl
  | cons v vs ih =>
    by_cases hs : v.1.map Char.toUpper = up
    · have hm := (h v.1).2 hs
      rw [List.filter_cons_of_pos (by simpa [hm] using hn), List.map_cons, List.filter_cons_of_pos (by simp [hm, hn]), List.map_cons,
        List.filter_cons_of_pos (by simpa using hs), List.map_cons, List.map_cons, ih]
    · have hm : mapper v.1 ≠ name := fun he => hs ((h v.1).1 he)
      rw [List.filter_cons_of_neg (p := fun v : Str × Str => v.1.map Char.toUpper = up) (by simpa using hs), ← ih]
      by_cases h0 : mapper v.1 = []
      · rw [List.filter_cons_of_neg (by simpa using h0)]
      · rw [List.filter_cons_of_pos (by simpa using h0), List.map_cons, List.filter_cons_of_neg (by simp [hm])]

theorem occ_path (env : Env) (vars : List (Str × Str)) : (occurrences (parsed env vars).options (str% "path")).map (·.value) = (inCapitals vars (str% "PATH")).map ([·]) :=
  occ env vars _ _ (by decide) fun var => (mapper_iff var).1

theorem occ_verbosity (env : Env) (vars : List (Str × Str)) :
    (occurrences (parsed env vars).options (str% "verbosity")).map (·.value) = (inCapitals vars (str% "EXAMPLE_VERBOSE")).map ([·]) :=
  occ env vars _ _ (by decide) fun var => (mapper_iff var).2.1

theorem key (env : Env) (vars : List (Str × Str)) {o : Opt} (ho : o ∈ (parsed env vars).options) : o.stringKey = str% "path" ∨ o.stringKey = str% "verbosity" := by
  obtain ⟨v, hv, rfl⟩ := List.mem_map.1 ho
  exact (mapper_iff v.1).2.2.resolve_left (by simpa using (List.mem_filter.1 hv).2)

/-- Both options take one value, once. -/
structure Once (s : ValueSemantic) : Prop where
  first : ∀ t, s.parse none [t] false = (some (.scalar (.str t)), none)
  again : ∀ a t, s.parse (some a) [t] false = (some a, some errMultipleOccurrences)

theorem once (env : Env) : Once (dPath env).semantic ∧ Once (dVerbosity env).semantic :=
  ⟨⟨fun _ => rfl, fun _ _ => rfl⟩, ⟨fun _ => rfl, fun _ _ => rfl⟩⟩

theorem once_all {s : ValueSemantic} (h : Once s) (l : List Str) (a : Any) : parseAll s false none (l.map ([·])) = .ok a ↔
    l = [] ∧ a = none ∨ ∃ t, l = [t] ∧ a = some (.scalar (.str t)) := by
  match l with
  | [] => simp [parseAll, eq_comm]
  | [t] => simp [parseAll, h.first, eq_comm]
  | t :: t' :: rest => simp [parseAll, h.first, h.again]

theorem value {env : Env} {vars : List (Str × Str)} {m : VarMap} (h : store (parsed env vars) {} = (m, none)) {name up : Str} {d : OptionDesc}
    (hc : candidates (config env) name = [d]) (ho : Once d.semantic) (hocc : (occurrences (parsed env vars).options name).map (·.value) = (inCapitals vars up).map ([·])) :
    inCapitals vars up = [] ∧ m.map.get? name = record none (firstDefault (config env) name) ∨
    ∃ t v, inCapitals vars up = [t] ∧ m.map.get? name = some v ∧ v.v = some (.scalar (.str t)) := by
  obtain ⟨r, hr, hg⟩ := C104_value [(parsed env vars, false)] m (.cons h (.nil _)) name
  have hd : defaultFrom [(parsed env vars, false)] name = firstDefault (config env) name := by
    rw [defaultFrom_cons]
    cases h' : firstDefault (config env) name <;> simp [parsed, h', defaultFrom]
  rw [hd] at hg
  rcases MultipleSources.settled_one hr with ⟨hm, rfl⟩ | ⟨d', a, hm, hd', ha, rfl⟩
  · left
    refine ⟨?_, hg⟩
    rw [occ_nil hm] at hocc
    simpa using hocc.symm
  · right
    cases hc.symm.trans hd'
    have ha : parseAll d.semantic false none ((occurrences (parsed env vars).options name).map (·.value)) = .ok a := ha
    rw [hocc] at ha
    rcases (once_all ho _ _).1 ha with ⟨h1, -⟩ | ⟨t, h1, rfl⟩
    · exact absurd (hocc.trans (by rw [h1]; rfl)) (occ_ne hm)
    · exact ⟨t, _, h1, hg, rfl⟩

theorem notify_ok {env : Env} {vars : List (Str × Str)} {m : VarMap} (h : store (parsed env vars) {} = (m, none)) : m.notify.2 = none := by
  have hS : Stores {} [(parsed env vars, false)] m := .cons h (.nil _)
  cases hf : m.notify.2 with
  | none => rfl
  | some f =>
    exfalso
    obtain ⟨e, he, s, hs, hnf⟩ := (C38_required [(parsed env vars, false)] m (.ok h (.nil _))).2 (by
      rintro k n ⟨q, hq, d, hd, -, -, hr, -⟩
      cases List.mem_singleton.1 hq
      have hd : d ∈ [dPath env, dVerbosity env] := hd
      simp only [List.mem_cons, List.not_mem_nil, or_false] at hd
      rcases hd with rfl | rfl <;> cases hr) f hf
    have hord := stores_ordered hS ordered_empty
    obtain ⟨q, hq, d, hd, hsem, -⟩ := stores_option hS (k := e.1) (v := e.2) ((SMap.get?_eq_some hord.map e.1 e.2).2 he)
    cases List.mem_singleton.1 hq
    have hd : d ∈ [dPath env, dVerbosity env] := hd
    rw [hs] at hsem
    cases hsem
    simp only [List.mem_cons, List.not_mem_nil, or_false] at hd
    rcases hd with rfl | rfl
    · cases hnf
    · have : ∀ a : Any, ((dVerbosity env).semantic.notify a).2 = none := fun _ => rfl
      rw [this] at hnf
      cases hnf

theorem text_of {m : VarMap} {name t : Str} {v : VarValue} (h : m.map.get? name = some v) (hv : v.v = some (.scalar (.str t))) : text m name = .ok t := by
  have hg : m.get name = v := by
    unfold VarMap.get
    rw [h]
    rfl
  unfold text
  rw [hg, VarValue.as, hv]
  rfl


/-- A `store` that succeeds. -/
theorem succeeds {env : Env} {vars : List (Str × Str)} (hv : ∀ v ∈ vars, '=' ∉ v.1) {m : VarMap} (h : store (parsed env vars) {} = (m, none)) :
    ∃ p v, PathLines (inCapitals vars (str% "PATH")) p ∧ Verbosity (inCapitals vars (str% "EXAMPLE_VERBOSE")) v ∧
      main env (vars.map envEntry) = .returns (p ++ str% "Verbosity: " ++ v ++ ['\n']) := by
  have hl : Hierarchy.load (parseEnvironment (vars.map envEntry) (config env) mapper) {} = .ok m := by
    rw [parse_eq env vars hv]
    unfold Hierarchy.load
    dsimp only
    rw [h]
    dsimp only
    have hn := notify_ok h
    cases hm : m.notify with
    | mk es f => rw [hm] at hn; cases hn; rfl
  have hver : ∃ v, Verbosity (inCapitals vars (str% "EXAMPLE_VERBOSE")) v ∧ text m (str% "verbosity") = .ok v := by
    rcases value h (cand env).2 (once env).2 (occ_verbosity env vars) with ⟨h1, h2⟩ | ⟨t, v, h1, h2, h3⟩
    · rw [h1]
      exact ⟨_, .none, text_of h2 rfl⟩
    · rw [h1]
      exact ⟨_, .one t, text_of h2 h3⟩
  obtain ⟨v, hver, htv⟩ := hver
  unfold main report
  rw [hl]
  dsimp only
  rw [htv]
  rcases value h (cand env).1 (once env).1 (occ_path env vars) with ⟨h1, h2⟩ | ⟨t, x, h1, h2, h3⟩
  · have h2 : m.map.get? (str% "path") = none := h2
    rw [h1, h2]
    exact ⟨_, v, .none, hver, rfl⟩
  · rw [h1, h2, text_of h2 h3]
    refine ⟨_, v, .one t, hver, ?_⟩
    simp [substr]

/-- A `store` that fails. -/
theorem fails {env : Env} {vars : List (Str × Str)} (hv : ∀ v ∈ vars, '=' ∉ v.1) {m : VarMap} {f : Fail} (h : store (parsed env vars) {} = (m, some f)) :
    ∃ name e, (name = str% "path" ∧ 2 ≤ (inCapitals vars (str% "PATH")).length ∨ name = str% "verbosity" ∧ 2 ≤ (inCapitals vars (str% "EXAMPLE_VERBOSE")).length) ∧
      main env (vars.map envEntry) = .terminated (.opt e) ∧ e.cls = .multipleOccurrences ∧
      ∀ n, 5 ≤ n → e.what n = some (str% "option '" ++ name ++ str% "' cannot be specified more than once") := by
  have hm : main env (vars.map envEntry) = .terminated f := by
    unfold main Hierarchy.load
    rw [parse_eq env vars hv]
    dsimp only
    rw [h]
  obtain ⟨before, o, after, e, hff, rfl⟩ := (C65_fails _ _ _ f).1 (by rw [h])
  have ho : o ∈ (parsed env vars).options := by rw [hff.split]; simp
  have hk := key env vars ho
  have hval : ∃ t, o.value = [t] ∧ o.originalTokens = [] := by
    obtain ⟨v, hv, rfl⟩ := List.mem_map.1 ho
    exact ⟨_, rfl, rfl⟩
  obtain ⟨t, ht, htok⟩ := hval
  have hd : ∃ d, candidates (config env) o.stringKey = [d] ∧ Once d.semantic := by
    rcases hk with hk | hk
    · exact ⟨_, by rw [hk]; exact (cand env).1, (once env).1⟩
    · exact ⟨_, by rw [hk]; exact (cand env).2, (once env).2⟩
  obtain ⟨d, hc, honce⟩ := hd
  have hobj : e = errMultipleOccurrences ∧ Mentions before o.stringKey := by
    have hdesc : (parsed env vars).desc = config env := rfl
    cases hff.fault with
    | unknown hu => rw [hdesc, hc] at hu; cases hu
    | ambiguous hu => rw [hdesc, hc] at hu; simp at hu
    | value d' a hy he =>
      obtain ⟨hy1, hy2⟩ := hy
      cases (hdesc ▸ hc).symm.trans hy1
      rw [ht] at he
      cases a with
      | none => rw [honce.first] at he; cases he
      | some a =>
        rw [honce.again] at he
        refine ⟨(Option.some.inj he).symm, ?_⟩
        apply Classical.byContradiction
        intro hn
        rw [occ_nil hn] at hy2
        cases hy2
  obtain ⟨rfl, hmen⟩ := hobj
  have htwo : 2 ≤ (occurrences (parsed env vars).options o.stringKey).length := by
    rw [hff.split]
    unfold occurrences
    rw [List.filter_append, List.filter_cons_of_pos (by simpa using ⟨hff.named, hff.registered⟩), List.length_append, List.length_cons]
    have : (before.filter fun x => x.stringKey = o.stringKey ∧ o.stringKey ≠ [] ∧ x.unregistered = false) ≠ [] := fun h => occ_ne hmen (by unfold occurrences; rw [h]; rfl)
    have := List.length_pos_iff.2 this
    omega
  have hlen : ∀ name up, (occurrences (parsed env vars).options name).map (·.value) = (inCapitals vars up).map ([·]) →
      (occurrences (parsed env vars).options name).length = (inCapitals vars up).length := by
    intro name up h
    have := congrArg List.length h
    simpa using this
  refine ⟨o.stringKey, (OptErr.mk' .multipleOccurrences).addContext o.stringKey [] 0, ?_, ?_, rfl, ?_⟩
  · rcases hk with hk | hk
    · rw [hk] at htwo
      exact .inl ⟨hk, by rw [← hlen _ _ (occ_path env vars)]; exact htwo⟩
    · rw [hk] at htwo
      exact .inr ⟨hk, by rw [← hlen _ _ (occ_verbosity env vars)]; exact htwo⟩
  · rw [hm, htok]
    rfl
  · intro n hn
    have : ∀ name, name = str% "path" ∨ name = str% "verbosity" →
        ((OptErr.mk' .multipleOccurrences).addContext name [] 0).what 5 = some (str% "option '" ++ name ++ str% "' cannot be specified more than once") := by
      rintro name (rfl | rfl) <;> decide
    have := what_mono _ (by nofun) (n - 5) (this _ hk)
    rw [Nat.add_sub_cancel' hn] at this
    exact this

theorem pathLines_det {l : List Str} {a b : Str} (ha : PathLines l a) (hb : PathLines l b) : a = b := by
  cases ha <;> cases hb <;> rfl

theorem verbosity_det {l : List Str} {a b : Str} (ha : Verbosity l a) (hb : Verbosity l b) : a = b := by
  cases ha <;> cases hb <;> rfl

theorem pathLines_length {l : List Str} {a : Str} (h : PathLines l a) : l.length ≤ 1 := by cases h <;> simp
theorem verbosity_length {l : List Str} {a : Str} (h : Verbosity l a) : l.length ≤ 1 := by cases h <;> simp

end EnvOptions
open EnvOptions

/-- **C112.** The program that reads the environment returns and has printed `out` if and only if `out` is: if there is a variable for the path, its first 75
characters; and the verbosity of its variable, or else `INFO`; and there is at most one variable for each. The letter case of the names of variables does not matter. -/
theorem C112_returns (env : Env) (vars : List (Str × Str)) (hv : ∀ v ∈ vars, '=' ∉ v.1) (out : Str) :
    main env (vars.map envEntry) = .returns out ↔
      ∃ p v, PathLines (inCapitals vars (str% "PATH")) p ∧ Verbosity (inCapitals vars (str% "EXAMPLE_VERBOSE")) v ∧ out = p ++ str% "Verbosity: " ++ v ++ ['\n'] := by
  cases hs : store (parsed env vars) {} with
  | mk m f =>
    cases f with
    | none =>
      obtain ⟨p, v, h1, h2, h3⟩ := succeeds hv hs
      rw [h3]
      constructor
      · intro h; cases h; exact ⟨p, v, h1, h2, rfl⟩
      · rintro ⟨p', v', h1', h2', rfl⟩
        rw [pathLines_det h1 h1', verbosity_det h2 h2']
    | some f =>
      obtain ⟨name, e, h1, h2, -⟩ := fails hv hs
      rw [h2]
      constructor
      · nofun
      · rintro ⟨p', v', h1', h2', rfl⟩
        have := pathLines_length h1'
        have := verbosity_length h2'
        omega

/-- Otherwise an exception ends it, which nobody catches: it says that one of the two options, for which there are several variables, cannot be
specified more than once. -/
theorem C112_otherwise (env : Env) (vars : List (Str × Str)) (hv : ∀ v ∈ vars, '=' ∉ v.1)
    (h : 2 ≤ (inCapitals vars (str% "PATH")).length ∨ 2 ≤ (inCapitals vars (str% "EXAMPLE_VERBOSE")).length) :
    ∃ name e, (name = str% "path" ∧ 2 ≤ (inCapitals vars (str% "PATH")).length ∨ name = str% "verbosity" ∧ 2 ≤ (inCapitals vars (str% "EXAMPLE_VERBOSE")).length) ∧
      main env (vars.map envEntry) = .terminated (.opt e) ∧ e.cls = .multipleOccurrences ∧
      ∀ n, 5 ≤ n → e.what n = some (str% "option '" ++ name ++ str% "' cannot be specified more than once") := by
  cases hs : store (parsed env vars) {} with
  | mk m f =>
    cases f with
    | none =>
      obtain ⟨p, v, h1, h2, h3⟩ := succeeds hv hs
      have := pathLines_length h1
      have := verbosity_length h2
      omega
    | some f => exact fails hv hs

/-- The name of the variable in any letter case, and the default. -/
example : main Test.env [Test.L "Path=/bin", Test.L "HOME=/"] = .returns (Test.L "First 75 chars of the system path: \n/bin\nVerbosity: INFO\n") := by rfl

example : ∃ p v, PathLines (inCapitals [(Test.L "example_verbose", Test.L "WARN"), (Test.L "HOME", Test.L "/")] (str% "PATH")) p ∧
    Verbosity (inCapitals [(Test.L "example_verbose", Test.L "WARN"), (Test.L "HOME", Test.L "/")] (str% "EXAMPLE_VERBOSE")) v ∧ Test.L "Verbosity: WARN\n" = p ++ str% "Verbosity: " ++ v ++ ['\n'] :=
  ⟨_, _, .none, .one (Test.L "WARN"), rfl⟩

/-- `PATH` and `Path` may both be in the environment: the program ends. -/
example : 2 ≤ (inCapitals [(Test.L "PATH", Test.L "/bin"), (Test.L "Path", Test.L "")] (str% "PATH")).length := by decide

/-- **C108, the environment.** What the second source of the hierarchy example says: `path` is what the variables say whose name is `PATH` in any letter case,
`verbosity` what those called `EXAMPLE_VERBOSE` say, and nothing else is mentioned. -/
theorem C108_environment (env : Env) (args : List Str) (vars : List (Str × Str)) (hv : ∀ v ∈ vars, '=' ∉ v.1) (files : Str → Option Str) (srcs : List (List Opt))
    (hs : SourcesSay env args (vars.map envEntry) files srcs) :
    ∃ os, srcs[1]? = some os ∧ (occurrences os (str% "path")).map (·.value) = (inCapitals vars (str% "PATH")).map ([·]) ∧
      (occurrences os (str% "verbosity")).map (·.value) = (inCapitals vars (str% "EXAMPLE_VERBOSE")).map ([·]) ∧
      ∀ o ∈ os, o.stringKey = str% "path" ∨ o.stringKey = str% "verbosity" := by
  obtain ⟨pc, pe, fs, -, h2, -, rfl⟩ := hs
  have e := (C32_environment_mapper vars hv (Hierarchy.commonOptions env) Hierarchy.mapper).symm.trans h2
  injection e with e
  have ho : pe.options = (parsed env vars).options := by rw [← e]; rfl
  refine ⟨_, rfl, ?_, ?_, ?_⟩
  · rw [ho]; exact occ_path env vars
  · rw [ho]; exact occ_verbosity env vars
  · rw [ho]; exact fun o h => key env vars h

example : inCapitals [(Test.L "Example_Verbose", Test.L "WARN"), (Test.L "HOME", Test.L "/")] (str% "EXAMPLE_VERBOSE") = [Test.L "WARN"] := by decide

end PO
