import Verif.Spec.MultipleSources
import Verif.Props.Hierarchy
import Verif.Props.Caught
/-
C111: what example/multiple_sources.cpp prints.
-/
namespace PO
open Spec Hierarchy MultipleSources

namespace MultipleSources

/-! ### The description -/

def dVersion (env : Env) : OptionDesc := { shortName := str% "-v", longNames := [str% "version"], description := [], semantic := untypedValue env true }
def dHelp (env : Env) : OptionDesc := { shortName := [], longNames := [str% "help"], description := [], semantic := untypedValue env true }
def tConfig : TypedValue := { stringOr (str% "multiple_sources.cfg") with storeTo := some fileVar }
def dConfig (env : Env) : OptionDesc := { shortName := str% "-c", longNames := [str% "config"], description := [], semantic := tConfig.toSemantic env }
def tLevel : TypedValue := { numberOr 0 10 (str% "10") with storeTo := some optVar }
def dLevel (env : Env) : OptionDesc := { shortName := [], longNames := [str% "optimization"], description := [], semantic := tLevel.toSemantic env }
def tInclude : TypedValue := { strings with composing := true }
def dInclude (env : Env) : OptionDesc := { shortName := str% "-I", longNames := [str% "include-path"], description := [], semantic := tInclude.toSemantic env }
def dInput (env : Env) : OptionDesc := { shortName := [], longNames := [str% "input-file"], description := [], semantic := strings.toSemantic env }

def all (env : Env) : List OptionDesc := [dVersion env, dHelp env, dConfig env, dLevel env, dInclude env, dInput env]
def inFile (env : Env) : List OptionDesc := [dLevel env, dInclude env, dInput env]

theorem all_eq (env : Env) : generic env ++ config env ++ hidden env = all env := rfl
theorem inFile_eq (env : Env) : config env ++ hidden env = inFile env := rfl

def parser (env : Env) : Cmdline := { desc := all env, positional := some { trailing := str% "input-file" } }

theorem commandLine_eq (env : Env) (args : List Str) : commandLine env args = (parser env).parse args := rfl

theorem commandLine_run {env : Env} {args : List Str} {pc : Parsed} (h : commandLine env args = .ok pc) :
    pc.desc = all env ∧ (parser env).run args = .ok pc.options := by
  rw [commandLine_eq] at h
  unfold Cmdline.parse at h
  cases hr : (parser env).run args with
  | error f => rw [hr] at h; cases h
  | ok os => rw [hr] at h; cases h; exact ⟨rfl, rfl⟩

def names : List Str := [str% "version", str% "help", str% "config", str% "optimization", str% "include-path", str% "input-file"]

theorem key_cases {env : Env} {d : OptionDesc} (hd : d ∈ all env) (n : Str) : reportedKey d n ∈ names := by
  simp only [all, List.mem_cons, List.not_mem_nil, or_false] at hd
  rcases hd with rfl | rfl | rfl | rfl | rfl | rfl
  · exact (by decide : str% "version" ∈ names)
  · exact (by decide : str% "help" ∈ names)
  · exact (by decide : str% "config" ∈ names)
  · exact (by decide : str% "optimization" ∈ names)
  · exact (by decide : str% "include-path" ∈ names)
  · exact (by decide : str% "input-file" ∈ names)

theorem positional_name {env : Env} {args : List Str} {pc : Parsed} (h : commandLine env args = .ok pc) {o : Opt} (ho : o ∈ pc.options) (hp : o.positionKey ≠ -1) :
    o.stringKey = str% "input-file" := by
  obtain ⟨-, hrun⟩ := commandLine_run h
  have hmem : o ∈ positionals pc.options := List.mem_filter.2 ⟨ho, by simpa using hp⟩
  obtain ⟨i, hi, hoi⟩ := List.mem_iff_getElem.1 hmem
  obtain ⟨-, -, hname⟩ := C08_numbered _ rfl args _ hrun i o (by rw [← hoi]; exact List.getElem?_eq_getElem hi)
  have h' : Positional.nameForPosition { trailing := str% "input-file" } i = .ok o.stringKey := hname
  unfold Positional.nameForPosition at h'
  simp only [List.getElem?_nil] at h'
  split at h'
  · cases h'
  · exact (Except.ok.inj h').symm

theorem commandLine_names {env : Env} {args : List Str} {pc : Parsed} (h : commandLine env args = .ok pc) {name : Str} (hm : Mentions pc.options name) : name ∈ names := by
  obtain ⟨o, ho, rfl, hk, hreg⟩ := hm
  obtain ⟨-, hrun⟩ := commandLine_run h
  by_cases hp : o.positionKey = -1
  · obtain ⟨_, _, n, _, _, _, d, hd, _, hkey⟩ := C06_canonical_key _ rfl args _ hrun o ho hp hreg
    rw [hkey]
    exact key_cases hd n
  · rw [positional_name h ho hp]
    decide

theorem file_names {env : Env} {text : Str} {pf : Parsed} (h : configFile env text = .ok pf) {name : Str} (hm : Mentions pf.options name) :
    name = str% "optimization" ∨ name = str% "include-path" ∨ name = str% "input-file" := by
  obtain ⟨o, ho, rfl, hk, hreg⟩ := hm
  obtain ⟨d, hd, h' | ⟨stem, h', -⟩⟩ := (C28_all_accepted text (inFile env) pf h o ho).1
  · simp only [inFile, List.mem_cons, List.not_mem_nil, or_false] at hd
    rcases hd with rfl | rfl | rfl
    · exact .inl h'.1.symm
    · exact .inr (.inl h'.1.symm)
    · exact .inr (.inr h'.1.symm)
  · exfalso
    have := congrArg List.getLast? h'
    rw [List.getLast?_concat] at this
    simp only [inFile, List.mem_cons, List.not_mem_nil, or_false] at hd
    rcases hd with rfl | rfl | rfl
    · exact absurd this (by show ¬ some 'n' = some '*'; decide)
    · exact absurd this (by show ¬ some 'h' = some '*'; decide)
    · exact absurd this (by show ¬ some 'e' = some '*'; decide)

theorem identified (env : Env) : Identified (parser env) := by
  intro d hd k hk
  simp only [parser, all, List.mem_cons, List.not_mem_nil, or_false] at hd
  rcases hd with rfl | rfl | rfl | rfl | rfl | rfl <;>
    · rcases hk with ⟨h, -⟩ | ⟨h, -⟩
      · cases h
        simp [exacts, parser, all, Exact, fold, dVersion, dHelp, dConfig, dLevel, dInclude, dInput,
          show active Style.defaultStyle Style.longCaseInsensitive = false from rfl, show active Style.defaultStyle Style.shortCaseInsensitive = false from rfl]
      · cases h

/-- Options on the command line have as many values as they take. -/
theorem commandLine_values {env : Env} {args : List Str} {pc : Parsed} (hlen : args.length < 2147483648) (h : commandLine env args = .ok pc) {o : Opt} (ho : o ∈ pc.options)
    (hreg : o.unregistered = false) {d : OptionDesc} (hd : d ∈ all env) (hk : d.longNames = [o.stringKey]) (hi : o.stringKey ≠ str% "input-file") (hs : '*' ∉ o.stringKey) :
    d.semantic.minTokens ≤ o.value.length ∧ o.value.length ≤ d.semantic.maxTokens := by
  obtain ⟨-, hrun⟩ := commandLine_run h
  have hp : o.positionKey = -1 := by
    by_cases hp : o.positionKey = -1
    · exact hp
    · exact absurd (positional_name h ho hp) hi
  obtain ⟨d', hd', hden, h1, h2⟩ := C18_token_counts (parser env) rfl (identified env) (by
    intro d hd
    simp only [parser, all, List.mem_cons, List.not_mem_nil, or_false] at hd
    rcases hd with rfl | rfl | rfl | rfl | rfl | rfl
    · exact Nat.le_refl 0
    · exact Nat.le_refl 0
    · exact Nat.le_refl 1
    · exact Nat.le_refl 1
    · exact Nat.le_refl 1
    · exact Nat.le_refl 1) args hlen _ hrun o ho hp hreg
  have hex := identified env d hd o.stringKey (.inl ⟨by rw [hk]; rfl, hs⟩)
  unfold Denotes at hden
  dsimp only at hden
  rw [hex] at hden
  rcases hden with hden | ⟨hden, -⟩
  · cases hden; exact ⟨h1, h2⟩
  · cases hden

/-! ### Candidates -/

theorem cand_all (env : Env) : candidates (all env) (str% "version") = [dVersion env] ∧ candidates (all env) (str% "help") = [dHelp env] ∧
    candidates (all env) (str% "config") = [dConfig env] ∧ candidates (all env) (str% "optimization") = [dLevel env] ∧
    candidates (all env) (str% "include-path") = [dInclude env] ∧ candidates (all env) (str% "input-file") = [dInput env] := by
  simp [candidates, exacts, all, Exact, fold, dVersion, dHelp, dConfig, dLevel, dInclude, dInput]

theorem cand_file (env : Env) : candidates (inFile env) (str% "optimization") = [dLevel env] ∧
    candidates (inFile env) (str% "include-path") = [dInclude env] ∧ candidates (inFile env) (str% "input-file") = [dInput env] := by
  simp [candidates, exacts, inFile, Exact, fold, dLevel, dInclude, dInput]

theorem own (env : Env) : (dVersion env).own = str% "version" ∧ (dHelp env).own = str% "help" ∧ (dConfig env).own = str% "config" ∧
    (dLevel env).own = str% "optimization" ∧ (dInclude env).own = str% "include-path" ∧ (dInput env).own = str% "input-file" :=
  ⟨rfl, rfl, rfl, rfl, rfl, rfl⟩

/-! ### What the options make of their occurrences -/

theorem untyped_reads (env : Env) (L : List (List Str)) (hL : ∀ l ∈ L, l = []) : (∃ a, parseAll (untypedValue env true) false none L = .ok a) ↔ L.length ≤ 1 := by
  match L with
  | [] => exact ⟨fun _ => by simp, fun _ => ⟨none, rfl⟩⟩
  | [l] =>
    rw [hL l (by simp)]
    exact ⟨fun _ => by simp, fun _ => ⟨_, rfl⟩⟩
  | l :: l' :: rest =>
    rw [hL l (by simp), hL l' (by simp)]
    refine ⟨fun ⟨_, h⟩ => ?_, fun h => by simp at h⟩
    cases h

theorem config_reads (env : Env) (L : List (List Str)) (hL : ∀ l ∈ L, ∃ t, l = [t]) : (∃ a, parseAll (tConfig.toSemantic env) false none L = .ok a) ↔ L.length ≤ 1 := by
  match L with
  | [] => exact ⟨fun _ => by simp, fun _ => ⟨none, rfl⟩⟩
  | [l] =>
    obtain ⟨t, rfl⟩ := hL l (by simp)
    exact ⟨fun _ => by simp, fun _ => ⟨_, rfl⟩⟩
  | l :: l' :: rest =>
    refine ⟨fun ⟨a, h⟩ => ?_, fun h => by simp at h⟩
    obtain ⟨toks, x, h1, -⟩ := scalar_once (t := tConfig) (st := .str) rfl rfl rfl (by simp) h
    cases h1

theorem level_value (env : Env) (toks : List Str) (x : SVal) : validateScalar env (.lex 0) toks = .ok x ↔ ∃ t n, toks = [t] ∧ env.lex 0 t = some n ∧ x = .lex 0 n := by
  match toks with
  | [] => exact ⟨nofun, fun ⟨_, _, h, _⟩ => nomatch h⟩
  | _ :: _ :: _ => exact ⟨nofun, fun ⟨_, _, h, _⟩ => nomatch h⟩
  | [t] =>
    have hv : validateScalar env (.lex 0) [t] = match env.lex 0 t with | some v => .ok (.lex 0 v) | none => .error (errInvalidValue t) := rfl
    rw [hv]
    cases hl : env.lex 0 t with
    | none =>
      refine ⟨nofun, fun ⟨t', n, h, hn, _⟩ => ?_⟩
      cases h
      rw [hl] at hn
      cases hn
    | some v =>
      refine ⟨fun h => ⟨t, v, rfl, hl, (Except.ok.inj h).symm⟩, fun ⟨t', n, h, hn, hx⟩ => ?_⟩
      cases h
      rw [hl] at hn
      cases hn
      rw [hx]

theorem level_reads (env : Env) (L : List (List Str)) :
    (∃ a, parseAll (tLevel.toSemantic env) false none L = .ok a) ↔ L.length ≤ 1 ∧ ∀ l ∈ L, ∃ t n, l = [t] ∧ env.lex 0 t = some n := by
  match L with
  | [] => exact ⟨fun _ => by simp, fun _ => ⟨none, rfl⟩⟩
  | [l] =>
    constructor
    · rintro ⟨a, h⟩
      obtain ⟨toks, x, h1, h2, -⟩ := scalar_once (t := tLevel) (st := .lex 0) rfl rfl rfl (by simp) h
      cases h1
      obtain ⟨t, n, h3, h4, -⟩ := (level_value env l x).1 h2
      refine ⟨by simp, fun l' hl' => ?_⟩
      cases List.mem_singleton.1 hl'
      exact ⟨t, n, h3, h4⟩
    · rintro ⟨-, h⟩
      obtain ⟨t, n, rfl, hn⟩ := h l (by simp)
      have hv := (level_value env [t] (.lex 0 n)).2 ⟨t, n, rfl, hn, rfl⟩
      have hp : (tLevel.toSemantic env).parse none [t] false = validate (validateScalar env) (.scalar (.lex 0)) none [t] := rfl
      rw [parseAll, hp, validate, hv]
      exact ⟨_, rfl⟩
  | l :: l' :: rest =>
    refine ⟨fun ⟨a, h⟩ => ?_, fun h => by simp at h⟩
    obtain ⟨toks, x, h1, -⟩ := scalar_once (t := tLevel) (st := .lex 0) rfl rfl rfl (by simp) h
    cases h1

/-! ### Storing -/

theorem settled_one {p : Parsed} {name : Str} {r r'} (h : Settled name [(p, false)] r r') :
    (¬ Mentions p.options name ∧ r' = r) ∨ ∃ d a, Mentions p.options name ∧ candidates p.desc name = [d] ∧
      parseAll d.semantic false (r.bind (·.2)) ((occurrences p.options name).map (·.value)) = .ok a ∧ r' = some (d.semantic, a) := by
  cases h with
  | silent hm h => cases h; exact .inl ⟨hm, rfl⟩
  | adds hm hd ha hc h => cases h; exact .inr ⟨_, _, hm, hd, ha, rfl⟩
  | settles hm hd ha hc => exact .inr ⟨_, _, hm, hd, ha, rfl⟩

theorem one_settled {p : Parsed} {name : Str} {d : OptionDesc} {r a} (hm : Mentions p.options name) (hd : candidates p.desc name = [d])
    (ha : parseAll d.semantic false (r.bind (·.2)) ((occurrences p.options name).map (·.value)) = .ok a) : Settled name [(p, false)] r (some (d.semantic, a)) := by
  cases hc : d.semantic.isComposing with
  | true => exact .adds hm hd ha hc (.done _)
  | false => exact .settles hm hd ha hc

theorem settled_snoc {p q : Parsed} {name : Str} {r r'} (h : Settled name [(p, false)] r r') (hq : ¬ Mentions q.options name) : Settled name [(p, false), (q, false)] r r' := by
  cases h with
  | silent hm h => cases h; exact .silent hm (.silent hq (.done _))
  | adds hm hd ha hc h => cases h; exact .adds hm hd ha hc (.silent hq (.done _))
  | settles hm hd ha hc => exact .settles hm hd ha hc

theorem occ_length {os : List Opt} {name : Str} : ((occurrences os name).map (·.value)).length ≤ 1 ↔ AtMostOnce os name := by
  rw [List.length_map]; exact Iff.rfl

/-- What must hold for the command line to be stored. -/
def Storable (env : Env) (pc : List Opt) : Prop :=
  AtMostOnce pc (str% "version") ∧ AtMostOnce pc (str% "help") ∧ AtMostOnce pc (str% "config") ∧ AtMostOnce pc (str% "optimization") ∧ LevelReads env pc

theorem levelReads_iff {env : Env} {os : List Opt} :
    LevelReads env os ↔ ∀ l ∈ (occurrences os (str% "optimization")).map (·.value), ∃ t n, l = [t] ∧ env.lex 0 t = some n := by
  simp [LevelReads]

theorem reads_of {p : Parsed} {name : Str} {d : OptionDesc} (hd : candidates p.desc name = [d]) {r} (h : Settled name [(p, false)] none r) :
    ∃ a, parseAll d.semantic false none ((occurrences p.options name).map (·.value)) = .ok a := by
  rcases settled_one h with ⟨hm, -⟩ | ⟨d', a, -, hd', ha, -⟩
  · rw [occ_nil hm]; exact ⟨none, rfl⟩
  · rw [hd] at hd'; cases hd'; exact ⟨a, ha⟩

theorem stores_commandLine {env : Env} {args : List Str} {pc : Parsed} (hlen : args.length < 2147483648) (h : commandLine env args = .ok pc) :
    (∃ m, Stores {} [(pc, false)] m) ↔ Storable env pc.options := by
  have hdesc := (commandLine_run h).1
  obtain ⟨c1, c2, c3, c4, c5, c6⟩ := cand_all env
  rw [← hdesc] at c1 c2 c3 c4 c5 c6
  have hv : ∀ {d : OptionDesc} {name : Str}, d ∈ all env → d.longNames = [name] → name ≠ str% "input-file" → '*' ∉ name →
      ∀ l ∈ (occurrences pc.options name).map (·.value), d.semantic.minTokens ≤ l.length ∧ l.length ≤ d.semantic.maxTokens := by
    intro d name hd hk hi hs l hl
    obtain ⟨o, ho, rfl⟩ := List.mem_map.1 hl
    obtain ⟨ho', hp⟩ := List.mem_filter.1 ho
    obtain ⟨rfl, -, hreg⟩ := of_decide_eq_true hp
    exact commandLine_values hlen h ho' hreg hd hk hi hs
  have v1 : ∀ l ∈ (occurrences pc.options (str% "version")).map (·.value), l = [] := fun l hl =>
    List.length_eq_zero_iff.1 (Nat.le_zero.1 (hv (d := dVersion env) (by simp [all]) rfl (by decide) (by decide) l hl).2)
  have v2 : ∀ l ∈ (occurrences pc.options (str% "help")).map (·.value), l = [] := fun l hl =>
    List.length_eq_zero_iff.1 (Nat.le_zero.1 (hv (d := dHelp env) (by simp [all]) rfl (by decide) (by decide) l hl).2)
  have v3 : ∀ l ∈ (occurrences pc.options (str% "config")).map (·.value), ∃ t, l = [t] := fun l hl => by
    have := hv (d := dConfig env) (by simp [all]) rfl (by decide) (by decide) l hl
    exact List.length_eq_one_iff.1 (Nat.le_antisymm this.2 this.1)
  rw [C104_succeeds]
  constructor
  · intro hs
    obtain ⟨_, s1⟩ := hs (str% "version")
    obtain ⟨_, s2⟩ := hs (str% "help")
    obtain ⟨_, s3⟩ := hs (str% "config")
    obtain ⟨_, s4⟩ := hs (str% "optimization")
    obtain ⟨l1, l2⟩ := (level_reads env _).1 (reads_of c4 s4)
    exact ⟨occ_length.1 ((untyped_reads env _ v1).1 (reads_of c1 s1)), occ_length.1 ((untyped_reads env _ v2).1 (reads_of c2 s2)),
      occ_length.1 ((config_reads env _ v3).1 (reads_of c3 s3)), occ_length.1 l1, levelReads_iff.2 l2⟩
  · rintro ⟨h1, h2, h3, h4, h5⟩ name
    by_cases hm : Mentions pc.options name
    · have hn := commandLine_names h hm
      simp only [names, List.mem_cons, List.not_mem_nil, or_false] at hn
      rcases hn with rfl | rfl | rfl | rfl | rfl | rfl
      · obtain ⟨a, ha⟩ := (untyped_reads env _ v1).2 (occ_length.2 h1)
        exact ⟨_, one_settled hm c1 ha⟩
      · obtain ⟨a, ha⟩ := (untyped_reads env _ v2).2 (occ_length.2 h2)
        exact ⟨_, one_settled hm c2 ha⟩
      · obtain ⟨a, ha⟩ := (config_reads env _ v3).2 (occ_length.2 h3)
        exact ⟨_, one_settled hm c3 ha⟩
      · obtain ⟨a, ha⟩ := (level_reads env _).2 ⟨occ_length.2 h4, levelReads_iff.1 h5⟩
        exact ⟨_, one_settled hm c4 ha⟩
      · exact ⟨_, one_settled hm c5 ((vector_all (t := tInclude) rfl rfl rfl _).1 (occ_ne hm))⟩
      · exact ⟨_, one_settled hm c6 ((vector_all (t := strings) rfl rfl rfl _).1 (occ_ne hm))⟩
    · exact ⟨_, .silent hm (.done _)⟩

theorem stores_file {env : Env} {args : List Str} {pc pf : Parsed} {text : Str} (h : commandLine env args = .ok pc) (hf : configFile env text = .ok pf)
    (hst : ∃ m, Stores {} [(pc, false)] m) :
    (∃ m, Stores {} [(pc, false), (pf, false)] m) ↔
      (¬ Mentions pc.options (str% "optimization") → AtMostOnce pf.options (str% "optimization") ∧ LevelReads env pf.options) := by
  have hdesc := (commandLine_run h).1
  have hfdesc : pf.desc = inFile env := file_desc hf
  obtain ⟨c1, c2, c3, c4, c5, c6⟩ := cand_all env
  rw [← hdesc] at c1 c2 c3 c4 c5 c6
  obtain ⟨f4, f5, f6⟩ := cand_file env
  rw [← hfdesc] at f4 f5 f6
  rw [C104_succeeds] at hst ⊢
  constructor
  · intro hs hm
    obtain ⟨_, s⟩ := hs (str% "optimization")
    cases s with
    | silent _ s =>
      obtain ⟨l1, l2⟩ := (level_reads env _).1 (reads_of f4 s)
      exact ⟨occ_length.1 l1, levelReads_iff.2 l2⟩
    | adds hm' => exact absurd hm' hm
    | settles hm' => exact absurd hm' hm
  · intro hl name
    obtain ⟨r, hr⟩ := hst name
    by_cases hm : Mentions pf.options name
    · rcases file_names hf hm with rfl | rfl | rfl
      · rcases settled_one hr with ⟨hc, -⟩ | ⟨d, a, hc, hd, ha, -⟩
        · obtain ⟨l1, l2⟩ := hl hc
          obtain ⟨a, ha⟩ := (level_reads env _).2 ⟨occ_length.2 l1, levelReads_iff.1 l2⟩
          exact ⟨_, .silent hc (one_settled hm f4 ha)⟩
        · rw [c4] at hd; cases hd
          exact ⟨_, .settles hc c4 ha rfl⟩
      · have v := vector_all (env := env) (t := tInclude) rfl rfl rfl
        by_cases hc : Mentions pc.options (str% "include-path")
        · exact ⟨_, .adds hc c5 ((v _).1 (occ_ne hc)) rfl (one_settled hm f5 ((v _).2 _))⟩
        · exact ⟨_, .silent hc (one_settled hm f5 ((v _).1 (occ_ne hm)))⟩
      · have v := vector_all (env := env) (t := strings) rfl rfl rfl
        by_cases hc : Mentions pc.options (str% "input-file")
        · exact ⟨_, .settles hc c6 ((v _).1 (occ_ne hc)) rfl⟩
        · exact ⟨_, .silent hc (one_settled hm f6 ((v _).1 (occ_ne hm)))⟩
    · exact ⟨r, settled_snoc hr hm⟩

/-! ### Notifying -/

theorem cand_exact {env : Env} {D : List OptionDesc} (hD : D = all env ∨ D = inFile env) {name : Str} {d : OptionDesc} (h : candidates D name = [d]) :
    d ∈ all env ∧ d ∈ D ∧ (d.longNames = [name] ∨ d.shortName = name ∧ name ≠ []) := by
  have hd : d ∈ D := candidates_desc h
  have hda : d ∈ all env := by
    rcases hD with rfl | rfl
    · exact hd
    · simp only [inFile, all, List.mem_cons, List.not_mem_nil, or_false] at hd ⊢
      rcases hd with rfl | rfl | rfl <;> simp
  refine ⟨hda, hd, ?_⟩
  have hne : name ≠ [] := by
    rintro rfl
    rcases hD with rfl | rfl
    · have := congrArg List.length h
      simp [candidates, exacts, all, Exact, fold, dVersion, dHelp, dConfig, dLevel, dInclude, dInput] at this
    · have := congrArg List.length h
      simp [candidates, exacts, inFile, Exact, fold, dLevel, dInclude, dInput] at this
  have hlong : ∃ n, d.longNames = [n] ∧ n.getLast? ≠ some '*' := by
    simp only [all, List.mem_cons, List.not_mem_nil, or_false] at hda
    rcases hda with rfl | rfl | rfl | rfl | rfl | rfl
    · exact ⟨_, rfl, by decide⟩
    · exact ⟨_, rfl, by decide⟩
    · exact ⟨_, rfl, by decide⟩
    · exact ⟨_, rfl, by decide⟩
    · exact ⟨_, rfl, by decide⟩
    · exact ⟨_, rfl, by decide⟩
  obtain ⟨n, hn, hstar⟩ := hlong
  have hm : d ∈ candidates D name := by rw [h]; simp
  unfold candidates at hm
  split at hm
  · have := of_decide_eq_true (List.mem_filter.1 hm).2
    rcases this with ⟨n', hn', -, he⟩ | he
    · rw [hn] at hn' ⊢
      cases List.mem_singleton.1 hn'
      have he : n = name := he
      exact .inl (by rw [he])
    · exact .inr ⟨he, hne⟩
  · obtain ⟨-, n', hn', -, h' | ⟨stem, he, -⟩⟩ := of_decide_eq_true (List.mem_filter.1 hm).2
    · cases h'.1
    · rw [hn] at hn'
      cases List.mem_singleton.1 hn'
      have he : n = stem ++ ['*'] := he
      exact absurd (by rw [he]; simp) hstar

/-- The type of the value of a name. -/
def typeOf (name : Str) : VType :=
  if name = str% "optimization" then .scalar (.lex 0)
  else if name = str% "include-path" ∨ name = str% "-I" ∨ name = str% "input-file" then .vector .str
  else .scalar .str

theorem narrow (env : Env) : Narrow (dVersion env).semantic (.scalar .str) ∧ Narrow (dHelp env).semantic (.scalar .str) ∧ Narrow (dConfig env).semantic (.scalar .str) ∧
    Narrow (dLevel env).semantic (.scalar (.lex 0)) ∧ Narrow (dInclude env).semantic (.vector .str) ∧ Narrow (dInput env).semantic (.vector .str) := by
  refine ⟨.untyped _ _, .untyped _ _, .typed _ tConfig ⟨?_, nofun⟩ rfl, .typed _ tLevel ⟨?_, nofun⟩ rfl, .typed _ tInclude ⟨nofun, nofun⟩ rfl, .typed _ strings ⟨nofun, nofun⟩ rfl⟩
  · intro q hq; cases hq; rfl
  · intro q hq; cases hq; rfl

theorem narrow_name {env : Env} {D : List OptionDesc} (hD : D = all env ∨ D = inFile env) {name : Str} {d : OptionDesc} (h : candidates D name = [d]) :
    Narrow d.semantic (typeOf name) := by
  obtain ⟨hd, -, hn⟩ := cand_exact hD h
  obtain ⟨n1, n2, n3, n4, n5, n6⟩ := narrow env
  simp only [all, List.mem_cons, List.not_mem_nil, or_false] at hd
  rcases hd with rfl | rfl | rfl | rfl | rfl | rfl <;> rcases hn with hn | ⟨hn, hne⟩ <;> cases hn <;> first | assumption | exact absurd rfl hne

theorem notify_ok {env : Env} {P : List (Parsed × Bool)} (hP : ∀ q ∈ P, q.2 = false ∧ (q.1.desc = all env ∨ q.1.desc = inFile env)) {m : VarMap} (h : Stores {} P m) :
    m.notify.2 = none := by
  have hist : ∀ {m0 : VarMap} {Q : List (Parsed × Bool)} {m1 : VarMap}, Stores m0 Q m1 → History m0 Q m1 := by
    intro m0 Q m1 h
    induction h with
    | nil m => exact .nil m
    | cons h _ ih => exact .ok h ih
  have hsub : ∀ q ∈ P, ∀ d ∈ q.1.desc, d ∈ all env := by
    intro q hq d hd
    rcases (hP q hq).2 with h | h
    · exact h ▸ hd
    · rw [h] at hd
      simp only [inFile, all, List.mem_cons, List.not_mem_nil, or_false] at hd ⊢
      rcases hd with rfl | rfl | rfl <;> simp
  cases hf : m.notify.2 with
  | none => rfl
  | some f =>
    exfalso
    obtain ⟨e, he, s, hs, hnf⟩ := (C38_required P m (hist h)).2 (by
      rintro k n ⟨q, hq, d, hd, -, -, hr, -⟩
      have hd := hsub q hq d hd
      simp only [all, List.mem_cons, List.not_mem_nil, or_false] at hd
      rcases hd with rfl | rfl | rfl | rfl | rfl | rfl <;> cases hr) f hf
    refine delivers_ok (fun q hq => (hP q hq).1) h ?_ (fun name => ⟨typeOf name, fun q hq d hd => narrow_name (hP q hq).2 hd⟩) he hs hnf
    intro q hq d hd
    have hd := hsub q hq d hd
    obtain ⟨n1, n2, n3, n4, n5, n6⟩ := narrow env
    simp only [all, List.mem_cons, List.not_mem_nil, or_false] at hd
    rcases hd with rfl | rfl | rfl | rfl | rfl | rfl
    · exact ⟨_, n1⟩
    · exact ⟨_, n2⟩
    · exact ⟨_, n3⟩
    · exact ⟨_, n4⟩
    · exact ⟨_, n5⟩
    · exact ⟨_, n6⟩

theorem variable_assigned (addr : Nat) (es : List Event) : variable_ addr es = (assigned addr es).getLast? := by
  unfold variable_
  suffices main : ∀ (v : Option AVal), es.foldl (fun v e => match e with | .assign a x => if a = addr then some x else v | .callback _ _ => v) v =
      ((assigned addr es).getLast?).or v by
    have := main none
    rw [Option.or_none] at this
    exact this
  induction es with
  | nil => intro v; rfl
  | cons e es ih =>
    intro v
    rw [List.foldl_cons, ih]
    cases e with
    | callback a b => rfl
    | assign a x =>
      by_cases ha : a = addr
      · simp only [assigned, List.filterMap_cons, if_pos ha]
        cases h : (List.filterMap _ es) with
        | nil => rfl
        | cons y ys => simp [List.getLast?_cons]
      · simp only [assigned, List.filterMap_cons, if_neg ha]

theorem bound_config {env : Env} {args : List Str} {pc : Parsed} (h : commandLine env args = .ok pc) : Bound env pc (str% "config") fileVar (dConfig env) := by
  have hdesc := (commandLine_run h).1
  constructor
  · exact ⟨tConfig, rfl, rfl⟩
  · intro d hd hne
    rw [hdesc] at hd
    simp only [all, List.mem_cons, List.not_mem_nil, or_false] at hd
    rcases hd with rfl | rfl | rfl | rfl | rfl | rfl
    · exact .inl ⟨true, rfl⟩
    · exact .inl ⟨true, rfl⟩
    · exact absurd rfl hne
    · exact .inr ⟨tLevel, rfl, by decide⟩
    · exact .inr ⟨tInclude, rfl, by decide⟩
    · exact .inr ⟨strings, rfl, by decide⟩
  · intro _; rw [hdesc]; exact (cand_all env).2.2.1
  · intro k hm hk
    have hn := commandLine_names h hm
    obtain ⟨-, -, hk | ⟨hk, -⟩⟩ := cand_exact (.inl hdesc) hk
    · cases hk; rfl
    · cases hk; exact absurd hn (by show str% "-c" ∉ names; decide)
  · intro d hd
    rw [hdesc] at hd
    simp only [all, List.mem_cons, List.not_mem_nil, or_false] at hd
    rcases hd with rfl | rfl | rfl | rfl | rfl | rfl <;> constructor <;> intro h <;> first | rfl | exact absurd (congrArg OptionDesc.longNames h) (by decide) | cases h

theorem bound_level {env : Env} {p : Parsed} (hD : p.desc = all env ∨ p.desc = inFile env) (hn : ∀ k, Mentions p.options k → k ∈ names) :
    Bound env p (str% "optimization") optVar (dLevel env) := by
  have hsub : ∀ d ∈ p.desc, d ∈ all env := by
    intro d hd
    rcases hD with h | h
    · exact h ▸ hd
    · rw [h] at hd
      simp only [inFile, all, List.mem_cons, List.not_mem_nil, or_false] at hd ⊢
      rcases hd with rfl | rfl | rfl <;> simp
  constructor
  · exact ⟨tLevel, rfl, rfl⟩
  · intro d hd hne
    have hd := hsub d hd
    simp only [all, List.mem_cons, List.not_mem_nil, or_false] at hd
    rcases hd with rfl | rfl | rfl | rfl | rfl | rfl
    · exact .inl ⟨true, rfl⟩
    · exact .inl ⟨true, rfl⟩
    · exact .inr ⟨tConfig, rfl, by decide⟩
    · exact absurd rfl hne
    · exact .inr ⟨tInclude, rfl, by decide⟩
    · exact .inr ⟨strings, rfl, by decide⟩
  · intro _
    rcases hD with h | h
    · rw [h]; exact (cand_all env).2.2.2.1
    · rw [h]; exact (cand_file env).1
  · intro k hm hk
    have hn := hn k hm
    obtain ⟨-, -, hk | ⟨hk, h0⟩⟩ := cand_exact hD hk
    · cases hk; rfl
    · exact absurd hk.symm h0
  · intro d hd
    have hd := hsub d hd
    simp only [all, List.mem_cons, List.not_mem_nil, or_false] at hd
    rcases hd with rfl | rfl | rfl | rfl | rfl | rfl <;> constructor <;> intro h <;> first | rfl | exact absurd (congrArg OptionDesc.longNames h) (by decide) | cases h

/-! ### The two loads -/

theorem load_store {p : Parsed} {m : VarMap} : (∃ m', store p m = (m', none)) ∨ ∃ f, load p m = .error f := by
  cases h : store p m with
  | mk m' e =>
    cases e with
    | none => exact .inl ⟨m', rfl⟩
    | some f => exact .inr ⟨f, by unfold load; rw [h]⟩

theorem load_eq {p : Parsed} {m m' : VarMap} (h : store p m = (m', none)) (hn : m'.notify.2 = none) : load p m = .ok (m', m'.notify.1) := by
  unfold load
  rw [h]
  cases hm : m'.notify with
  | mk es e =>
    rw [hm] at hn
    cases hn
    simp only
    rw [hm]

theorem said_one {os : List Opt} {name : Str} {toks : List Str} (h : (occurrences os name).map (·.value) = [toks]) : said os name = toks := by
  unfold said
  rw [List.flatMap_def, h]
  simp

theorem said_nil {os : List Opt} {name : Str} (h : ¬ Mentions os name) : said os name = [] := by
  unfold said
  rw [occ_nil h]
  rfl

theorem first_load {env : Env} {args : List Str} {pc : Parsed} (h : commandLine env args = .ok pc) {m : VarMap} (hst : store pc {} = (m, none)) :
    ∃ es n, load pc {} = .ok (m, es) ∧ FileNamed pc.options n ∧ variable_ fileVar es = some (.scalar (.str n)) := by
  have hdesc := (commandLine_run h).1
  have hS : Stores {} [(pc, false)] m := .cons hst (.nil _)
  have hn := notify_ok (env := env) (P := [(pc, false)]) (fun q hq => by cases List.mem_singleton.1 hq; exact ⟨rfl, .inl hdesc⟩) hS
  obtain ⟨r, hr, ha⟩ := C104_variable env _ m hS m.notify.1 (by rw [← hn]) (str% "config") fileVar (dConfig env) ⟨_, List.mem_singleton.2 rfl, by rw [hdesc]; simp [all]⟩
    (fun q hq => by cases List.mem_singleton.1 hq; exact bound_config h)
  rcases settled_one hr with ⟨hm, rfl⟩ | ⟨d, a, hm, hd, hp, rfl⟩
  · refine ⟨_, str% "multiple_sources.cfg", load_eq hst hn, .inr ⟨hm, rfl⟩, ?_⟩
    have hdf : defaultFrom [(pc, false)] (str% "config") = some ((dConfig env).semantic, some (.scalar (.str (str% "multiple_sources.cfg")))) := by
      rw [defaultFrom_cons, hdesc]; rfl
    rw [variable_assigned, ha, hdf]
    rfl
  · rw [hdesc, (cand_all env).2.2.1] at hd
    cases hd
    obtain ⟨toks, x, h1, h2, rfl⟩ := scalar_once (t := tConfig) (st := .str) rfl rfl rfl (occ_ne hm) hp
    match toks, h2 with
    | [], h2 => cases h2
    | _ :: _ :: _, h2 => cases h2
    | [n], h2 =>
      cases h2
      refine ⟨_, n, load_eq hst hn, .inl (said_one h1), ?_⟩
      rw [variable_assigned, ha]
      rfl

theorem level_scalar {env : Env} {os : List Opt} {a : Any} (hm : Mentions os (str% "optimization"))
    (hp : parseAll (dLevel env).semantic false none ((occurrences os (str% "optimization")).map (·.value)) = .ok a) :
    ∃ t n, said os (str% "optimization") = [t] ∧ env.lex 0 t = some n ∧ a = some (.scalar (.lex 0 n)) := by
  obtain ⟨toks, x, h1, h2, rfl⟩ := scalar_once (t := tLevel) (st := .lex 0) rfl rfl rfl (occ_ne hm) hp
  obtain ⟨t, n, rfl, hn, rfl⟩ := (level_value env toks x).1 h2
  exact ⟨t, n, said_one h1, hn, rfl⟩

theorem second_load {env : Env} {args : List Str} {pc pf : Parsed} {text : Str} (h : commandLine env args = .ok pc) (hf : configFile env text = .ok pf)
    {m m' : VarMap} (hst : store pc {} = (m, none)) (hst' : store pf m = (m', none)) (es : List Event) :
    ∃ es' n, load pf m = .ok (m', es') ∧ Level env pc.options pf.options n ∧ variable_ optVar (es ++ es') = some (.scalar (.lex 0 n)) := by
  have hdesc := (commandLine_run h).1
  have hfdesc : pf.desc = inFile env := file_desc hf
  have hS : Stores {} [(pc, false), (pf, false)] m' := .cons hst (.cons hst' (.nil _))
  have hP : ∀ q ∈ [(pc, false), (pf, false)], q.2 = false ∧ (q.1.desc = all env ∨ q.1.desc = inFile env) := by
    intro q hq
    simp only [List.mem_cons, List.not_mem_nil, or_false] at hq
    rcases hq with rfl | rfl
    · exact ⟨rfl, .inl hdesc⟩
    · exact ⟨rfl, .inr hfdesc⟩
  have hn := notify_ok hP hS
  obtain ⟨r, hr, ha⟩ := C104_variable env _ m' hS m'.notify.1 (by rw [← hn]) (str% "optimization") optVar (dLevel env) ⟨_, List.mem_cons_self, by rw [hdesc]; simp [all]⟩
    (fun q hq => bound_level (hP q hq).2 (by
      simp only [List.mem_cons, List.not_mem_nil, or_false] at hq
      rcases hq with rfl | rfl
      · exact fun k hk => commandLine_names h hk
      · intro k hk
        rcases file_names hf hk with rfl | rfl | rfl <;> decide))
  have key : ∀ n, (record r (defaultFrom [(pc, false), (pf, false)] (str% "optimization"))).bind (·.v) = some (.scalar (.lex 0 n)) →
      variable_ optVar (es ++ m'.notify.1) = some (.scalar (.lex 0 n)) := by
    intro n hr
    rw [hr] at ha
    have : assigned optVar (es ++ m'.notify.1) = assigned optVar es ++ assigned optVar m'.notify.1 := List.filterMap_append
    rw [variable_assigned, this, ha]
    simp
  cases hr with
  | silent hm hr =>
    rcases settled_one hr with ⟨hm', rfl⟩ | ⟨d, a, hm', hd, hp, rfl⟩
    · refine ⟨_, 10, load_eq hst' hn, .default hm hm', key _ ?_⟩
      have hdf : defaultFrom [(pc, false), (pf, false)] (str% "optimization") = some ((dLevel env).semantic, some (.scalar (.lex 0 10))) := by
        rw [defaultFrom_cons, hdesc]; rfl
      rw [hdf]
      rfl
    · have hd : candidates pf.desc (str% "optimization") = [d] := hd
      rw [hfdesc, (cand_file env).1] at hd
      cases hd
      obtain ⟨t, n, h1, h2, rfl⟩ := level_scalar hm' hp
      exact ⟨_, n, load_eq hst' hn, .file hm h1 h2, key _ rfl⟩
  | adds hm hd ha hc _ =>
    rw [hdesc, (cand_all env).2.2.2.1] at hd
    cases hd
    cases hc
  | settles hm hd hp hc =>
    rw [hdesc, (cand_all env).2.2.2.1] at hd
    cases hd
    obtain ⟨t, n, h1, h2, rfl⟩ := level_scalar hm hp
    exact ⟨_, n, load_eq hst' hn, .commandLine h1 h2, key _ rfl⟩

/-! ### The report -/

theorem switch_there {env : Env} {args : List Str} {pc pf : Parsed} {text : Str} (h : commandLine env args = .ok pc) (hf : configFile env text = .ok pf)
    {m : VarMap} (hS : Stores {} [(pc, false), (pf, false)] m) {name : Str} (hn : name = str% "help" ∨ name = str% "version") :
    (m.map.get? name).isSome = true ↔ Mentions pc.options name := by
  have hdesc := (commandLine_run h).1
  have hfdesc : pf.desc = inFile env := file_desc hf
  have hnf : ¬ Mentions pf.options name := by
    intro hm
    rcases hn with rfl | rfl <;> exact absurd (file_names hf hm) (by decide)
  have hdf : defaultFrom [(pc, false), (pf, false)] name = none := by
    rw [defaultFrom_cons, defaultFrom_cons, hdesc, hfdesc]
    rcases hn with rfl | rfl <;> rfl
  obtain ⟨r, hr, hv⟩ := C104_value _ m hS name
  rw [hv, hdf]
  cases hr with
  | silent hm hr =>
    cases hr with
    | silent hm' hr => cases hr; exact ⟨nofun, fun h => absurd h hm⟩
    | adds hm' => exact absurd hm' hnf
    | settles hm' => exact absurd hm' hnf
  | adds hm hd ha hc hr =>
    cases hr with
    | silent hm' hr => cases hr; exact ⟨fun _ => hm, fun _ => rfl⟩
    | adds hm' => exact absurd hm' hnf
    | settles hm' => exact absurd hm' hnf
  | settles hm hd hp hc => exact ⟨fun _ => hm, fun _ => rfl⟩

theorem strings_text (l : List Str) : (l.map SVal.str).flatMap (fun | .str s => s ++ [' '] | _ => []) = l.flatMap (· ++ [' ']) := by
  induction l with
  | nil => rfl
  | cons a l ih => rw [List.map_cons, List.flatMap_cons, List.flatMap_cons, ih]

theorem line_none {m : VarMap} {name title : Str} (h : m.map.get? name = none) : vectorLine m name title = .ok [] := by
  unfold vectorLine
  rw [h]

theorem line_some {m : VarMap} {name title : Str} {v : VarValue} {l : List Str} (h : m.map.get? name = some v) (hv : v.v = some (.vector .str (l.map .str))) :
    vectorLine m name title = .ok (title ++ l.flatMap (· ++ [' ']) ++ ['\n']) := by
  unfold vectorLine
  rw [h]
  have : v.as (.vector .str) = .ok (.vector .str (l.map .str)) := by
    unfold VarValue.as
    rw [hv]
    rfl
  simp only [this]
  exact congrArg (fun z => Except.ok (title ++ z ++ ['\n'])) (strings_text l)

theorem include_line {env : Env} {args : List Str} {pc pf : Parsed} {text : Str} (h : commandLine env args = .ok pc) (hf : configFile env text = .ok pf)
    {m : VarMap} (hS : Stores {} [(pc, false), (pf, false)] m) (title : Str) :
    ∃ line, vectorLine m (str% "include-path") title = .ok line ∧
      ListLine title (Mentions pc.options (str% "include-path") ∨ Mentions pf.options (str% "include-path"))
        (said pc.options (str% "include-path") ++ said pf.options (str% "include-path")) line := by
  have hdesc := (commandLine_run h).1
  have hfdesc : pf.desc = inFile env := file_desc hf
  have hdf : defaultFrom [(pc, false), (pf, false)] (str% "include-path") = none := by
    rw [defaultFrom_cons, defaultFrom_cons, hdesc, hfdesc]; rfl
  obtain ⟨r, hr, hv⟩ := C104_value _ m hS (str% "include-path")
  rw [hdf] at hv
  rcases (settled_all (env := env) (t := tInclude) rfl rfl rfl rfl (P := [(pc, false), (pf, false)]) (by simp) (by
      intro q hq d hd
      simp only [List.mem_cons, List.not_mem_nil, or_false] at hq
      rcases hq with rfl | rfl
      · rw [hdesc, (cand_all env).2.2.2.2.1] at hd; cases hd; rfl
      · rw [hfdesc, (cand_file env).2.1] at hd; cases hd; rfl)).1 hr with ⟨rfl, hno⟩ | ⟨hyes, rfl⟩
  · refine ⟨[], line_none hv, .none ?_⟩
    rintro (hm | hm)
    · exact hno (pc, false) (by simp) hm
    · exact hno (pf, false) (by simp) hm
  · refine ⟨_, line_some hv rfl, ?_⟩
    have : ([(pc, false), (pf, false)].flatMap fun q => occurrences q.1.options (str% "include-path")).flatMap (·.value) =
        said pc.options (str% "include-path") ++ said pf.options (str% "include-path") := by
      simp [said]
    rw [this]
    refine .some ?_
    obtain ⟨q, hq, hm⟩ := hyes
    simp only [List.mem_cons, List.not_mem_nil, or_false] at hq
    rcases hq with rfl | rfl
    · exact .inl hm
    · exact .inr hm

theorem input_line {env : Env} {args : List Str} {pc pf : Parsed} {text : Str} (h : commandLine env args = .ok pc) (hf : configFile env text = .ok pf)
    {m : VarMap} (hS : Stores {} [(pc, false), (pf, false)] m) (title : Str) :
    ∃ line, vectorLine m (str% "input-file") title = .ok line ∧
      (Mentions pc.options (str% "input-file") ∧ ListLine title True (said pc.options (str% "input-file")) line ∨
        ¬ Mentions pc.options (str% "input-file") ∧ ListLine title (Mentions pf.options (str% "input-file")) (said pf.options (str% "input-file")) line) := by
  have hdesc := (commandLine_run h).1
  have hfdesc : pf.desc = inFile env := file_desc hf
  have hdf : defaultFrom [(pc, false), (pf, false)] (str% "input-file") = none := by
    rw [defaultFrom_cons, defaultFrom_cons, hdesc, hfdesc]; rfl
  have hvec : ∀ {os : List Opt} {a : Any}, Mentions os (str% "input-file") →
      parseAll (dInput env).semantic false none ((occurrences os (str% "input-file")).map (·.value)) = .ok a → a = some (.vector .str ((said os (str% "input-file")).map .str)) := by
    intro os a hm hp
    have := (vector_all (env := env) (t := strings) rfl rfl rfl _).1 (occ_ne hm)
    have hp : parseAll (strings.toSemantic env) false none ((occurrences os (str% "input-file")).map (·.value)) = .ok a := hp
    rw [this] at hp
    cases hp
    unfold said
    rw [List.flatMap_def]
  obtain ⟨r, hr, hv⟩ := C104_value _ m hS (str% "input-file")
  rw [hdf] at hv
  cases hr with
  | silent hm hr =>
    rcases settled_one hr with ⟨hm', rfl⟩ | ⟨d, a, hm', hd, hp, rfl⟩
    · exact ⟨[], line_none hv, .inr ⟨hm, .none hm'⟩⟩
    · rw [hfdesc, (cand_file env).2.2] at hd
      cases hd
      cases hvec hm' hp
      exact ⟨_, line_some hv rfl, .inr ⟨hm, .some hm'⟩⟩
  | adds hm hd ha hc _ =>
    rw [hdesc, (cand_all env).2.2.2.2.2] at hd
    cases hd
    cases hc
  | settles hm hd hp hc =>
    rw [hdesc, (cand_all env).2.2.2.2.2] at hd
    cases hd
    cases hvec hm hp
    exact ⟨_, line_some hv rfl, .inl ⟨hm, .some trivial⟩⟩

/-! ### What is printed is determined -/

theorem mentions_said {os : List Opt} {name t : Str} (h : said os name = [t]) : Mentions os name := by
  refine Classical.byContradiction fun hm => ?_
  rw [said_nil hm] at h
  cases h

theorem fileNamed_det {pc : List Opt} {a b : Str} (ha : FileNamed pc a) (hb : FileNamed pc b) : a = b := by
  rcases ha with ha | ⟨ha, rfl⟩ <;> rcases hb with hb | ⟨hb, rfl⟩
  · rw [ha] at hb; cases hb; rfl
  · exact absurd (mentions_said ha) hb
  · exact absurd (mentions_said hb) ha
  · rfl

theorem level_det {env : Env} {pc pf : List Opt} {a b : Int} (ha : Level env pc pf a) (hb : Level env pc pf b) : a = b := by
  cases ha with
  | commandLine h hn =>
    cases hb with
    | commandLine h' hn' => rw [h] at h'; cases h'; rw [hn] at hn'; cases hn'; rfl
    | file h' => exact absurd (mentions_said h) h'
    | default h' => exact absurd (mentions_said h) h'
  | file h h1 hn =>
    cases hb with
    | commandLine h' => exact absurd (mentions_said h') h
    | file _ h' hn' => rw [h1] at h'; cases h'; rw [hn] at hn'; cases hn'; rfl
    | default _ h' => exact absurd (mentions_said h1) h'
  | default h h1 =>
    cases hb with
    | commandLine h' => exact absurd (mentions_said h') h
    | file _ h' => exact absurd (mentions_said h') h1
    | default => rfl

theorem listLine_det {title : Str} {g : Prop} {v : List Str} {a b : Str} (ha : ListLine title g v a) (hb : ListLine title g v b) : a = b := by
  cases ha with
  | none h => cases hb with | none => rfl | some h' => exact absurd h' h
  | some h => cases hb with | none h' => exact absurd h h' | some => rfl

theorem reports_det {env : Env} {print : Int → Str} {pc pf : List Opt} {a b : Str} (ha : Reports env print pc pf a) (hb : Reports env print pc pf b) : a = b := by
  obtain ⟨i, j, n, h1, h2, h3, rfl⟩ := ha
  obtain ⟨i', j', n', h1', h2', h3', rfl⟩ := hb
  rw [listLine_det h1 h1', level_det h3 h3']
  rcases h2 with ⟨hm, h2⟩ | ⟨hm, h2⟩ <;> rcases h2' with ⟨hm', h2'⟩ | ⟨hm', h2'⟩
  · rw [listLine_det h2 h2']
  · exact absurd hm hm'
  · exact absurd hm' hm
  · rw [listLine_det h2 h2']

theorem prints_det {env : Env} {print : Int → Str} {help : Str} {files : Str → Option Str} {pc : List Opt} {a b : Str} (ha : Prints env print help files pc a)
    (hb : Prints env print help files pc b) : a = b := by
  have same : ∀ {n n' text text' : Str} {pf pf' : Parsed}, FileNamed pc n → FileNamed pc n' → files n = some text → files n' = some text' →
      configFile env text = .ok pf → configFile env text' = .ok pf' → pf = pf' := by
    intro n n' text text' pf pf' h1 h2 h3 h4 h5 h6
    cases fileNamed_det h1 h2
    rw [h3] at h4; cases h4
    rw [h5] at h6; cases h6
    rfl
  have nofile : ∀ {n n' text : Str}, FileNamed pc n → FileNamed pc n' → files n = none → files n' = some text → False := by
    intro n n' text h1 h2 h3 h4
    cases fileNamed_det h1 h2
    rw [h3] at h4; cases h4
  cases ha with
  | noFile n hn hf =>
    cases hb with
    | noFile n' hn' hf' => rw [fileNamed_det hn hn']
    | help hn' hf' => exact (nofile hn hn' hf hf').elim
    | version hn' hf' => exact (nofile hn hn' hf hf').elim
    | report hn' hf' => exact (nofile hn hn' hf hf').elim
  | help hn hf hp hl hh =>
    cases hb with
    | noFile n' hn' hf' => exact (nofile hn' hn hf' hf).elim
    | help => rfl
    | version _ _ _ _ hh' => exact absurd hh hh'
    | report _ _ _ _ hh' => exact absurd hh hh'
  | version hn hf hp hl hh hv =>
    cases hb with
    | noFile n' hn' hf' => exact (nofile hn' hn hf' hf).elim
    | help _ _ _ _ hh' => exact absurd hh' hh
    | version => rfl
    | report _ _ _ _ _ hv' => exact absurd hv hv'
  | report hn hf hp hl hh hv hr =>
    cases hb with
    | noFile n' hn' hf' => exact (nofile hn' hn hf' hf).elim
    | help _ _ _ _ hh' => exact absurd hh' hh
    | version _ _ _ _ _ hv' => exact absurd hv' hv
    | report hn' hf' hp' _ _ _ hr' =>
      cases same hn hn' hf hf' hp hp'
      exact reports_det hr hr'

/-! ### The program -/

theorem load_fails {env : Env} {args : List Str} {pc : Parsed} (hlen : args.length < 2147483648) (h : commandLine env args = .ok pc) (hs : ¬ Storable env pc.options) :
    ∃ f, load pc {} = .error f := by
  rcases load_store (p := pc) (m := {}) with ⟨m, hm⟩ | hf
  · exact absurd ((stores_commandLine hlen h).1 ⟨m, .cons hm (.nil _)⟩) hs
  · exact hf

/-- What is done after the command line. -/
theorem runs {env : Env} {print : Int → Str} {help : Str} {args : List Str} {files : Str → Option Str} {pc : Parsed} {m : VarMap} (h : commandLine env args = .ok pc)
    (hst : store pc {} = (m, none)) :
    (∃ out, main env print help args files = .returns out ∧ Prints env print help files pc.options out) ∨
    (¬ ∃ out, Prints env print help files pc.options out) ∧ ∃ f, main env print help args files = .caught f ∧
      ((∃ n text, files n = some text ∧ configFile env text = .error f) ∨ ∃ text pf, configFile env text = .ok pf ∧ ∃ m', store pf m = (m', some f)) := by
  obtain ⟨es, n, hl, hn, hvar⟩ := first_load h hst
  have hmain : main env print help args files = match files n with
      | none => .returns (str% "can not open config file: " ++ n ++ ['\n'])
      | some text =>
        match configFile env text with
        | .error f => .caught f
        | .ok pf =>
          match load pf m with
          | .error f => .caught f
          | .ok (m, es') => report print help m (variable_ optVar (es ++ es')) := by
    unfold main
    simp only [h, hl, hvar]
    rfl
  rw [hmain]
  cases hfile : files n with
  | none => exact .inl ⟨_, rfl, .noFile n hn hfile⟩
  | some text =>
    have noway : (∀ pf, configFile env text = .ok pf → ¬ (¬ Mentions pc.options (str% "optimization") → AtMostOnce pf.options (str% "optimization") ∧ LevelReads env pf.options)) →
        ¬ ∃ out, Prints env print help files pc.options out := by
      rintro hno ⟨out, hp⟩
      have go : ∀ {n' text' : Str} {pf : Parsed}, FileNamed pc.options n' → files n' = some text' → configFile env text' = .ok pf →
          (¬ Mentions pc.options (str% "optimization") → AtMostOnce pf.options (str% "optimization") ∧ LevelReads env pf.options) → False := by
        intro n' text' pf h1 h2 h3 h4
        cases fileNamed_det hn h1
        rw [hfile] at h2
        cases h2
        exact hno _ h3 h4
      cases hp with
      | noFile n' hn' hf' => cases fileNamed_det hn hn'; rw [hfile] at hf'; cases hf'
      | help hn' hf' hp' hl' => exact go hn' hf' hp' hl'
      | version hn' hf' hp' hl' => exact go hn' hf' hp' hl'
      | report hn' hf' hp' hl' => exact go hn' hf' hp' hl'
    simp only
    cases hpf : configFile env text with
    | error f => exact .inr ⟨noway fun pf hpf' => (by rw [hpf] at hpf'; cases hpf'), f, rfl, .inl ⟨n, text, hfile, hpf⟩⟩
    | ok pf =>
      simp only
      have hS1 : Stores {} [(pc, false)] m := .cons hst (.nil _)
      cases hst' : store pf m with
      | mk m' e =>
        cases e with
        | some f =>
          have hload : load pf m = .error f := by unfold load; rw [hst']
          rw [hload]
          refine .inr ⟨noway fun pf' hpf' hl' => ?_, f, rfl, .inr ⟨text, pf, hpf, m', hst'⟩⟩
          rw [hpf] at hpf'
          cases hpf'
          obtain ⟨m2, hS2⟩ := (stores_file h hpf ⟨m, hS1⟩).2 hl'
          cases hS2 with
          | cons h1 h2 =>
            rw [hst] at h1
            cases h1
            cases h2 with
            | cons h3 _ => rw [hst'] at h3; cases h3
        | none =>
          have hS : Stores {} [(pc, false), (pf, false)] m' := .cons hst (.cons hst' (.nil _))
          have hcond := (stores_file h hpf ⟨m, hS1⟩).1 ⟨m', hS⟩
          obtain ⟨es', lv, hload, hlev, hov⟩ := second_load h hpf hst hst' es
          rw [hload]
          simp only
          left
          unfold report
          by_cases hh : Mentions pc.options (str% "help")
          · rw [if_pos ((switch_there h hpf hS (.inl rfl)).2 hh)]
            exact ⟨_, rfl, .help hn hfile hpf hcond hh⟩
          · rw [if_neg fun hx => hh ((switch_there h hpf hS (.inl rfl)).1 hx)]
            by_cases hv : Mentions pc.options (str% "version")
            · rw [if_pos ((switch_there h hpf hS (.inr rfl)).2 hv)]
              exact ⟨_, rfl, .version hn hfile hpf hcond hh hv⟩
            · rw [if_neg fun hx => hv ((switch_there h hpf hS (.inr rfl)).1 hx)]
              obtain ⟨inc, hi1, hi2⟩ := include_line h hpf hS (str% "Include paths are: ")
              obtain ⟨inp, hj1, hj2⟩ := input_line h hpf hS (str% "Input files are: ")
              simp only [hi1, hj1, hov]
              exact ⟨_, rfl, .report hn hfile hpf hcond hh hv ⟨inc, inp, lv, hi2, hj2, hlev, rfl⟩⟩

theorem identified_denotes (env : Env) : (∀ d ∈ (parser env).desc, ¬ CanonicalName d []) ∧
    ∀ d ∈ (parser env).desc, ∀ k, CanonicalName d k → (∃ d', Denotes (parser env) k d') ∨ Unknown (parser env) k := by
  refine ⟨fun d hd hk => ?_, fun d hd k hk => .inl ⟨d, .inl (identified env d hd k hk)⟩⟩
  simp only [parser, all, List.mem_cons, List.not_mem_nil, or_false] at hd
  rcases hd with rfl | rfl | rfl | rfl | rfl | rfl <;> rcases hk with ⟨h, -⟩ | ⟨h, -⟩ <;> cases h

end MultipleSources

/-- **C111.** The program returns 0 exactly if the command line is accepted, its options are given no more often than allowed, the optimization level is a
number, and the same holds for the configuration file, if there is one; and what it prints then is what the sources say. -/
theorem C111_returns (env : Env) (print : Int → Str) (help : Str) (args : List Str) (files : Str → Option Str) (hlen : args.length < 2147483648) (out : Str) :
    main env print help args files = .returns out ↔
      ∃ pc, commandLine env args = .ok pc ∧
        (∀ name ∈ [str% "version", str% "help", str% "config", str% "optimization"], AtMostOnce pc.options name) ∧ LevelReads env pc.options ∧
        Prints env print help files pc.options out := by
  have hall : ∀ pc : List Opt, Storable env pc ↔
      (∀ name ∈ [str% "version", str% "help", str% "config", str% "optimization"], AtMostOnce pc name) ∧ LevelReads env pc := by
    intro pc
    simp [Storable, and_assoc]
  cases h : commandLine env args with
  | error f =>
    refine ⟨fun hr => ?_, fun ⟨_, hc, _⟩ => by cases hc⟩
    unfold main at hr
    rw [h] at hr
    cases hr
  | ok pc =>
    by_cases hs : Storable env pc.options
    · obtain ⟨m, hS⟩ := (stores_commandLine hlen h).2 hs
      cases hS with
      | cons hst hnil =>
        cases hnil
        rcases runs (print := print) (help := help) (files := files) h hst with ⟨out', hm, hp⟩ | ⟨hno, f, hm, -⟩
        · rw [hm]
          constructor
          · intro he
            cases he
            exact ⟨pc, rfl, ((hall _).1 hs).1, ((hall _).1 hs).2, hp⟩
          · rintro ⟨pc', hc, -, -, hp'⟩
            cases hc
            rw [prints_det hp hp']
        · rw [hm]
          constructor
          · intro he; cases he
          · rintro ⟨pc', hc, -, -, hp'⟩
            cases hc
            exact absurd ⟨out, hp'⟩ hno
    · obtain ⟨f, hf⟩ := load_fails hlen h hs
      constructor
      · intro hr
        unfold main at hr
        rw [h] at hr
        simp only [hf] at hr
        cases hr
      · rintro ⟨pc', hc, h1, h2, -⟩
        cases hc
        exact absurd ((hall _).2 ⟨h1, h2⟩) hs

/-- **C111, otherwise:** the program ends in its handler, with an exception of the library (unless the file has a line `[]`, see C21). In particular the
optimization level is never read before it has a value. -/
theorem C111_otherwise (env : Env) (print : Int → Str) (help : Str) (args : List Str) (files : Str → Option Str)
    (hl : ∀ n text, files n = some text → EveryLine text fun l => ¬ Says l (str% "[]")) :
    (∃ out, main env print help args files = .returns out) ∨ ∃ f, main env print help args files = .caught f ∧ LibraryException f := by
  cases h : commandLine env args with
  | error f =>
    refine .inr ⟨f, by unfold main; rw [h], ?_⟩
    rw [commandLine_eq] at h
    unfold Cmdline.parse at h
    cases hr : (parser env).run args with
    | ok os => rw [hr] at h; cases h
    | error g =>
      rw [hr] at h
      cases h
      exact commandLine_library (parser env) rfl (identified_denotes env).1 (identified_denotes env).2 args _ hr
  | ok pc =>
    have hdesc := (commandLine_run h).1
    cases hst : store pc {} with
    | mk m e =>
      cases e with
      | some f =>
        refine .inr ⟨f, by unfold main MultipleSources.load; simp only [h, hst], ?_⟩
        refine store_library (P := []) (by simp) (.nil _) (fun name => ⟨typeOf name, fun q hq d hd => ?_⟩) hst
        cases List.mem_singleton.1 hq
        exact narrow_name (.inl hdesc) hd
      | none =>
        rcases runs (print := print) (help := help) (files := files) h hst with ⟨out, hm, -⟩ | ⟨-, f, hm, ⟨n, text, hf, hp⟩ | ⟨text, pf, hp, m', hs⟩⟩
        · exact .inl ⟨out, hm⟩
        · exact .inr ⟨f, hm, configFile_library text _ false (hl n text hf) f hp⟩
        · refine .inr ⟨f, hm, store_library (P := [(pc, false)]) (by simp) (.cons hst (.nil _)) (fun name => ⟨typeOf name, fun q hq d hd => ?_⟩) hs⟩
          have hfdesc : pf.desc = inFile env := file_desc hp
          simp only [List.mem_cons, List.not_mem_nil, or_false] at hq
          rcases hq with rfl | rfl
          · exact narrow_name (.inr hfdesc) hd
          · exact narrow_name (.inl hdesc) hd

def sourcesEnv : Env := { Test.env with lex := fun _ s => if s = Test.L "3" then some 3 else if s = Test.L "5" then some 5 else none }
def sourcesPrint (n : Int) : Str := if n = 3 then Test.L "3" else if n = 5 then Test.L "5" else Test.L "10"
def sourcesFiles (n : Str) : Option Str :=
  if n = Test.L "a.cfg" then some (Test.L "optimization=5\ninclude-path=b\ninput-file=z\n")
  else if n = Test.L "b.cfg" then some (Test.L "optimization=5\noptimization=3\n")
  else none
def sourcesDemo (args : List String) : MultipleSources.Outcome := main sourcesEnv sourcesPrint (Test.L "HELP") (args.map Test.L) sourcesFiles

set_option maxRecDepth 8000 in
/-- The command line wins over the file, include paths add up, and `opt` has the value of the file if the command line has none. -/
example : sourcesDemo ["--optimization", "3", "-Ia", "-c", "a.cfg", "x", "y"] =
      .returns (Test.L "Include paths are: a b \nInput files are: x y \nOptimization level is 3\n") ∧
    sourcesDemo ["-ca.cfg"] = .returns (Test.L "Include paths are: b \nInput files are: z \nOptimization level is 5\n") ∧
    sourcesDemo ["-ca.cfg", "--help", "-v"] = .returns (Test.L "HELP\n") := ⟨rfl, rfl, rfl⟩

set_option maxRecDepth 8000 in
/-- Help is only printed if there is a configuration file; and the second level in the file counts only if there is none on the command line. -/
example : sourcesDemo ["--help"] = .returns (Test.L "can not open config file: multiple_sources.cfg\n") ∧
    (∃ f, sourcesDemo ["--help", "-cb.cfg"] = .caught f ∧ LibraryException f) ∧
    sourcesDemo ["--help", "-cb.cfg", "--optimization=3"] = .returns (Test.L "HELP\n") := ⟨rfl, ⟨_, rfl, trivial⟩, rfl⟩

end PO
