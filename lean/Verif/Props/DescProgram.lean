import Verif.Spec.DescProgram
import Verif.Props.Usual
/-
C118: what example/options_description.cpp prints.
-/
namespace PO.DescProgram
open Spec
open Hierarchy (opt strings numberOr occ_ne occ_nil)
open MultipleSources (Outcome load variable_ vectorLine load_eq line_none line_some variable_assigned listLine_det load_store occ_length)

def dHelp (env : Env) : OptionDesc := { shortName := [], longNames := [str% "help"], description := [], semantic := untypedValue env true }
def dLevel (env : Env) : OptionDesc := { shortName := [], longNames := [str% "optimization"], description := [], semantic := level.toSemantic env }
def dVerbose (env : Env) : OptionDesc := { shortName := str% "-v", longNames := [str% "verbose"], description := [], semantic := verbose.toSemantic env }
def dListen (env : Env) : OptionDesc := { shortName := str% "-l", longNames := [str% "listen"], description := [], semantic := listen.toSemantic env }
def dInclude (env : Env) : OptionDesc := { shortName := str% "-I", longNames := [str% "include-path"], description := [], semantic := strings.toSemantic env }
def dInput (env : Env) : OptionDesc := { shortName := [], longNames := [str% "input-file"], description := [], semantic := strings.toSemantic env }

theorem desc_eq (env : Env) : desc env = [dHelp env, dLevel env, dVerbose env, dListen env, dInclude env, dInput env] := rfl

def parser (env : Env) : Cmdline := { desc := desc env, positional := some { trailing := str% "input-file" } }

theorem commandLine_eq (env : Env) (args : List Str) : commandLine env args = (parser env).parse args := rfl

theorem mem_desc {env : Env} {d : OptionDesc} : d ∈ desc env ↔ d = dHelp env ∨ d = dLevel env ∨ d = dVerbose env ∨ d = dListen env ∨ d = dInclude env ∨ d = dInput env := by
  rw [desc_eq]
  simp only [List.mem_cons, List.not_mem_nil, or_false]

theorem position_name {env : Env} {q : Positional} (hq : (parser env).positional = some q) {i : Nat} {n : Str} (h : q.nameForPosition i = .ok n) : n = str% "input-file" := by
  cases hq
  unfold Positional.nameForPosition at h
  simp only [List.getElem?_nil] at h
  split at h
  · cases h
  · exact (Except.ok.inj h).symm

theorem typed_level : WellTyped level := ⟨by rintro q h; cases h; rfl, by rintro q h; cases h⟩
theorem typed_verbose : WellTyped verbose := ⟨(by rintro q h; cases h), by rintro q h; cases h; rfl⟩
theorem typed_listen : WellTyped listen := ⟨by rintro q h; cases h; rfl, by rintro q h; cases h; rfl⟩
theorem typed_strings : WellTyped strings := ⟨(by rintro q h; cases h), by rintro q h; cases h⟩

theorem usual (env : Env) : UsualParser env (parser env) := by
  refine usualParser_of rfl (show active Style.defaultStyle Style.longCaseInsensitive = false from rfl)
    (show active Style.defaultStyle Style.shortCaseInsensitive = false from rfl) ?_ ?_ ?_ ?_
  · intro d hd
    rcases mem_desc.1 hd with rfl | rfl | rfl | rfl | rfl | rfl <;> exact List.cons_ne_nil _ _
  · show [str% "help", str% "optimization", str% "-v", str% "verbose", str% "-l", str% "listen", str% "-I", str% "include-path", str% "input-file"].Nodup
    decide
  · intro d hd
    rcases mem_desc.1 hd with rfl | rfl | rfl | rfl | rfl | rfl
    · exact .untyped true
    · exact .typed level typed_level rfl
    · exact .typed verbose typed_verbose rfl
    · exact .typed listen typed_listen rfl
    · exact .typed strings typed_strings rfl
    · exact .typed strings typed_strings rfl
  · intro q hq i n h
    exact ⟨dInput env, mem_desc.2 (by simp), (position_name hq h).symm⟩

theorem minmax (env : Env) : ∀ d ∈ (parser env).desc, d.semantic.minTokens ≤ d.semantic.maxTokens := by
  intro d hd
  rcases mem_desc.1 hd with rfl | rfl | rfl | rfl | rfl | rfl
  · exact Nat.le_refl 0
  · exact Nat.le_refl 1
  · exact Nat.zero_le 1
  · exact Nat.zero_le 1
  · exact Nat.le_refl 1
  · exact Nat.le_refl 1

theorem said_eq (os : List Opt) (name : Str) : said os name = (tokensOf os name).flatten := rfl

theorem switch_iff {env : Env} {L : List (List Str)} (hL : ∀ l ∈ L, l.length ≤ 0) : (∃ r, Gains env (untypedValue env true) L r) ↔ L.length ≤ 1 := by
  simp only [gains_untyped]
  match L with
  | [] => simp
  | [l] =>
    have := hL l (by simp)
    have : l = [] := List.length_eq_zero_iff.1 (Nat.le_zero.1 this)
    subst this
    simp
  | _ :: _ :: _ => simp

theorem level_iff {env : Env} {L : List (List Str)} (hL : ∀ l ∈ L, 1 ≤ l.length ∧ l.length ≤ 1) :
    (∃ r, Gains env (level.toSemantic env) L r) ↔ L.length ≤ 1 ∧ ∀ t ∈ L.flatten, ∃ n, env.lex 0 t = some n := by
  simp only [gains_number (t := level) rfl typed_level rfl rfl]
  match L with
  | [] => simp
  | [l] =>
    have := hL l (by simp)
    obtain ⟨x, rfl⟩ := List.length_eq_one_iff.1 (Nat.le_antisymm this.2 this.1)
    constructor
    · rintro ⟨r, ⟨h, -⟩ | ⟨y, n, h, hn, -⟩⟩
      · cases h
      · cases h; simp [hn]
    · rintro ⟨-, h⟩
      obtain ⟨n, hn⟩ := h x (by simp)
      exact ⟨_, .inr ⟨x, n, rfl, hn, rfl⟩⟩
  | _ :: _ :: _ => simp

theorem implicit_iff {env : Env} {t : TypedValue} (hty : t.type = .scalar (.lex 0)) (ht : WellTyped t) (hw : t.wide = false) {iv : AVal} {s : Str}
    (hi : t.implicit = some (iv, s)) {L : List (List Str)} (hL : ∀ l ∈ L, l.length ≤ 1) :
    (∃ r, Gains env (t.toSemantic env) L r) ↔ (∀ t ∈ L.flatten, ∃ n, env.lex 0 t = some n) ∧ ∀ y ∈ L.tail, y = [] := by
  simp only [gains_implicit hty ht hw hi]
  have hflat : ∀ rest : List (List Str), (∀ y ∈ rest, y = []) → rest.flatten = [] := by
    intro rest h
    rw [List.flatten_eq_nil_iff]
    exact h
  match L with
  | [] => simp
  | [] :: rest =>
    constructor
    · rintro ⟨r, ⟨h, -⟩ | ⟨rest, h, h1, -⟩ | ⟨x, n, rest, h, -⟩⟩
      · cases h
      · cases h
        refine ⟨?_, h1⟩
        rw [List.flatten_cons, hflat _ h1]
        simp
      · cases h
    · rintro ⟨-, h⟩
      exact ⟨_, .inr (.inl ⟨rest, rfl, h, rfl⟩)⟩
  | [x] :: rest =>
    constructor
    · rintro ⟨r, ⟨h, -⟩ | ⟨rest, h, h1, -⟩ | ⟨x, n, rest, h, h1, hn, -⟩⟩
      · cases h
      · cases h
      · cases h
        refine ⟨?_, h1⟩
        rw [List.flatten_cons, hflat _ h1]
        simp [hn]
    · rintro ⟨h1, h⟩
      obtain ⟨n, hn⟩ := h1 x (by simp)
      exact ⟨_, .inr (.inr ⟨x, n, rest, rfl, h, hn, rfl⟩)⟩
  | (a :: b :: l) :: rest =>
    have := hL (a :: b :: l) (by simp)
    simp at this

theorem implicit_number {env : Env} {t : TypedValue} (hty : t.type = .scalar (.lex 0)) (ht : WellTyped t) (hw : t.wide = false) {k : Int} {s : Str}
    (hi : t.implicit = some (.scalar (.lex 0 k), s)) {os : List Opt} {name : Str} {v : AVal} (h : Gains env (t.toSemantic env) (tokensOf os name) (some v))
    (dflt : Option Int) : ∃ n, v = .scalar (.lex 0 n) ∧ Number env (some k) dflt os name n := by
  have hlast : ∀ (l : List Str) (rest : List (List Str)), (∀ y ∈ rest, y = []) → l = [] ∨ rest ≠ [] → (l :: rest).getLast? = some [] := by
    intro l rest hall hne
    rw [List.getLast?_eq_some_getLast (List.cons_ne_nil _ _)]
    have hmem := List.getLast_mem (List.cons_ne_nil l rest)
    by_cases hr : rest = []
    · subst hr
      rcases hne with rfl | h
      · rfl
      · exact absurd rfl h
    · rw [List.getLast_cons hr, hall _ (List.getLast_mem hr)]
  rcases (gains_implicit hty ht hw hi).1 h with ⟨-, h⟩ | ⟨rest, h1, h2, h3⟩ | ⟨x, n, rest, h1, h2, hn, h3⟩
  · cases h
  · cases h3
    exact ⟨k, rfl, .bare (by rw [h1]; exact hlast _ _ h2 (.inl rfl)) rfl⟩
  · by_cases hr : rest = []
    · subst hr
      rw [if_pos rfl] at h3
      cases h3
      exact ⟨n, rfl, .written h1 hn⟩
    · rw [if_neg hr] at h3
      cases h3
      exact ⟨k, rfl, .bare (by rw [h1]; exact hlast _ _ h2 (.inr hr)) rfl⟩

theorem strings_gain {env : Env} (L : List (List Str)) : ∃ r, Gains env (strings.toSemantic env) L r := by
  by_cases hne : L = []
  · exact ⟨none, (gains_strings (t := strings) rfl typed_strings rfl rfl).2 (.inl ⟨hne, rfl⟩)⟩
  · exact ⟨_, (gains_strings (t := strings) rfl typed_strings rfl rfl).2 (.inr ⟨hne, rfl⟩)⟩

/-- The condition under which the program does not end with an exception. -/
def Storable (env : Env) (os : List Opt) : Prop :=
  AtMostOnce os (str% "help") ∧ AtMostOnce os (str% "optimization") ∧ IsNumber env 0 os (str% "optimization") ∧ Repeatable env os (str% "verbose") ∧
    Repeatable env os (str% "listen")

theorem not_position (env : Env) {d : OptionDesc} (h : d.own ≠ str% "input-file") : ∀ q, (parser env).positional = some q → ∀ i, q.nameForPosition i ≠ .ok d.own :=
  fun _ hq _ hn => h (position_name hq hn)

theorem stored_iff {env : Env} {args : List Str} {p : Parsed} (hlen : args.length < 2147483648) (h : commandLine env args = .ok p) :
    (∃ m, store p {} = (m, none)) ↔ Storable env p.options := by
  rw [commandLine_eq] at h
  have hv := C117_tokens env (parser env) (usual env) (minmax env) args hlen p h
  rw [C117_stored env _ (usual env) args p h]
  have hH : dHelp env ∈ desc env := mem_desc.2 (by simp)
  have hL : dLevel env ∈ desc env := mem_desc.2 (by simp)
  have hV : dVerbose env ∈ desc env := mem_desc.2 (by simp)
  have hP : dListen env ∈ desc env := mem_desc.2 (by simp)
  have e1 := switch_iff (env := env) fun l hl => (hv (dHelp env) hH (not_position env (by show str% "help" ≠ _; decide)) l hl).2
  have e2 := level_iff (env := env) (hv (dLevel env) hL (not_position env (by show str% "optimization" ≠ _; decide)))
  have e3 := implicit_iff (env := env) (t := verbose) rfl typed_verbose rfl rfl fun l hl => (hv (dVerbose env) hV (not_position env (by show str% "verbose" ≠ _; decide)) l hl).2
  have e4 := implicit_iff (env := env) (t := listen) rfl typed_listen rfl rfl fun l hl => (hv (dListen env) hP (not_position env (by show str% "listen" ≠ _; decide)) l hl).2
  constructor
  · intro hall
    obtain ⟨h1, h2⟩ := e2.1 (hall _ hL)
    exact ⟨occ_length.1 (e1.1 (hall _ hH)), occ_length.1 h1, h2, e3.1 (hall _ hV), e4.1 (hall _ hP)⟩
  · rintro ⟨h1, h2, h3, h4, h5⟩ d hd
    rcases mem_desc.1 hd with rfl | rfl | rfl | rfl | rfl | rfl
    · exact e1.2 (occ_length.2 h1)
    · exact e2.2 ⟨occ_length.2 h2, h3⟩
    · exact e3.2 h4
    · exact e4.2 h5
    · exact strings_gain _
    · exact strings_gain _

theorem line {env : Env} {args : List Str} {p : Parsed} (h : (parser env).parse args = .ok p) {m : VarMap} (hm : store p {} = (m, none)) {d : OptionDesc}
    (hd : d ∈ desc env) (hs : d.semantic = strings.toSemantic env) (title : Str) :
    ∃ l, vectorLine m d.own title = .ok l ∧ ListLine title (Mentions p.options d.own) (said p.options d.own) l := by
  by_cases hg : Mentions p.options d.own
  · obtain ⟨r, hr, hv⟩ := C117_given env _ (usual env) args p h m hm d hd hg
    rw [hs] at hr
    rcases (gains_strings (t := strings) rfl typed_strings rfl rfl).1 hr with ⟨h0, -⟩ | ⟨-, rfl⟩
    · exact absurd h0 (occ_ne hg)
    · exact ⟨_, line_some hv rfl, .some hg⟩
  · refine ⟨[], line_none ?_, .none hg⟩
    rw [C117_not_given env _ (usual env) args p h m hm d hd hg, hs]
    rfl

theorem variable_level (env : Env) : VariableOf env (desc env) optVar (dLevel env) := by
  refine ⟨mem_desc.2 (by simp), ⟨level, rfl, rfl⟩, ?_⟩
  intro d hd hne
  rcases mem_desc.1 hd with rfl | rfl | rfl | rfl | rfl | rfl
  · exact .inl ⟨true, rfl⟩
  · exact absurd rfl hne
  · exact .inr ⟨verbose, rfl, by decide⟩
  · exact .inr ⟨listen, rfl, by decide⟩
  · exact .inr ⟨strings, rfl, by decide⟩
  · exact .inr ⟨strings, rfl, by decide⟩

theorem variable_port (env : Env) : VariableOf env (desc env) portVar (dListen env) := by
  refine ⟨mem_desc.2 (by simp), ⟨listen, rfl, rfl⟩, ?_⟩
  intro d hd hne
  rcases mem_desc.1 hd with rfl | rfl | rfl | rfl | rfl | rfl
  · exact .inl ⟨true, rfl⟩
  · exact .inr ⟨level, rfl, by decide⟩
  · exact .inr ⟨verbose, rfl, by decide⟩
  · exact absurd rfl hne
  · exact .inr ⟨strings, rfl, by decide⟩
  · exact .inr ⟨strings, rfl, by decide⟩

theorem runs {env : Env} (print : Int → Str) (help : Str) {args : List Str} {p : Parsed} (h : commandLine env args = .ok p) {m : VarMap} (hm : store p {} = (m, none)) :
    ∃ out, main env print help args = .returns out ∧ DescPrints env print help p.options out := by
  have h' := h
  rw [commandLine_eq] at h
  have hn : m.notify.2 = none := by
    rw [C117_notify env _ (usual env) args p h m hm]
    rintro d hd ⟨hr, -⟩
    rcases mem_desc.1 hd with rfl | rfl | rfl | rfl | rfl | rfl <;> cases hr
  have hne : m.notify = (m.notify.1, none) := by rw [← hn]
  unfold main
  rw [h']
  dsimp only
  rw [load_eq hm hn]
  dsimp only
  -- help
  have hH : dHelp env ∈ desc env := mem_desc.2 (by simp)
  by_cases hg : Mentions p.options (str% "help")
  · obtain ⟨r, -, hv⟩ := C117_given env _ (usual env) args p h m hm (dHelp env) hH hg
    have hv : m.map.get? (str% "help") = _ := hv
    exact ⟨_, by unfold report; rw [hv]; rfl, .help hg⟩
  have hv : m.map.get? (str% "help") = none := C117_not_given env _ (usual env) args p h m hm (dHelp env) hH hg
  -- the lists
  obtain ⟨inc, h1, h2⟩ := line h hm (d := dInclude env) (mem_desc.2 (by simp)) rfl (str% "Include paths are: ")
  obtain ⟨inp, h3, h4⟩ := line h hm (d := dInput env) (mem_desc.2 (by simp)) rfl (str% "Input files are: ")
  have h1 : vectorLine m (str% "include-path") _ = _ := h1
  have h3 : vectorLine m (str% "input-file") _ = _ := h3
  -- verbosity
  have hV : dVerbose env ∈ desc env := mem_desc.2 (by simp)
  obtain ⟨verb, h5, h6⟩ : ∃ l, verboseLine print m = .ok l ∧ VerboseLine env print p.options l := by
    by_cases hg : Mentions p.options (str% "verbose")
    · obtain ⟨r, hr, hv⟩ := C117_given env _ (usual env) args p h m hm (dVerbose env) hV hg
      cases r with
      | none => exact absurd rfl (hr.some (occ_ne hg))
      | some v =>
        obtain ⟨n, rfl, hn⟩ := implicit_number (t := verbose) rfl typed_verbose rfl rfl hr none
        have hv : m.map.get? (str% "verbose") = _ := hv
        exact ⟨_, by unfold verboseLine; rw [hv]; rfl, .some hn⟩
    · have hv : m.map.get? (str% "verbose") = none := C117_not_given env _ (usual env) args p h m hm (dVerbose env) hV hg
      exact ⟨[], by unfold verboseLine; rw [hv], .none hg⟩
  -- the variables
  obtain ⟨n, h7, h8⟩ : ∃ n, variable_ optVar m.notify.1 = some (.scalar (.lex 0 n)) ∧ Number env none (some 10) p.options (str% "optimization") n := by
    obtain ⟨g1, g2⟩ := C117_variable env _ (usual env) args p h m hm _ hne optVar (dLevel env) (variable_level env)
    by_cases hg : Mentions p.options (str% "optimization")
    · obtain ⟨v, hv, ha⟩ := g1 hg
      rcases (gains_number (t := level) rfl typed_level rfl rfl).1 hv with ⟨h0, -⟩ | ⟨x, n, hx, hn, hv⟩
      · exact absurd h0 (occ_ne hg)
      · cases hv
        exact ⟨n, by rw [variable_assigned, ha]; rfl, .written hx hn⟩
    · exact ⟨10, by rw [variable_assigned, g2 hg]; rfl, .absent hg rfl⟩
  obtain ⟨k, h9, h10⟩ : ∃ n, variable_ portVar m.notify.1 = some (.scalar (.lex 0 n)) ∧ Number env (some 1001) (some 0) p.options (str% "listen") n := by
    obtain ⟨g1, g2⟩ := C117_variable env _ (usual env) args p h m hm _ hne portVar (dListen env) (variable_port env)
    by_cases hg : Mentions p.options (str% "listen")
    · obtain ⟨v, hv, ha⟩ := g1 hg
      obtain ⟨n, rfl, hn⟩ := implicit_number (t := listen) rfl typed_listen rfl rfl hv (some 0)
      exact ⟨n, by rw [variable_assigned, ha]; rfl, hn⟩
    · exact ⟨0, by rw [variable_assigned, g2 hg]; rfl, .absent hg rfl⟩
  refine ⟨_, ?_, .report hg h2 h4 h6 h8 h10⟩
  unfold report
  rw [hv, if_neg (by simp), h1]
  dsimp only
  rw [h3]
  dsimp only
  rw [h5, h7, h9]

theorem number_det {env : Env} {i d : Option Int} {os : List Opt} {name : Str} {a b : Int} (ha : Number env i d os name a) (hb : Number env i d os name b) : a = b := by
  have hne : ∀ {L : List (List Str)}, tokensOf os name = L → L ≠ [] → Mentions os name := by
    intro L h hL
    by_cases hm : Mentions os name
    · exact hm
    · unfold tokensOf at h
      rw [occ_nil hm] at h
      exact absurd h.symm hL
  cases ha with
  | absent h hd =>
    cases hb with
    | absent _ hd' => exact Option.some.inj (hd.symm.trans hd')
    | written h' => exact absurd (hne h' (by simp)) h
    | bare h' =>
      exact absurd (hne rfl (by intro h0; rw [h0] at h'; cases h')) h
  | written h hn =>
    cases hb with
    | absent h' => exact absurd (hne h (by simp)) h'
    | written h' hn' =>
      cases h.symm.trans h'
      exact Option.some.inj (hn.symm.trans hn')
    | bare h' => rw [h] at h'; cases h'
  | bare h hi =>
    cases hb with
    | absent h' => exact absurd (hne rfl (by intro h0; rw [h0] at h; cases h)) h'
    | written h' => rw [h'] at h; cases h
    | bare _ hi' => exact Option.some.inj (hi.symm.trans hi')

theorem verboseLine_det {env : Env} {print : Int → Str} {os : List Opt} {a b : Str} (ha : VerboseLine env print os a) (hb : VerboseLine env print os b) : a = b := by
  have hno : ∀ {n}, ¬ Mentions os (str% "verbose") → ¬ Number env (some 1) none os (str% "verbose") n := by
    intro n hm h
    have h0 : tokensOf os (str% "verbose") = [] := by unfold tokensOf; rw [occ_nil hm]; rfl
    cases h with
    | absent _ h => cases h
    | written h => rw [h0] at h; cases h
    | bare h => rw [h0] at h; cases h
  cases ha with
  | none h => cases hb with
    | none => rfl
    | some h' => exact absurd h' (hno h)
  | some h => cases hb with
    | none h' => exact absurd h (hno h')
    | some h' => rw [number_det h h']

theorem prints_det {env : Env} {print : Int → Str} {help : Str} {os : List Opt} {a b : Str} (ha : DescPrints env print help os a) (hb : DescPrints env print help os b) : a = b := by
  cases ha with
  | help h => cases hb with
    | help => rfl
    | report h' => exact absurd h h'
  | report h h1 h2 h3 h4 h5 => cases hb with
    | help h' => exact absurd h' h
    | report _ g1 g2 g3 g4 g5 => rw [listLine_det h1 g1, listLine_det h2 g2, verboseLine_det h3 g3, number_det h4 g4, number_det h5 g5]

/-- **C118.** What the program prints when it returns 0: it does so exactly if the command line is accepted, `--help` and `--optimization` are given at
most once, and all numbers can be read. -/
theorem C118_returns (env : Env) (print : Int → Str) (help : Str) (args : List Str) (hlen : args.length < 2147483648) (out : Str) :
    main env print help args = .returns out ↔
      ∃ p, commandLine env args = .ok p ∧ AtMostOnce p.options (str% "help") ∧ AtMostOnce p.options (str% "optimization") ∧
        IsNumber env 0 p.options (str% "optimization") ∧ Repeatable env p.options (str% "verbose") ∧ Repeatable env p.options (str% "listen") ∧
        DescPrints env print help p.options out := by
  constructor
  · intro h
    cases hp : commandLine env args with
    | error f => unfold main at h; rw [hp] at h; cases h
    | ok p =>
      rcases load_store (p := p) (m := {}) with ⟨m, hm⟩ | ⟨f, hf⟩
      · obtain ⟨out', h1, h2⟩ := runs print help hp hm
        cases h1.symm.trans h
        obtain ⟨g1, g2, g3, g4, g5⟩ := (stored_iff hlen hp).1 ⟨m, hm⟩
        exact ⟨p, rfl, g1, g2, g3, g4, g5, h2⟩
      · unfold main at h
        rw [hp] at h
        dsimp only at h
        rw [hf] at h
        cases h
  · rintro ⟨p, hp, g1, g2, g3, g4, g5, h2⟩
    obtain ⟨m, hm⟩ := (stored_iff hlen hp).2 ⟨g1, g2, g3, g4, g5⟩
    obtain ⟨out', h1, h3⟩ := runs print help hp hm
    rw [h1, prints_det h2 h3]

/-- Otherwise an exception of the library gets to the handler; in particular the variables are never read without a value. -/
theorem C118_otherwise (env : Env) (print : Int → Str) (help : Str) (args : List Str) :
    (∃ out, main env print help args = .returns out) ∨ ∃ f, main env print help args = .caught f ∧ LibraryException f := by
  cases hp : commandLine env args with
  | error f => exact .inr ⟨f, by unfold main; rw [hp], C117_otherwise env _ (usual env) args f (.inl hp)⟩
  | ok p =>
    cases hst : store p {} with
    | mk m e =>
      cases e with
      | some f => exact .inr ⟨f, by unfold main load; simp only [hp, hst], C117_otherwise env _ (usual env) args f (.inr (.inl ⟨p, m, hp, hst⟩))⟩
      | none =>
        obtain ⟨out, h, -⟩ := runs print help hp hst
        exact .inl ⟨out, h⟩

end PO.DescProgram
namespace PO
open Spec

def Ex.descPrint (n : Int) : Str := if n = 0 then ['0'] else if n = 1 then ['1'] else if n = 1001 then Test.L "1001" else sourcesPrint n
def Ex.descDemo (args : List String) : MultipleSources.Outcome := DescProgram.main sourcesEnv Ex.descPrint (Test.L "HELP") (args.map Test.L)

set_option maxRecDepth 8000 in
example : Ex.descDemo ["-v", "3", "-Ia", "f", "--include-path", "b", "-l", "--", "-g"] = .returns (Test.L
    "Include paths are: a b \nInput files are: f -g \nVerbosity enabled.  Level is 3\nOptimization level is 10\nListen port is 1001\n") ∧
    Ex.descDemo ["--verb=3", "-v", "--opt=5"] = .returns (Test.L "Verbosity enabled.  Level is 1\nOptimization level is 5\nListen port is 0\n") ∧
    (∀ out, Ex.descDemo ["-v", "-v", "3"] ≠ .returns out) ∧ Ex.descDemo ["--help", "x"] = .returns (Test.L "Usage: options_description [options]\nHELP") :=
  ⟨by rfl, by rfl, fun out h => (by cases h), by rfl⟩

end PO
