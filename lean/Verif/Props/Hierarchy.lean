import Verif.Spec.Hierarchy
import Verif.Props.Several
/-
C108: the order of precedence in example/options_heirarchy.cpp.
-/
namespace PO
open Spec Hierarchy

namespace Hierarchy

theorem load_ok {p : Except Fail Parsed} {m m' : VarMap} (h : load p m = .ok m') : ∃ q, p = .ok q ∧ store q m = (m', none) := by
  unfold load at h
  cases p with
  | error f => cases h
  | ok q =>
    simp only at h
    cases hs : store q m with
    | mk m1 r =>
      rw [hs] at h
      cases r with
      | some f => cases h
      | none =>
        simp only at h
        cases hn : m1.notify with
        | mk es r =>
          rw [hn] at h
          cases r with
          | some f => cases h
          | none => cases h; exact ⟨q, rfl, hs⟩

theorem parse_desc {c : Cmdline} {args : List Str} {p : Parsed} (h : c.parse args = .ok p) : p.desc = c.desc := by
  unfold Cmdline.parse at h
  cases hr : c.run args with
  | error f => rw [hr] at h; cases h
  | ok os => rw [hr] at h; cases h; rfl

theorem env_desc {environ : List Str} {desc : List OptionDesc} {f : Str → Str} {p : Parsed} (h : parseEnvironment environ desc f = .ok p) : p.desc = desc := by
  unfold parseEnvironment at h
  cases hr : parseEnvironmentLoop f environ with
  | error f => rw [hr] at h; cases h
  | ok os => rw [hr] at h; cases h; rfl

theorem file_desc {text : Str} {desc : List OptionDesc} {u : Bool} {p : Parsed} (h : parseConfigFile text desc u = .ok p) : p.desc = desc := by
  unfold parseConfigFile at h
  cases h1 : allowedNames desc [] with
  | error f => rw [h1] at h; cases h
  | ok S =>
    rw [h1] at h
    simp only at h
    cases h2 : ConfigIter.make S u with
    | error f => rw [h2] at h; cases h
    | ok it =>
      rw [h2] at h
      simp only at h
      cases h3 : it.lines [] (getlines '\n' text) with
      | error f => rw [h3] at h; cases h
      | ok os => rw [h3] at h; cases h; rfl

theorem stores_append {m m1 m2 : VarMap} {a b : List (Parsed × Bool)} (h : Stores m a m1) (h' : Stores m1 b m2) : Stores m (a ++ b) m2 := by
  induction h with
  | nil => exact h'
  | cons h _ ih => exact .cons h (ih h')

theorem loadFile_ok {env : Env} {files : Str → Option Str} {n : Str} {m m' : VarMap} (h : loadFile env files n m = .ok m') :
    ∃ ps : List Parsed, FilesSay env files [n] (ps.map (·.options)) ∧ (∀ p ∈ ps, p.desc = configOnlyOptions env ++ commonOptions env) ∧
      Stores m (ps.map (·, false)) m' := by
  unfold loadFile at h
  cases hf : files n with
  | none => rw [hf] at h; cases h; exact ⟨[], .missing hf .nil, by simp, .nil _⟩
  | some text =>
    rw [hf] at h
    obtain ⟨q, h1, h2⟩ := load_ok h
    exact ⟨[q], .read hf h1 .nil, by simpa using file_desc h1, .cons h2 (.nil _)⟩

theorem FilesSay.append {env : Env} {files : Str → Option Str} {a b : List Str} {fa fb : List (List Opt)} (h : FilesSay env files a fa) (h' : FilesSay env files b fb) :
    FilesSay env files (a ++ b) (fa ++ fb) := by
  induction h with
  | nil => exact h'
  | missing h _ ih => exact .missing h ih
  | read h hp _ ih => exact .read h hp ih

theorem FilesSay.det {env : Env} {files : Str → Option Str} {a : List Str} {f g : List (List Opt)} (h : FilesSay env files a f) (h' : FilesSay env files a g) : f = g := by
  induction h generalizing g with
  | nil => cases h'; rfl
  | missing h _ ih =>
    cases h' with
    | missing _ t => exact ih t
    | read h1 => rw [h] at h1; cases h1
  | read h hp _ ih =>
    cases h' with
    | missing h1 => rw [h] at h1; cases h1
    | read h1 hp1 t =>
      rw [h] at h1; cases h1
      rw [hp] at hp1; cases hp1
      rw [ih t]

theorem SourcesSay.det {env : Env} {args environ : List Str} {files : Str → Option Str} {a b : List (List Opt)} (h : SourcesSay env args environ files a)
    (h' : SourcesSay env args environ files b) : a = b := by
  obtain ⟨pc, pe, fs, h1, h2, h3, rfl⟩ := h
  obtain ⟨pc', pe', fs', h1', h2', h3', rfl⟩ := h'
  rw [h1] at h1'; cases h1'
  rw [h2] at h2'; cases h2'
  rw [FilesSay.det h3 h3']

theorem loadFiles_ok {env : Env} {files : Str → Option Str} {ns : List Str} {m m' : VarMap} (h : loadFiles env files ns m = .ok m') :
    ∃ ps : List Parsed, FilesSay env files ns (ps.map (·.options)) ∧ (∀ p ∈ ps, p.desc = configOnlyOptions env ++ commonOptions env) ∧
      Stores m (ps.map (·, false)) m' := by
  induction ns generalizing m with
  | nil => rw [loadFiles] at h; cases h; exact ⟨[], .nil, by simp, .nil _⟩
  | cons n ns ih =>
    rw [loadFiles] at h
    cases hf : loadFile env files n m with
    | error f => rw [hf] at h; cases h
    | ok m1 =>
      rw [hf] at h
      obtain ⟨ps, h1, h2, h3⟩ := loadFile_ok hf
      obtain ⟨qs, h4, h5, h6⟩ := ih h
      refine ⟨ps ++ qs, ?_, ?_, ?_⟩
      · rw [List.map_append]; exact FilesSay.append (a := [n]) h1 h4
      · intro p hp
        rcases List.mem_append.1 hp with hp | hp
        · exact h2 p hp
        · exact h5 p hp
      · rw [List.map_append]; exact stores_append h3 h6

/-! ### Values -/

theorem scalar_once {env : Env} {t : TypedValue} {st : SType} (ht : t.type = .scalar st) (hw : t.wide = false) (hi : t.implicit = none) {L : List (List Str)}
    (h0 : L ≠ []) {a : Any} (h : parseAll (t.toSemantic env) false none L = .ok a) :
    ∃ toks x, L = [toks] ∧ validateScalar env st toks = .ok x ∧ a = some (.scalar x) := by
  have hp : ∀ (v : Any) toks, (t.toSemantic env).parse v toks false = validate (validateScalar env) (.scalar st) v toks := by
    intro v toks
    simp only [TypedValue.toSemantic, TypedValue.parse, hw, TypedValue.xparse, hi, ht]
    cases toks <;> rfl
  cases L with
  | nil => exact absurd rfl h0
  | cons toks L =>
    rw [parseAll, hp, validate] at h
    cases hv : validateScalar env st toks with
    | error f => rw [hv] at h; cases h
    | ok x =>
      rw [hv] at h
      simp only at h
      cases L with
      | nil => rw [parseAll] at h; cases h; exact ⟨toks, x, rfl, hv, rfl⟩
      | cons toks' L =>
        rw [parseAll, hp, validate] at h
        cases h

theorem vecLoop_str {env : Env} (acc : List SVal) (toks : List Str) :
    validateVecLoop (validateScalar env .str) .str acc toks = (acc ++ toks.map .str, none) := by
  induction toks generalizing acc with
  | nil => rw [validateVecLoop]; simp
  | cons x xs ih =>
    rw [validateVecLoop]
    simp only [validateScalar, getSingle, SVal.type]
    rw [if_pos trivial, ih]
    simp

theorem vector_all {env : Env} {t : TypedValue} (ht : t.type = .vector .str) (hw : t.wide = false) (hi : t.implicit = none) (L : List (List Str)) :
    (L ≠ [] → parseAll (t.toSemantic env) false none L = .ok (some (.vector .str (L.flatten.map .str)))) ∧
    ∀ acc, parseAll (t.toSemantic env) false (some (.vector .str acc)) L = .ok (some (.vector .str (acc ++ L.flatten.map .str))) := by
  have hp : ∀ (v : Any) toks, (t.toSemantic env).parse v toks false = validate (validateScalar env) (.vector .str) v toks := by
    intro v toks
    simp only [TypedValue.toSemantic, TypedValue.parse, hw, TypedValue.xparse, hi, ht]
    cases toks <;> rfl
  have main : ∀ (L : List (List Str)) acc, parseAll (t.toSemantic env) false (some (.vector .str acc)) L = .ok (some (.vector .str (acc ++ L.flatten.map .str))) := by
    intro L
    induction L with
    | nil => intro acc; rw [parseAll]; simp
    | cons toks L ih =>
      intro acc
      rw [parseAll, hp, validate]
      simp only
      rw [if_pos trivial, vecLoop_str]
      simp only
      rw [ih]
      simp
  refine ⟨?_, main L⟩
  intro h0
  cases L with
  | nil => exact absurd rfl h0
  | cons toks L =>
    rw [parseAll, hp, validate, vecLoop_str]
    simp only
    rw [main]
    simp

theorem occ_ne {os : List Opt} {name : Str} (h : Mentions os name) : (occurrences os name).map (·.value) ≠ [] := by
  obtain ⟨o, ho, h1, h2, h3⟩ := h
  intro he
  have : o ∈ occurrences os name := by
    unfold occurrences
    rw [List.mem_filter]
    exact ⟨ho, by simp [h1, h2, h3]⟩
  rw [List.map_eq_nil_iff.1 he] at this
  cases this

theorem occ_nil {os : List Opt} {name : Str} (h : ¬ Mentions os name) : occurrences os name = [] := by
  unfold occurrences
  rw [List.filter_eq_nil_iff]
  intro o ho hk
  simp only [decide_eq_true_eq] at hk
  exact h ⟨o, ho, hk⟩

/-- What becomes of a name that does not compose. -/
theorem settled_first {name : Str} {S : ValueSemantic} (hS : S.isComposing = false) {P : List (Parsed × Bool)} (hu : ∀ q ∈ P, q.2 = false)
    (hP : ∀ q ∈ P, ∀ d, candidates q.1.desc name = [d] → d.semantic = S) {r} (h : Settled name P none r) :
    (r = none ∧ ∀ q ∈ P, ¬ Mentions q.1.options name) ∨
    ∃ before q after a, P = before ++ q :: after ∧ (∀ b ∈ before, ¬ Mentions b.1.options name) ∧ Mentions q.1.options name ∧
      (∃ d, candidates q.1.desc name = [d]) ∧ parseAll S false none ((occurrences q.1.options name).map (·.value)) = .ok a ∧ r = some (S, a) := by
  induction P with
  | nil => cases h; exact .inl ⟨rfl, by simp⟩
  | cons q P ih =>
    cases h with
    | silent hm h =>
      rcases ih (fun x hx => hu x (by simp [hx])) (fun x hx => hP x (by simp [hx])) h with ⟨h1, h2⟩ | ⟨before, q', after, a, rfl, h2, h3⟩
      · refine .inl ⟨h1, ?_⟩
        intro x hx
        rcases List.mem_cons.1 hx with rfl | hx
        · exact hm
        · exact h2 x hx
      · refine .inr ⟨q :: before, q', after, a, rfl, ?_, h3⟩
        intro x hx
        rcases List.mem_cons.1 hx with rfl | hx
        · exact hm
        · exact h2 x hx
    | adds hm hd ha hc =>
      rw [hP q (by simp) _ hd, hS] at hc; cases hc
    | settles hm hd ha hc =>
      have hs := hP q (by simp) _ hd
      rw [hu q (by simp), hs] at ha
      exact .inr ⟨[], q, P, _, rfl, by simp, hm, ⟨_, hd⟩, ha, by rw [hs]⟩

/-- What becomes of a composing list of strings. -/
theorem settled_all {env : Env} {name : Str} {t : TypedValue} (ht : t.type = .vector .str) (hw : t.wide = false) (hi : t.implicit = none) (hc : t.composing = true)
    {P : List (Parsed × Bool)} (hu : ∀ q ∈ P, q.2 = false)
    (hP : ∀ q ∈ P, ∀ d, candidates q.1.desc name = [d] → d.semantic = t.toSemantic env) {r} :
    (Settled name P none r → (r = none ∧ ∀ q ∈ P, ¬ Mentions q.1.options name) ∨ (∃ q ∈ P, Mentions q.1.options name) ∧
      r = some (t.toSemantic env, some (.vector .str (((P.flatMap fun q => occurrences q.1.options name).flatMap (·.value)).map .str)))) ∧
    ∀ acc, Settled name P (some (t.toSemantic env, some (.vector .str acc))) r →
      r = some (t.toSemantic env, some (.vector .str (acc ++ ((P.flatMap fun q => occurrences q.1.options name).flatMap (·.value)).map .str))) := by
  induction P with
  | nil =>
    constructor
    · intro h; cases h; exact .inl ⟨rfl, by simp⟩
    · intro acc h; cases h; simp
  | cons q P ih =>
    obtain ⟨ih1, ih2⟩ := ih (fun x hx => hu x (by simp [hx])) (fun x hx => hP x (by simp [hx]))
    have hcs : (t.toSemantic env).isComposing = true := hc
    constructor
    · intro h
      cases h with
      | silent hm h =>
        rcases ih1 h with ⟨h1, h2⟩ | ⟨⟨q', hq', h2⟩, h3⟩
        · refine .inl ⟨h1, ?_⟩
          intro x hx
          rcases List.mem_cons.1 hx with rfl | hx
          · exact hm
          · exact h2 x hx
        · refine .inr ⟨⟨q', by simp [hq'], h2⟩, ?_⟩
          rw [h3, List.flatMap_cons, occ_nil hm, List.nil_append]
      | adds hm hd ha hc h =>
        have hs := hP q (by simp) _ hd
        rw [hu q (by simp), hs] at ha
        rw [Option.bind_none, (vector_all ht hw hi _).1 (occ_ne hm)] at ha
        cases ha
        rw [hs] at h
        rw [ih2 _ h]
        exact .inr ⟨⟨q, by simp, hm⟩, by simp [List.flatMap]⟩
      | settles hm hd ha hc =>
        rw [hP q (by simp) _ hd, hcs] at hc; cases hc
    · intro acc h
      cases h with
      | silent hm h => rw [ih2 _ h, List.flatMap_cons, occ_nil hm, List.nil_append]
      | adds hm hd ha hc h =>
        have hs := hP q (by simp) _ hd
        rw [hu q (by simp), hs] at ha
        rw [Option.bind_some, (vector_all ht hw hi _).2] at ha
        cases ha
        rw [hs] at h
        rw [ih2 _ h]
        simp [List.flatMap]
      | settles hm hd ha hc =>
        rw [hP q (by simp) _ hd, hcs] at hc; cases hc

theorem constructed_ok {env : Env} {m : VarMap} (h : constructed env = .ok m) :
    ∃ p, p.desc = configOnlyOptions env ∧ p.options = [] ∧ store p {} = (m, none) := by
  obtain ⟨q, h1, h2⟩ := load_ok h
  refine ⟨q, parse_desc h1, ?_, h2⟩
  have : ({ desc := configOnlyOptions env } : Cmdline).run [] = .ok [] := rfl
  unfold Cmdline.parse at h1
  rw [this] at h1
  cases h1
  rfl

theorem commandLine_desc {env : Env} {args : List Str} {p : Parsed} (h : parseCommandLine env args = .ok p) :
    p.desc = commandLineOptions env ++ hiddenOptions env ++ commonOptions env := by
  have : positional = .ok { names := [str% "master-file"], trailing := str% "file" } := rfl
  unfold parseCommandLine at h
  rw [this] at h
  exact parse_desc h

/-- The program has stored its sources one after the other. -/
theorem ran {env : Env} {args environ : List Str} {files : Str → Option Str} {m : VarMap} (h : parseOptions env args environ files = .ok (.done m)) :
    ∃ (p0 pc pe : Parsed) (ps : List Parsed), Stores {} ((p0, false) :: (pc, false) :: (pe, false) :: ps.map (·, false)) m ∧
      p0.desc = configOnlyOptions env ∧ p0.options = [] ∧ parseCommandLine env args = .ok pc ∧ parseEnvironment environ (commonOptions env) mapper = .ok pe ∧
      (∀ p ∈ ps, p.desc = configOnlyOptions env ++ commonOptions env) ∧
      FilesSay env files ((occurrences pc.options (str% "config")).flatMap (·.value) ++ [str% "default.cfg"]) (ps.map (·.options)) ∧
      ¬ Mentions pc.options (str% "help") ∧ ¬ Mentions pc.options (str% "version") := by
  unfold parseOptions at h
  cases h0 : constructed env with
  | error f => rw [h0] at h; cases h
  | ok m0 =>
  rw [h0] at h
  simp only at h
  cases h1 : load (parseCommandLine env args) m0 with
  | error f => rw [h1] at h; cases h
  | ok m1 =>
  rw [h1] at h
  simp only at h
  by_cases hx : ((m1.map.get? (str% "help")).isSome || (m1.map.get? (str% "version")).isSome) = true
  · rw [if_pos hx] at h; cases h
  rw [if_neg hx] at h
  cases h2 : load (parseEnvironment environ (commonOptions env) mapper) m1 with
  | error f => rw [h2] at h; cases h
  | ok m2 =>
  rw [h2] at h
  simp only at h
  cases h3 : parseConfigFiles env files m2 with
  | error f => rw [h3] at h; cases h
  | ok m3 =>
  rw [h3] at h
  simp only at h
  cases h4 : loadFile env files (str% "default.cfg") m3 with
  | error f => rw [h4] at h; cases h
  | ok m4 =>
  rw [h4] at h
  cases h
  obtain ⟨p0, e1, e2, s0⟩ := constructed_ok h0
  obtain ⟨pc, e3, s1⟩ := load_ok h1
  obtain ⟨pe, e4, s2⟩ := load_ok h2
  have st1 : Stores {} [(p0, false), (pc, false)] m1 := .cons s0 (.cons s1 (.nil _))
  have st2 : Stores {} [(p0, false), (pc, false), (pe, false)] m2 := .cons s0 (.cons s1 (.cons s2 (.nil _)))
  have hno : ∀ name, m1.map.get? name = none → ¬ Mentions pc.options name := by
    intro name hn hm
    obtain ⟨r, a, b⟩ := C104_value _ _ st1 name
    rw [hn] at b
    have hr : r = none := by
      cases r with
      | none => rfl
      | some x => obtain ⟨x1, x2⟩ := x; simp [record] at b
    subst hr
    cases a with
    | silent _ a =>
      cases a with
      | silent hm' => exact hm' hm
      | adds _ _ _ _ a => cases a
    | adds hm' =>
      obtain ⟨o, ho, _⟩ := hm'
      rw [e2] at ho
      cases ho
  have hx' : m1.map.get? (str% "help") = none ∧ m1.map.get? (str% "version") = none := by
    simpa [Option.isSome_iff_ne_none] using hx
  obtain ⟨ps, f1, f2, f3⟩ := loadFile_ok h4
  have hcfg : ∃ qs : List Parsed, FilesSay env files ((occurrences pc.options (str% "config")).flatMap (·.value)) (qs.map (·.options)) ∧
      (∀ p ∈ qs, p.desc = configOnlyOptions env ++ commonOptions env) ∧ Stores m2 (qs.map (·, false)) m3 := by
    obtain ⟨r, a, b⟩ := C104_value _ _ st2 (str% "config")
    have hd0 : ∀ q ∈ [(p0, false), (pc, false), (pe, false)], ∀ d, candidates q.1.desc (str% "config") = [d] → d.semantic = strings.toSemantic env := by
      intro q hq d hd
      simp only [List.mem_cons, List.not_mem_nil, or_false] at hq
      rcases hq with rfl | rfl | rfl
      · rw [e1] at hd; cases hd
      · rw [commandLine_desc e3] at hd; cases hd; rfl
      · rw [env_desc e4] at hd; cases hd
    have hdef : defaultFrom [(p0, false), (pc, false), (pe, false)] (str% "config") = none := by
      simp only [defaultFrom, List.findSome?_cons, List.findSome?_nil, e1, commandLine_desc e3, env_desc e4]
      rfl
    unfold parseConfigFiles at h3
    rcases settled_first rfl (by simp) hd0 a with ⟨rfl, hn⟩ | ⟨before, q, after, x, hq, hb, hm, ⟨d, hd⟩, hp, rfl⟩
    · rw [b, hdef] at h3
      simp only [record] at h3
      cases h3
      rw [occ_nil (hn (pc, false) (by simp))]
      exact ⟨[], .nil, by simp, .nil _⟩
    · have hqc : q = (pc, false) := by
        have hq' : q ∈ [(p0, false), (pc, false), (pe, false)] := by rw [hq]; simp
        simp only [List.mem_cons, List.not_mem_nil, or_false] at hq'
        rcases hq' with rfl | rfl | rfl
        · rw [e1] at hd; cases hd
        · rfl
        · rw [env_desc e4] at hd; cases hd
      subst hqc
      rw [(vector_all rfl rfl rfl _).1 (occ_ne hm)] at hp
      cases hp
      rw [b] at h3
      simp only [record] at h3
      have hcn : configNames { v := some (.vector .str (((occurrences pc.options (str% "config")).map (·.value)).flatten.map .str)), defaulted := false, semantic := some (strings.toSemantic env) } =
          .ok ((occurrences pc.options (str% "config")).flatMap (·.value)) := by
        unfold configNames VarValue.as
        simp only [AVal.type, if_true]
        rw [List.flatMap]
        congr 1
        generalize (List.map (·.value) (occurrences pc.options (str% "config"))).flatten = l
        induction l with
        | nil => rfl
        | cons x l ih => simp [ih]
      rw [hcn] at h3
      exact loadFiles_ok h3
  obtain ⟨qs, g1, g2, g3⟩ := hcfg
  refine ⟨p0, pc, pe, qs ++ ps, ?_, e1, e2, e3, e4, ?_, ?_, hno _ hx'.1, hno _ hx'.2⟩
  · rw [List.map_append]
    exact stores_append st2 (stores_append g3 f3)
  · intro p hp
    rcases List.mem_append.1 hp with hp | hp
    · exact g2 p hp
    · exact f2 p hp
  · rw [List.map_append]; exact FilesSay.append g1 f1

/-- The descriptions the program stores with. -/
def descs (env : Env) : List (List OptionDesc) :=
  [configOnlyOptions env, commandLineOptions env ++ hiddenOptions env ++ commonOptions env, commonOptions env, configOnlyOptions env ++ commonOptions env]

theorem stored {env : Env} {args environ : List Str} {files : Str → Option Str} {m : VarMap} (h : parseOptions env args environ files = .ok (.done m))
    {srcs : List (List Opt)} (hs : SourcesSay env args environ files srcs) :
    ∃ (p0 pc : Parsed) (ps : List Parsed), Stores {} ((p0, false) :: (pc, false) :: ps.map (·, false)) m ∧ p0.desc = configOnlyOptions env ∧ p0.options = [] ∧
      parseCommandLine env args = .ok pc ∧ (∀ p ∈ ps, p.desc = commonOptions env ∨ p.desc = configOnlyOptions env ++ commonOptions env) ∧
      srcs = pc.options :: ps.map (·.options) := by
  obtain ⟨p0, pc, pe, ps, h1, h2, h3, h4, h5, h6, h7, -⟩ := ran h
  refine ⟨p0, pc, pe :: ps, h1, h2, h3, h4, ?_, SourcesSay.det hs ⟨pc, pe, _, h4, h5, h7, rfl⟩⟩
  intro p hp
  rcases List.mem_cons.1 hp with rfl | hp
  · exact .inl (env_desc h5)
  · exact .inr (h6 p hp)

theorem not_mentions_nil {os : List Opt} (h : os = []) (name : Str) : ¬ Mentions os name := by
  rintro ⟨o, ho, -⟩
  rw [h] at ho
  cases ho

theorem map_split {α β : Type} {f : α → β} {l : List α} {a : List α} {x : α} {b : List α} (h : l = a ++ x :: b) : l.map f = a.map f ++ f x :: b.map f := by
  rw [h]; simp

/-- The value of a scalar option. -/
theorem scalar_value {env : Env} {args environ : List Str} {files : Str → Option Str} {m : VarMap} (h : parseOptions env args environ files = .ok (.done m))
    {srcs : List (List Opt)} (hs : SourcesSay env args environ files srcs) {name : Str} {t : TypedValue} {st : SType} {dv : Any}
    (ht : t.type = .scalar st) (hw : t.wide = false) (hi : t.implicit = none) (hc : t.composing = false)
    (hd : ∀ D ∈ descs env, ∀ d, candidates D name = [d] → d.semantic = t.toSemantic env)
    (hf : (firstDefault (configOnlyOptions env) name).or (firstDefault (commandLineOptions env ++ hiddenOptions env ++ commonOptions env) name) = some (t.toSemantic env, dv)) :
    ∃ v, m.map.get? name = some v ∧
      ((∃ toks x, FirstSays srcs name toks ∧ validateScalar env st toks = .ok x ∧ v.v = some (.scalar x)) ∨ NoneSays srcs name ∧ v.v = dv) := by
  obtain ⟨p0, pc, ps, hst, h1, h2, h3, h4, rfl⟩ := stored h hs
  obtain ⟨r, a, b⟩ := C104_value _ _ hst name
  have hdef : defaultFrom ((p0, false) :: (pc, false) :: ps.map (·, false)) name = some (t.toSemantic env, dv) := by
    rw [← commandLine_desc h3, ← h1] at hf
    unfold defaultFrom
    rw [List.findSome?_cons, List.findSome?_cons]
    simp only
    cases h5 : firstDefault p0.desc name with
    | some x => rw [h5] at hf; exact hf
    | none =>
      rw [h5] at hf
      simp only [Option.none_or] at hf
      simp only [hf]
  have hP : ∀ q ∈ (p0, false) :: (pc, false) :: ps.map (·, false), ∀ d, candidates q.1.desc name = [d] → d.semantic = t.toSemantic env := by
    intro q hq
    apply hd
    rcases List.mem_cons.1 hq with rfl | hq
    · rw [h1]; simp [descs]
    rcases List.mem_cons.1 hq with rfl | hq
    · rw [commandLine_desc h3]; simp [descs]
    · obtain ⟨p, hp, rfl⟩ := List.mem_map.1 hq
      rcases h4 p hp with h | h <;> rw [h] <;> simp [descs]
  have hu : ∀ q ∈ (p0, false) :: (pc, false) :: ps.map (·, false), q.2 = false := by
    intro q hq
    simp only [List.mem_cons, List.mem_map] at hq
    rcases hq with rfl | rfl | ⟨p, -, rfl⟩ <;> rfl
  rcases settled_first hc hu hP a with ⟨rfl, hn⟩ | ⟨before, q, after, x, hq, hb, hm, -, hp, rfl⟩
  · rw [hdef] at b
    refine ⟨_, b, .inr ⟨?_, rfl⟩⟩
    intro os hos
    rcases List.mem_cons.1 hos with rfl | hos
    · exact hn (pc, false) (by simp)
    · obtain ⟨p, hp, rfl⟩ := List.mem_map.1 hos
      exact hn (p, false) (by simp [hp])
  · refine ⟨_, b, .inl ?_⟩
    obtain ⟨toks, y, e1, e2, rfl⟩ := scalar_once ht hw hi (occ_ne hm) hp
    refine ⟨toks, y, ?_, e2, rfl⟩
    cases before with
    | nil =>
      simp only [List.nil_append, List.cons.injEq] at hq
      rw [← hq.1] at hm
      exact absurd hm (not_mentions_nil h2 name)
    | cons b0 before =>
      simp only [List.cons_append, List.cons.injEq] at hq
      have := map_split (f := fun q : Parsed × Bool => q.1.options) hq.2
      simp only [List.map_cons, List.map_map] at this
      refine ⟨before.map (·.1.options), q.1.options, after.map (·.1.options), ?_, ?_, e1⟩
      · rw [← this]; rfl
      · intro x hx
        obtain ⟨b1, hb1, rfl⟩ := List.mem_map.1 hx
        exact hb b1 (by simp [hb1])

/-- The names that are options of the command line only. -/
theorem command_only {env : Env} {args environ : List Str} {files : Str → Option Str} {m : VarMap} (h : parseOptions env args environ files = .ok (.done m))
    {pc : Parsed} (hpc : parseCommandLine env args = .ok pc) {name : Str} {S : ValueSemantic} (hS : S.isComposing = false)
    (hn : candidates (configOnlyOptions env) name = [] ∧ candidates (commonOptions env) name = [] ∧ candidates (configOnlyOptions env ++ commonOptions env) name = [])
    (hd : ∀ d, candidates (commandLineOptions env ++ hiddenOptions env ++ commonOptions env) name = [d] → d.semantic = S)
    (hf : ∀ D ∈ descs env, firstDefault D name = none) :
    (¬ Mentions pc.options name ∧ m.map.get? name = none) ∨
    ∃ a v, Mentions pc.options name ∧ parseAll S false none ((occurrences pc.options name).map (·.value)) = .ok a ∧ m.map.get? name = some v ∧ v.v = a := by
  obtain ⟨p0, pc', pe, ps, hst, h1, h2, h3, h5, h4, -⟩ := ran h
  rw [hpc] at h3
  cases h3
  obtain ⟨r, a, b⟩ := C104_value _ _ hst name
  have hD : ∀ q ∈ (p0, false) :: (pc, false) :: (pe, false) :: ps.map (·, false), q = (pc, false) ∨ candidates q.1.desc name = [] ∧ q.1.desc ∈ descs env := by
    intro q hq
    simp only [List.mem_cons, List.mem_map] at hq
    rcases hq with rfl | rfl | rfl | ⟨p, hp, rfl⟩
    · rw [h1]; exact .inr ⟨hn.1, by simp [descs]⟩
    · exact .inl rfl
    · rw [env_desc h5]; exact .inr ⟨hn.2.1, by simp [descs]⟩
    · rw [h4 p hp]; exact .inr ⟨hn.2.2, by simp [descs]⟩
  have hdef : defaultFrom ((p0, false) :: (pc, false) :: (pe, false) :: ps.map (·, false)) name = none := by
    unfold defaultFrom
    rw [List.findSome?_eq_none_iff]
    intro q hq
    rcases hD q hq with rfl | ⟨-, h⟩
    · rw [commandLine_desc hpc]; exact hf _ (by simp [descs])
    · exact hf _ h
  have hP : ∀ q ∈ (p0, false) :: (pc, false) :: (pe, false) :: ps.map (·, false), ∀ d, candidates q.1.desc name = [d] → d.semantic = S := by
    intro q hq d hc
    rcases hD q hq with rfl | ⟨h, -⟩
    · rw [commandLine_desc hpc] at hc; exact hd d hc
    · rw [h] at hc; cases hc
  have hu : ∀ q ∈ (p0, false) :: (pc, false) :: (pe, false) :: ps.map (·, false), q.2 = false := by
    intro q hq
    simp only [List.mem_cons, List.mem_map] at hq
    rcases hq with rfl | rfl | rfl | ⟨p, -, rfl⟩ <;> rfl
  rcases settled_first hS hu hP a with ⟨rfl, hn⟩ | ⟨before, q, after, x, hq, hb, hm, ⟨d, hcd⟩, hp, rfl⟩
  · rw [hdef] at b
    exact .inl ⟨hn (pc, false) (by simp), b⟩
  · rcases hD q (by rw [hq]; simp) with rfl | ⟨h, -⟩
    · exact .inr ⟨x, _, hm, hp, b, rfl⟩
    · rw [h] at hcd; cases hcd

theorem get_of {m : VarMap} {name : Str} {v : VarValue} (h : m.map.get? name = some v) : m.get name = v := by
  unfold VarMap.get
  rw [h]
  rfl

end Hierarchy

/-- **C108, the sources.** A run that goes on has read the command line, the environment, the files named there in this order and `default.cfg`, and nobody
asked for the help or version text. -/
theorem C108_sources (env : Env) (args environ : List Str) (files : Str → Option Str) (m : VarMap) (h : parseOptions env args environ files = .ok (.done m)) :
    ∃ srcs pc, SourcesSay env args environ files srcs ∧ Hierarchy.parseCommandLine env args = .ok pc ∧ srcs.head? = some pc.options ∧
      ¬ Mentions pc.options (str% "help") ∧ ¬ Mentions pc.options (str% "version") := by
  obtain ⟨p0, pc, pe, ps, -, -, -, h4, h5, -, h7, h8⟩ := ran h
  exact ⟨_, pc, ⟨pc, pe, _, h4, h5, h7, rfl⟩, h4, rfl, h8⟩

/-- **C108, strings.** The value is what the first source that mentions the option says, and the default if none does. -/
theorem C108_strings (env : Env) (args environ : List Str) (files : Str → Option Str) (m : VarMap) (h : parseOptions env args environ files = .ok (.done m))
    (srcs : List (List Opt)) (hs : SourcesSay env args environ files srcs) (name dv : Str)
    (hn : (name, dv) ∈ [(str% "path", []), (str% "verbosity", str% "INFO"), (str% "log-dir", str% "log"), (str% "network.ip", str% "127.0.0.1")]) :
    ∃ v, (m.get name).as (.scalar .str) = .ok (.scalar (.str v)) ∧ (FirstSays srcs name [v] ∨ NoneSays srcs name ∧ v = dv) := by
  have main : ∃ v, m.map.get? name = some v ∧ ((∃ toks x, FirstSays srcs name toks ∧ validateScalar env .str toks = .ok x ∧ v.v = some (.scalar x)) ∨
      NoneSays srcs name ∧ v.v = some (.scalar (.str dv))) := by
    simp only [List.mem_cons, Prod.mk.injEq, List.not_mem_nil, or_false] at hn
    rcases hn with ⟨rfl, rfl⟩ | ⟨rfl, rfl⟩ | ⟨rfl, rfl⟩ | ⟨rfl, rfl⟩
    · refine scalar_value h hs (t := stringOr []) rfl rfl rfl rfl ?_ rfl
      intro D hD d hd
      simp only [descs, List.mem_cons, List.not_mem_nil, or_false] at hD
      rcases hD with rfl | rfl | rfl | rfl <;> cases hd <;> rfl
    · refine scalar_value h hs (t := stringOr (str% "INFO")) rfl rfl rfl rfl ?_ rfl
      intro D hD d hd
      simp only [descs, List.mem_cons, List.not_mem_nil, or_false] at hD
      rcases hD with rfl | rfl | rfl | rfl <;> cases hd <;> rfl
    · refine scalar_value h hs (t := stringOr (str% "log")) rfl rfl rfl rfl ?_ rfl
      intro D hD d hd
      simp only [descs, List.mem_cons, List.not_mem_nil, or_false] at hD
      rcases hD with rfl | rfl | rfl | rfl <;> cases hd <;> rfl
    · refine scalar_value h hs (t := stringOr (str% "127.0.0.1")) rfl rfl rfl rfl ?_ rfl
      intro D hD d hd
      simp only [descs, List.mem_cons, List.not_mem_nil, or_false] at hD
      rcases hD with rfl | rfl | rfl | rfl <;> cases hd <;> rfl
  obtain ⟨v, h1, h2⟩ := main
  rw [get_of h1]
  unfold VarValue.as
  rcases h2 with ⟨toks, x, hf, hv, h2⟩ | ⟨hno, h2⟩
  · match toks, hv, hf with
    | [], hv, hf => cases hv
    | [w], hv, hf => cases hv; rw [h2]; exact ⟨w, rfl, .inl hf⟩
    | _ :: _ :: _, hv, hf => cases hv
  · rw [h2]; exact ⟨dv, rfl, .inr ⟨hno, rfl⟩⟩

/-- **C108, numbers.** Likewise, read as a number of the type. -/
theorem C108_numbers (env : Env) (args environ : List Str) (files : Str → Option Str) (m : VarMap) (h : parseOptions env args environ files = .ok (.done m))
    (srcs : List (List Opt)) (hs : SourcesSay env args environ files srcs) (name : Str) (ty dv : Nat)
    (hn : (name, ty, dv) ∈ [(str% "gui.height", 0, 100), (str% "gui.width", 0, 100), (str% "network.port", 1, 12345)]) :
    ∃ n, (m.get name).as (.scalar (.lex ty)) = .ok (.scalar (.lex ty n)) ∧
      ((∃ tok, FirstSays srcs name [tok] ∧ env.lex ty tok = some n) ∨ NoneSays srcs name ∧ n = dv) := by
  have main : ∃ v, m.map.get? name = some v ∧ ((∃ toks x, FirstSays srcs name toks ∧ validateScalar env (.lex ty) toks = .ok x ∧ v.v = some (.scalar x)) ∨
      NoneSays srcs name ∧ v.v = some (.scalar (.lex ty dv))) := by
    simp only [List.mem_cons, Prod.mk.injEq, List.not_mem_nil, or_false] at hn
    rcases hn with ⟨rfl, rfl, rfl⟩ | ⟨rfl, rfl, rfl⟩ | ⟨rfl, rfl, rfl⟩
    · refine scalar_value h hs (t := numberOr 0 100 (str% "100")) rfl rfl rfl rfl ?_ rfl
      intro D hD d hd
      simp only [descs, List.mem_cons, List.not_mem_nil, or_false] at hD
      rcases hD with rfl | rfl | rfl | rfl <;> cases hd <;> rfl
    · refine scalar_value h hs (t := numberOr 0 100 (str% "100")) rfl rfl rfl rfl ?_ rfl
      intro D hD d hd
      simp only [descs, List.mem_cons, List.not_mem_nil, or_false] at hD
      rcases hD with rfl | rfl | rfl | rfl <;> cases hd <;> rfl
    · refine scalar_value h hs (t := numberOr 1 12345 (str% "12345")) rfl rfl rfl rfl ?_ rfl
      intro D hD d hd
      simp only [descs, List.mem_cons, List.not_mem_nil, or_false] at hD
      rcases hD with rfl | rfl | rfl | rfl <;> cases hd <;> rfl
  obtain ⟨v, h1, h2⟩ := main
  rw [get_of h1]
  unfold VarValue.as
  rcases h2 with ⟨toks, x, hf, hv, h2⟩ | ⟨hno, h2⟩
  · unfold validateScalar at hv
    match toks, hv, hf with
    | [], hv, hf => cases hv
    | [w], hv, hf =>
      simp only [getSingle] at hv
      cases hl : env.lex ty w with
      | none => rw [hl] at hv; cases hv
      | some n =>
        rw [hl] at hv; cases hv
        rw [h2]
        exact ⟨n, by simp [AVal.type, SVal.type], .inl ⟨w, hf, hl⟩⟩
    | _ :: _ :: _, hv, hf => cases hv
  · rw [h2]; exact ⟨dv, by simp [AVal.type, SVal.type], .inr ⟨hno, rfl⟩⟩

/-- **C108, the switch.** Likewise; without a value it is true. -/
theorem C108_gui (env : Env) (args environ : List Str) (files : Str → Option Str) (m : VarMap) (h : parseOptions env args environ files = .ok (.done m))
    (srcs : List (List Opt)) (hs : SourcesSay env args environ files srcs) :
    ∃ b, (m.get (str% "run-gui")).as (.scalar .bool) = .ok (.scalar (.bool b)) ∧
      ((∃ toks, FirstSays srcs (str% "run-gui") toks ∧ SaysBool toks b) ∨ NoneSays srcs (str% "run-gui") ∧ b = false) := by
  have main : ∃ v, m.map.get? (str% "run-gui") = some v ∧ ((∃ toks x, FirstSays srcs (str% "run-gui") toks ∧ validateScalar env .bool toks = .ok x ∧ v.v = some (.scalar x)) ∨
      NoneSays srcs (str% "run-gui") ∧ v.v = some (.scalar (.bool false))) := by
    refine scalar_value h hs (t := boolSwitch) rfl rfl rfl rfl ?_ rfl
    intro D hD d hd
    simp only [descs, List.mem_cons, List.not_mem_nil, or_false] at hD
    rcases hD with rfl | rfl | rfl | rfl <;> cases hd <;> rfl
  obtain ⟨v, h1, h2⟩ := main
  rw [get_of h1]
  unfold VarValue.as
  rcases h2 with ⟨toks, x, hf, hv, h2⟩ | ⟨hno, h2⟩
  · have key : ∀ w b, boolWord (toLower w) = some b → (b = true ∧ toLower w ∈ [[], str% "on", str% "yes", str% "1", str% "true"] ∨
        b = false ∧ toLower w ∈ [str% "off", str% "no", str% "0", str% "false"]) := by
      intro w b hb
      unfold boolWord at hb
      simp only [List.mem_cons, List.not_mem_nil, or_false]
      by_cases c1 : toLower w = [] ∨ toLower w = str% "on" ∨ toLower w = str% "yes" ∨ toLower w = str% "1" ∨ toLower w = str% "true"
      · rw [if_pos c1] at hb; cases hb; exact .inl ⟨rfl, c1⟩
      · rw [if_neg c1] at hb
        by_cases c2 : toLower w = str% "off" ∨ toLower w = str% "no" ∨ toLower w = str% "0" ∨ toLower w = str% "false"
        · rw [if_pos c2] at hb; cases hb; exact .inr ⟨rfl, c2⟩
        · rw [if_neg c2] at hb; cases hb
    have one : ∀ w, getSingle [] toks true = .ok w → toks = [] ∧ w = [] ∨ toks = [w] := by
      intro w hw
      match toks, hw with
      | [], hw => cases hw; exact .inl ⟨rfl, rfl⟩
      | [w], hw => cases hw; exact .inr rfl
      | _ :: _ :: _, hw => cases hw
    unfold validateScalar at hv
    simp only at hv
    cases hg : getSingle [] toks true with
    | error f => rw [hg] at hv; cases hv
    | ok w =>
      rw [hg] at hv
      simp only at hv
      cases hb : boolWord (toLower w) with
      | none => rw [hb] at hv; cases hv
      | some b =>
        rw [hb] at hv; cases hv
        rw [h2]
        exact ⟨b, rfl, .inl ⟨toks, hf, w, one w hg, key w b hb⟩⟩
  · rw [h2]; exact ⟨false, rfl, .inr ⟨hno, rfl⟩⟩

/-- **C108, the include path.** All sources add to it, in the order of precedence. -/
theorem C108_include_path (env : Env) (args environ : List Str) (files : Str → Option Str) (m : VarMap) (h : parseOptions env args environ files = .ok (.done m))
    (srcs : List (List Opt)) (hs : SourcesSay env args environ files srcs) :
    (NoneSays srcs (str% "include-path") ∧ m.map.get? (str% "include-path") = none) ∨
    (∃ os ∈ srcs, Mentions os (str% "include-path")) ∧ (m.get (str% "include-path")).as (.vector .str) =
      .ok (.vector .str (((srcs.flatMap fun os => occurrences os (str% "include-path")).flatMap (·.value)).map .str)) := by
  obtain ⟨p0, pc, ps, hst, h1, h2, h3, h4, rfl⟩ := stored h hs
  obtain ⟨r, a, b⟩ := C104_value _ _ hst (str% "include-path")
  have hD : ∀ q ∈ (p0, false) :: (pc, false) :: ps.map (·, false), q.1.desc ∈ descs env := by
    intro q hq
    simp only [List.mem_cons, List.mem_map] at hq
    rcases hq with rfl | rfl | ⟨p, hp, rfl⟩
    · rw [h1]; simp [descs]
    · rw [commandLine_desc h3]; simp [descs]
    · rcases h4 p hp with h | h <;> rw [h] <;> simp [descs]
  have hdef : defaultFrom ((p0, false) :: (pc, false) :: ps.map (·, false)) (str% "include-path") = none := by
    unfold defaultFrom
    rw [List.findSome?_eq_none_iff]
    intro q hq
    have := hD q hq
    simp only [descs, List.mem_cons, List.not_mem_nil, or_false] at this
    rcases this with h | h | h | h <;> rw [h] <;> rfl
  have hP : ∀ q ∈ (p0, false) :: (pc, false) :: ps.map (·, false), ∀ d, candidates q.1.desc (str% "include-path") = [d] →
      d.semantic = ({ strings with composing := true } : TypedValue).toSemantic env := by
    intro q hq d hd
    have := hD q hq
    simp only [descs, List.mem_cons, List.not_mem_nil, or_false] at this
    rcases this with h | h | h | h <;> rw [h] at hd <;> cases hd <;> rfl
  have hu : ∀ q ∈ (p0, false) :: (pc, false) :: ps.map (·, false), q.2 = false := by
    intro q hq
    simp only [List.mem_cons, List.mem_map] at hq
    rcases hq with rfl | rfl | ⟨p, -, rfl⟩ <;> rfl
  rcases (settled_all (env := env) (t := { strings with composing := true }) rfl rfl rfl rfl hu hP).1 a with ⟨rfl, hn⟩ | ⟨⟨q, hq, hm⟩, rfl⟩
  · rw [hdef] at b
    refine .inl ⟨?_, b⟩
    intro os hos
    rcases List.mem_cons.1 hos with rfl | hos
    · exact hn (pc, false) (by simp)
    · obtain ⟨p, hp, rfl⟩ := List.mem_map.1 hos
      exact hn (p, false) (by simp [hp])
  · refine .inr ⟨?_, ?_⟩
    · simp only [List.mem_cons, List.mem_map] at hq
      rcases hq with rfl | rfl | ⟨p, hp, rfl⟩
      · exact absurd hm (not_mentions_nil h2 _)
      · exact ⟨_, by simp, hm⟩
      · exact ⟨p.options, by simp; exact .inr ⟨p, hp, rfl⟩, hm⟩
    · rw [get_of b]
      unfold VarValue.as
      simp only [AVal.type, if_true]
      rw [List.flatMap_cons, occ_nil (not_mentions_nil h2 _), List.nil_append]
      simp only [List.flatMap_cons, List.flatMap_map]

/-- **C108, options of the command line only.** What the configuration files and the environment say about them is not heard. -/
theorem C108_command_only (env : Env) (args environ : List Str) (files : Str → Option Str) (m : VarMap) (h : parseOptions env args environ files = .ok (.done m))
    (pc : Parsed) (hpc : Hierarchy.parseCommandLine env args = .ok pc) :
    ((¬ Mentions pc.options (str% "master-file") ∧ m.map.get? (str% "master-file") = none) ∨ ∃ v, (occurrences pc.options (str% "master-file")).map (·.value) = [[v]] ∧
      (m.get (str% "master-file")).as (.scalar .str) = .ok (.scalar (.str v))) ∧
    ∀ name ∈ [str% "file", str% "config"], (¬ Mentions pc.options name ∧ m.map.get? name = none) ∨ Mentions pc.options name ∧
      (m.get name).as (.vector .str) = .ok (.vector .str (((occurrences pc.options name).flatMap (·.value)).map .str)) := by
  constructor
  · rcases command_only (name := str% "master-file") (S := string.toSemantic env) h hpc rfl ⟨rfl, rfl, rfl⟩ (fun d hd => by cases hd; rfl)
      (by intro D hD; simp only [descs, List.mem_cons, List.not_mem_nil, or_false] at hD; rcases hD with rfl | rfl | rfl | rfl <;> rfl) with h1 | ⟨a, v, h1, h2, h3, h4⟩
    · exact .inl h1
    · obtain ⟨toks, x, e1, e2, rfl⟩ := scalar_once (t := string) (st := .str) rfl rfl rfl (occ_ne h1) h2
      rw [get_of h3]
      unfold VarValue.as
      match toks, e2, e1 with
      | [], hv, hf => cases hv
      | [w], hv, hf => cases hv; rw [h4]; exact .inr ⟨w, hf, rfl⟩
      | _ :: _ :: _, hv, hf => cases hv
  · intro name hn
    have hc : (¬ Mentions pc.options name ∧ m.map.get? name = none) ∨
        ∃ a v, Mentions pc.options name ∧ parseAll (strings.toSemantic env) false none ((occurrences pc.options name).map (·.value)) = .ok a ∧ m.map.get? name = some v ∧ v.v = a := by
      simp only [List.mem_cons, List.not_mem_nil, or_false] at hn
      rcases hn with rfl | rfl <;> exact command_only h hpc rfl ⟨rfl, rfl, rfl⟩ (fun d hd => by cases hd; rfl)
        (by intro D hD; simp only [descs, List.mem_cons, List.not_mem_nil, or_false] at hD; rcases hD with rfl | rfl | rfl | rfl <;> rfl)
    rcases hc with h1 | ⟨a, v, h1, h2, h3, h4⟩
    · exact .inl h1
    · refine .inr ⟨h1, ?_⟩
      rw [(vector_all (t := strings) rfl rfl rfl _).1 (occ_ne h1)] at h2
      cases h2
      rw [get_of h3]
      unfold VarValue.as
      rw [h4]
      rfl

/-- **C108, help and version.** If one of them is on a valid command line the program stops there; environment and files do not matter. Otherwise it goes on. -/
theorem C108_help (env : Env) (args environ : List Str) (files : Str → Option Str) (o : Outcome) (h : parseOptions env args environ files = .ok o)
    (pc : Parsed) (hpc : Hierarchy.parseCommandLine env args = .ok pc) :
    (o = .exits ↔ Mentions pc.options (str% "help") ∨ Mentions pc.options (str% "version")) ∧
    (o = .exits → ∀ environ' files', parseOptions env args environ' files' = .ok .exits) := by
  cases o with
  | done m =>
    obtain ⟨srcs, pc', -, h2, -, h3, h4⟩ := C108_sources env args environ files m h
    rw [hpc] at h2
    cases h2
    refine ⟨⟨(fun h => by cases h), ?_⟩, (fun h => by cases h)⟩
    rintro (h | h)
    · exact absurd h h3
    · exact absurd h h4
  | exits =>
    unfold parseOptions at h
    cases h0 : constructed env with
    | error f => rw [h0] at h; cases h
    | ok m0 =>
    rw [h0] at h
    simp only at h
    cases h1 : load (Hierarchy.parseCommandLine env args) m0 with
    | error f => rw [h1] at h; cases h
    | ok m1 =>
    rw [h1] at h
    simp only at h
    by_cases hx : ((m1.map.get? (str% "help")).isSome || (m1.map.get? (str% "version")).isSome) = true
    · refine ⟨⟨fun _ => ?_, fun _ => rfl⟩, ?_⟩
      · obtain ⟨p0, e1, e2, s0⟩ := constructed_ok h0
        obtain ⟨pc', e3, s1⟩ := load_ok h1
        rw [hpc] at e3
        cases e3
        have key : ∀ name, firstDefault (configOnlyOptions env) name = none → firstDefault (commandLineOptions env ++ hiddenOptions env ++ commonOptions env) name = none →
            (m1.map.get? name).isSome = true → Mentions pc.options name := by
          intro name hf1 hf2 hsome
          obtain ⟨r, a, b⟩ := C104_value [(p0, false), (pc, false)] m1 (.cons s0 (.cons s1 (.nil _))) name
          have hdef : defaultFrom [(p0, false), (pc, false)] name = none := by
            simp only [defaultFrom, List.findSome?_cons, List.findSome?_nil, e1, commandLine_desc hpc, hf1, hf2]
          by_cases hm : Mentions pc.options name
          · exact hm
          · have : r = none := (Settled.det a (settled_silent (r := none) (by
              intro q hq
              simp only [List.mem_cons, List.not_mem_nil, or_false] at hq
              rcases hq with rfl | rfl
              · exact not_mentions_nil e2 name
              · exact hm)))
            rw [b, this, hdef] at hsome
            cases hsome
        rw [Bool.or_eq_true] at hx
        rcases hx with hx | hx
        · exact .inl (key _ rfl rfl hx)
        · exact .inr (key _ rfl rfl hx)
      · intro _ environ' files'
        unfold parseOptions
        rw [h0]
        simp only
        rw [h1]
        simp only
        rw [if_pos hx]
    · exfalso
      rw [if_neg hx] at h
      cases h2 : load (parseEnvironment environ (commonOptions env) mapper) m1 with
      | error f => rw [h2] at h; cases h
      | ok m2 =>
      rw [h2] at h
      simp only at h
      cases h3 : parseConfigFiles env files m2 with
      | error f => rw [h3] at h; cases h
      | ok m3 =>
      rw [h3] at h
      simp only at h
      cases h4 : loadFile env files (str% "default.cfg") m3 with
      | error f => rw [h4] at h; cases h
      | ok m4 => rw [h4] at h; cases h

def hierarchyFiles (n : Str) : Option Str :=
  if n = Test.L "a.cfg" then some (Test.L "verbosity=WARN\nrun-gui=no\ninclude-path=a\nmaster-file=x\n[network]\nip=::1\n")
  else if n = Test.L "default.cfg" then some (Test.L "verbosity=DEBUG\nrun-gui=yes\npath=p\nlog-dir=logs\ninclude-path=d\n[network]\nip=::2\n")
  else none

def hierarchyDemo : Except Fail Outcome :=
  parseOptions Test.env [Test.L "--config", Test.L "no.cfg", Test.L "-c", Test.L "a.cfg", Test.L "m", Test.L "-I", Test.L "c", Test.L "f", Test.L "g"]
    [Test.L "Path=/bin", Test.L "HOME=/root"] hierarchyFiles

set_option maxRecDepth 8000 in
/-- The command line, two configuration files (and one that is missing), the environment. -/
example : ∃ m, hierarchyDemo = .ok (.done m) ∧ (m.get (str% "path")).v = some (.scalar (.str (Test.L "/bin"))) ∧
    (m.get (str% "verbosity")).v = some (.scalar (.str (Test.L "WARN"))) ∧ (m.get (str% "log-dir")).v = some (.scalar (.str (Test.L "logs"))) ∧
    (m.get (str% "network.ip")).v = some (.scalar (.str (Test.L "::1"))) ∧ (m.get (str% "master-file")).v = some (.scalar (.str (Test.L "m"))) ∧
    (m.get (str% "file")).v = some (.vector .str [.str (Test.L "f"), .str (Test.L "g")]) ∧
    (m.get (str% "include-path")).v = some (.vector .str [.str (Test.L "c"), .str (Test.L "a"), .str (Test.L "d")]) ∧
    (m.get (str% "gui.width")).v = some (.scalar (.lex 0 100)) := by
  exact ⟨_, rfl, rfl, rfl, rfl, rfl, rfl, rfl, rfl, rfl⟩

set_option maxRecDepth 8000 in
/-- The comment on `bool_switch` in the example says that a configuration file cannot turn the switch off; it can, and then a later one cannot turn it on. -/
theorem C108_switch_off : ∃ m, hierarchyDemo = .ok (.done m) ∧ (m.get (str% "run-gui")).v = some (.scalar (.bool false)) ∧
    ∃ m', parseOptions Test.env [] [] hierarchyFiles = .ok (.done m') ∧ (m'.get (str% "run-gui")).v = some (.scalar (.bool true)) :=
  ⟨_, rfl, rfl, _, rfl, rfl⟩

set_option maxRecDepth 8000 in
example : parseOptions Test.env [Test.L "-v", Test.L "m"] [] hierarchyFiles = .ok .exits := rfl

end PO
