import Verif.Lemmas.CmdlineLike
import Verif.Props.Store
/-
C46, C58: from the sources to the variables map.
-/
namespace PO
open Spec

/-- An option declared under exactly this name is found under it when storing. -/
theorem find_exact {desc : List OptionDesc} {name : Str} {d : OptionDesc} (h : exacts desc name false false = [d]) :
    findOrThrow desc name false false false = .ok d := by
  rw [C01_find_throws, C01_lookup_decision, h]

theorem key_exact {d : OptionDesc} {name : Str} (h0 : name ≠ []) (h : d.own = name) : Exact d name false false := by
  rw [C01_exact_case_sensitive d name h0]
  rw [← key_nil, key_eq, reportedKey] at h
  cases hl : d.longNames with
  | nil => rw [hl] at h; exact .inr h.symm
  | cons n ns =>
    rw [hl] at h
    simp only [List.head?_cons] at h
    split at h
    · exact absurd h.symm h0
    · exact .inl (by simp [h])

/-- The default of an option declared under exactly this canonical name. -/
theorem firstDefault_exact {desc : List OptionDesc} {name : Str} {d : OptionDesc} (h0 : name ≠ []) (h : exacts desc name false false = [d])
    (hk : d.own = name) : firstDefault desc name = d.semantic.applyDefault.map fun a => (d.semantic, a) := by
  unfold firstDefault
  induction desc with
  | nil => simp [exacts] at h
  | cons e desc ih =>
    rw [List.findSome?_cons]
    rw [exacts_cons] at h
    by_cases he : Exact e name false false
    · rw [if_pos he] at h
      simp only [List.cons.injEq] at h
      obtain ⟨rfl, h⟩ := h
      rw [if_pos ⟨hk, h0⟩]
      have : desc.findSome? (fun d => if d.own = name ∧ name ≠ [] then d.semantic.applyDefault.map fun a => (d.semantic, a) else none) = none := by
        rw [List.findSome?_eq_none_iff]
        intro x hx
        rw [if_neg]
        rintro ⟨h1, _⟩
        have : x ∈ exacts desc name false false := List.mem_filter.2 ⟨hx, by simpa using key_exact h0 h1⟩
        rw [h] at this
        cases this
      cases e.semantic.applyDefault with
      | some a => rfl
      | none => simpa using this
    · rw [if_neg he] at h
      rw [if_neg (fun h1 => he (key_exact h0 h1.1))]
      exact ih h

/-! ### C46 -/

theorem boolSwitch_parse (e : Env) (s : Option Nat) (utf8 : Bool) (v : Any) :
    ((boolSwitch s).toSemantic e).parse v [] utf8 =
      match v with
      | none => (some (.scalar (.bool true)), none)
      | some a => (some a, some errMultipleOccurrences) := by
  cases utf8 <;> cases v <;> rfl

/-- **C46.** After parsing any command line and storing the result, a `bool_switch` option is true if it was given and false (and flagged as
default) otherwise. -/
theorem C46_true_iff_present (c : Cmdline) (hs : c.styleParser = none) (hid : Identified c)
    (hmm : ∀ d ∈ c.desc, d.semantic.minTokens ≤ d.semantic.maxTokens) (args : List Str) (hlen : args.length < 2147483648)
    (p : Parsed) (h : c.parse args = .ok p) (d : OptionDesc) (e : Env) (target : Option Nat) (hd : d.semantic = (boolSwitch target).toSemantic e)
    (name : Str) (h0 : name ≠ []) (hn : CanonicalName d name) (hex : exacts c.desc name false false = [d])
    (hpos : ∀ o ∈ p.options, o.stringKey = name → o.positionKey = -1) (utf8 : Bool) (m : VarMap) (hm : store p {} utf8 = (m, none)) :
    ((∃ o ∈ p.options, o.stringKey = name) → (m.get name).v = some (.scalar (.bool true)) ∧ (m.get name).defaulted = false) ∧
    ((∀ o ∈ p.options, o.stringKey ≠ name) → (m.get name).v = some (.scalar (.bool false)) ∧ (m.get name).defaulted = true) := by
  unfold Cmdline.parse at h
  cases hr : c.run args with
  | error f => rw [hr] at h; cases h
  | ok res =>
    rw [hr] at h
    simp only [Except.ok.injEq] at h
    subst h
    simp only at hpos ⊢
    have hdm : d ∈ c.desc := by
      have : d ∈ exacts c.desc name false false := by rw [hex]; simp
      exact (List.mem_filter.1 this).1
    have hden : Denotes c name d := .inl (hid d hdm name hn)
    have hreg : ∀ o ∈ res, o.stringKey = name → o.unregistered = false := by
      intro o ho hk
      cases hu : o.unregistered with
      | false => rfl
      | true =>
        have := (C17_flag c hs args res hr o ho hu).2.1
        rw [hk] at this
        have h1 := Cmdline.lookup_unknown.2 this
        rw [Cmdline.lookup_denotes.2 hden] at h1
        cases h1
    have hval : ∀ o ∈ res, o.stringKey = name → o.value = [] := by
      intro o ho hk
      obtain ⟨d', _, h1, _, h2⟩ := C18_token_counts c hs hid hmm args hlen res hr o ho (hpos o ho hk) (hreg o ho hk)
      rw [hk] at h1
      have := Cmdline.lookup_denotes.2 h1
      rw [Cmdline.lookup_denotes.2 hden] at this
      simp only [Except.ok.injEq, Option.some.injEq] at this
      subst this
      rw [hd] at h2
      have : ((boolSwitch target).toSemantic e).maxTokens = 0 := rfl
      rw [this] at h2
      exact List.length_eq_zero_iff.1 (by omega)
    constructor
    · rintro ⟨o, ho, hk⟩
      have hmen : Mentions res name := ⟨o, ho, hk, h0, hreg o ho hk⟩
      obtain ⟨d', a, h1, h2, h3, _⟩ := store_hit hm name hmen (by simp)
      rw [find_exact hex] at h1
      injection h1 with h1
      subst h1
      rw [VarMap.get, h3]
      refine ⟨?_, rfl⟩
      simp only [Option.getD_some]
      rw [show (VarMap.get {} name).v = none from rfl, ite_self] at h2
      simp only at h2
      have hocc : ∀ v ∈ (occurrences res name).map (·.value), v = [] := by
        intro v hv
        obtain ⟨q, hq, rfl⟩ := List.mem_map.1 hv
        have := List.mem_filter.1 hq
        simp only [decide_eq_true_eq] at this
        exact hval q this.1 this.2.1
      have hne : (occurrences res name).map (·.value) ≠ [] := by
        intro hh
        have : o ∈ occurrences res name := List.mem_filter.2 ⟨ho, by simpa using ⟨hk, h0, hreg o ho hk⟩⟩
        rw [List.map_eq_nil_iff] at hh
        rw [hh] at this
        cases this
      revert hocc hne h2
      generalize (occurrences res name).map (·.value) = l
      intro h2 hocc hne
      rw [hd] at h2
      rcases l with _ | ⟨x, _ | ⟨y, l⟩⟩
      · exact absurd rfl hne
      · rw [hocc x (by simp), parseAll, boolSwitch_parse] at h2
        simpa [parseAll] using h2.symm
      · rw [hocc x (by simp), hocc y (by simp), parseAll, boolSwitch_parse] at h2
        simp only at h2
        rw [parseAll, boolSwitch_parse] at h2
        cases h2
    · intro hno
      have hmen : ¬ Mentions res name := by
        rintro ⟨o, ho, hk, _⟩
        exact hno o ho hk
      obtain ⟨h1, _⟩ := store_miss hm name (.inl hmen)
      have hk : d.own = name := by
        rw [← key_nil, key_eq, reportedKey]
        rcases hn with ⟨h1, h2⟩ | ⟨h1, h2⟩
        · rw [h1]; simp only; rw [if_neg h2]
        · rw [h1]; exact h2
      rw [show (VarMap.map {}).get? name = none from rfl] at h1
      simp only at h1
      rw [firstDefault_exact h0 hex hk, hd] at h1
      rw [VarMap.get, h1]
      exact ⟨rfl, rfl⟩

/-- **C46, values:** giving a value to an option that takes none, as a `bool_switch` does, is an error. -/
theorem C46_value_rejected (c : Cmdline) (hs : c.styleParser = none) (hl : Enabled c Style.allowLong)
    (pre rest : List Str) (r : List Opt) (hpre : c.run pre = .ok r) (hdash : ['-', '-'] ∉ pre)
    (d : OptionDesc) (e : Env) (target : Option Nat) (hd : d.semantic = (boolSwitch target).toSemantic e)
    (name v : Str) (h0 : name ≠ []) (hn : '=' ∉ name) (hv : v ≠ []) (hden : Denotes c name d)
    (h1 : Unclaimed c ('-' :: '-' :: name ++ '=' :: v)) :
    ∃ err, c.run (pre ++ ('-' :: '-' :: name ++ '=' :: v) :: rest) = .error (.opt err) ∧ err.cls = .cmdlineSyntax .extraParameter := by
  obtain ⟨os, hp, _⟩ := (c.run_pass hs pre r).1 hpre
  generalize htok : '-' :: '-' :: name ++ '=' :: v = tok at *
  have hf : c.front tok = .ok [{ stringKey := name, value := [v], originalTokens := [tok] }] := by
    subst htok
    exact c.front_long_eq hl name v hn hv h1
  have hstep : ∀ fuel, ∃ err, c.loop (fuel + 1) (tok :: rest) = .error (.opt err) ∧ err.cls = .cmdlineSyntax .extraParameter := by
    intro fuel
    rw [Cmdline.loop, c.step_eq hs, hf]
    simp only
    rw [Cmdline.finishAll, Cmdline.finishOption, if_neg h0]
    simp only
    rw [Cmdline.lookup_denotes.2 hden]
    simp only
    rw [hd, if_pos (by exact Nat.zero_le _), if_pos ⟨by simp, rfl⟩]
    exact ⟨_, rfl, rfl⟩
  unfold Cmdline.run Cmdline.runFuel
  rw [c.loop_append hs pre (tok :: rest) os hp hdash _ (by omega)]
  have : (pre ++ tok :: rest).length = (pre.length + rest.length) + 1 := by simp; omega
  rw [this]
  obtain ⟨err, g1, g2⟩ := hstep (pre.length + rest.length + 1)
  rw [g1]
  exact ⟨err, rfl, g2⟩

def EndToEnd_demo : Cmdline :=
  { desc := [Test.od "verbose,v" (Test.sem boolSwitch), Test.od "level" (Test.sem { Test.vstr with dflt := some (.scalar (.str ['0']), ['0']) })] }

/-- The hypotheses hold, and the switch is stored. -/
example : Identified EndToEnd_demo ∧ (∀ d ∈ EndToEnd_demo.desc, d.semantic.minTokens ≤ d.semantic.maxTokens) ∧
    exacts EndToEnd_demo.desc (Test.L "verbose") false false = [Test.od "verbose,v" (Test.sem boolSwitch)] ∧
    (∃ p, EndToEnd_demo.parse [Test.L "x", Test.L "-v"] = .ok p ∧ (store p {}).2 = none ∧
      ((store p {}).1.get (Test.L "verbose")).v = some (.scalar (.bool true))) ∧
    (∃ p, EndToEnd_demo.parse [Test.L "x"] = .ok p ∧ (store p {}).2 = none ∧
      ((store p {}).1.get (Test.L "verbose")).v = some (.scalar (.bool false))) := by
  refine ⟨?_, ?_, rfl, ⟨_, rfl, by decide, by decide⟩, ⟨_, rfl, by decide, by decide⟩⟩
  · intro d hd k hk
    simp only [EndToEnd_demo, List.mem_cons, List.not_mem_nil, or_false] at hd
    rcases hd with rfl | rfl
    · rcases hk with ⟨h, _⟩ | ⟨h, _⟩
      · cases h; rfl
      · cases h
    · rcases hk with ⟨h, _⟩ | ⟨h, _⟩
      · cases h; rfl
      · cases h
  · intro d hd
    simp only [EndToEnd_demo, List.mem_cons, List.not_mem_nil, or_false] at hd
    rcases hd with rfl | rfl <;> decide

example : ∃ err, EndToEnd_demo.run [Test.L "x", Test.L "--verb=1"] = .error (.opt err) ∧ err.cls = .cmdlineSyntax .extraParameter := ⟨_, rfl, rfl⟩

/-! ### C58 -/

/-- A non-composing scalar without implicit value is stored from its only occurrence. -/
theorem store_scalar {p : Parsed} {xm m : VarMap} {utf8 : Bool} (hm : store p xm utf8 = (m, none)) {name : Str} (h0 : name ≠ [])
    (hf : name ∉ xm.final) (hdef : (if (xm.get name).defaulted then none else (xm.get name).v) = none)
    {d : OptionDesc} (hex : exacts p.desc name false false = [d]) {e : Env} {t : TypedValue} {st : SType} (hd : d.semantic = t.toSemantic e)
    (ht : t.type = .scalar st) (hi : t.implicit = none) (hc : t.composing = false)
    {o : Opt} (ho : o ∈ p.options) (hk : o.stringKey = name) (hu : o.unregistered = false) :
    m.map.get? name = some { v := (t.parse e none o.value utf8).1, defaulted := false, semantic := some d.semantic } ∧
      (t.parse e none o.value utf8).2 = none ∧ name ∈ m.final := by
  have hmen : Mentions p.options name := ⟨o, ho, hk, h0, hu⟩
  obtain ⟨d', a, h1, h2, h3, h4⟩ := store_hit hm name hmen hf
  rw [find_exact hex] at h1
  injection h1 with h1
  subst h1
  rw [hdef] at h2
  have hocc : o.value ∈ (occurrences p.options name).map (·.value) :=
    List.mem_map.2 ⟨o, List.mem_filter.2 ⟨ho, by simpa using ⟨hk, h0, hu⟩⟩, rfl⟩
  have hsome : ∀ toks, (t.parse e none toks utf8).2 = none → (t.parse e none toks utf8).1 ≠ none := by
    intro toks
    unfold TypedValue.parse TypedValue.xparse validate
    rw [ht, hi]
    cases t.wide <;> cases utf8 <;> simp only [Bool.false_eq_true, if_false, if_true] <;> split <;> (try (split <;> simp; done)) <;> simp
    all_goals (split <;> simp)
  have hagain : ∀ a toks, a ≠ none → (t.parse e a toks utf8).2 ≠ none := by
    intro a toks ha
    cases a with
    | none => exact absurd rfl ha
    | some a =>
      unfold TypedValue.parse TypedValue.xparse validate
      rw [ht, hi]
      cases t.wide <;> cases utf8 <;> simp only [Bool.false_eq_true, if_false, if_true] <;> (try split) <;> simp
  have key : ∀ l : List (List Str), o.value ∈ l → parseAll d.semantic utf8 none l = .ok a →
      (t.parse e none o.value utf8).2 = none ∧ (t.parse e none o.value utf8).1 = a := by
    intro l hl hp
    rw [hd] at hp
    rcases l with _ | ⟨x, _ | ⟨y, l⟩⟩
    · cases hl
    · simp only [List.mem_singleton] at hl
      subst hl
      simp only [parseAll, TypedValue.toSemantic] at hp
      split at hp
      · cases hp
      · rename_i heq
        rw [heq]
        simp only [Except.ok.injEq] at hp
        exact ⟨rfl, hp⟩
    · simp only [parseAll, TypedValue.toSemantic] at hp
      split at hp
      · cases hp
      · rename_i a1 heq
        have h5 := hsome x (by rw [heq])
        rw [heq] at h5
        have h6 := hagain a1 y h5
        split at hp
        · cases hp
        · rename_i heq2
          rw [heq2] at h6
          exact absurd rfl h6
  obtain ⟨k1, k2⟩ := key _ hocc h2
  refine ⟨?_, k1, h4.2 (by rw [hd]; exact hc)⟩
  rw [h3, k2]

/-- **C58.** A command line and then a configuration file are parsed and stored: a scalar option gets the value on the command line if it is
there, else the value in the file if it is there, else its default, else nothing. -/
theorem C58_priority (c : Cmdline) (args : List Str) (p1 : Parsed) (hp1 : c.parse args = .ok p1)
    (text : Str) (au : Bool) (p2 : Parsed) (hp2 : parseConfigFile text c.desc au = .ok p2)
    (m1 m2 : VarMap) (hm1 : store p1 {} = (m1, none)) (hm2 : store p2 m1 = (m2, none))
    (d : OptionDesc) (e : Env) (t : TypedValue) (st : SType) (hd : d.semantic = t.toSemantic e)
    (ht : t.type = .scalar st) (hi : t.implicit = none) (hc : t.composing = false)
    (name : Str) (h0 : name ≠ []) (hk : d.own = name) (hex : exacts c.desc name false false = [d]) :
    (∀ o ∈ p1.options, o.stringKey = name → o.unregistered = false →
      (t.parse e none o.value false).2 = none ∧ (m2.get name).v = (t.parse e none o.value false).1 ∧ (m2.get name).defaulted = false) ∧
    ((∀ o ∈ p1.options, o.stringKey = name → o.unregistered = true) →
      (∀ o ∈ p2.options, o.stringKey = name → o.unregistered = false →
        (t.parse e none o.value false).2 = none ∧ (m2.get name).v = (t.parse e none o.value false).1 ∧ (m2.get name).defaulted = false) ∧
      ((∀ o ∈ p2.options, o.stringKey = name → o.unregistered = true) →
        (m2.get name).v = t.dflt.map (·.1) ∧ (m2.get name).defaulted = t.dflt.isSome)) := by
  have hd1 : p1.desc = c.desc := by
    unfold Cmdline.parse at hp1
    split at hp1
    · cases hp1
    · injection hp1 with hp1; rw [← hp1]
  have hd2 : p2.desc = c.desc := by
    unfold parseConfigFile at hp2
    repeat (split at hp2; · cases hp2)
    injection hp2 with hp2; rw [← hp2]
  have hnot : ∀ os : List Opt, (∀ o ∈ os, o.stringKey = name → o.unregistered = true) → ¬ Mentions os name := by
    rintro os h ⟨o, ho, h1, _, h2⟩
    rw [h o ho h1] at h2
    cases h2
  refine ⟨?_, ?_⟩
  · intro o ho h1 h2
    obtain ⟨g1, g2, g3⟩ := store_scalar hm1 h0 (by simp) (by simp [VarMap.get, SMap.get?]) (hd1 ▸ hex) hd ht hi hc ho h1 h2
    obtain ⟨g4, _⟩ := store_miss hm2 name (.inr g3)
    rw [g1] at g4
    rw [VarMap.get, g4]
    exact ⟨g2, rfl, rfl⟩
  · intro hno
    obtain ⟨g1, g2⟩ := store_miss hm1 name (.inl (hnot _ hno))
    rw [show (VarMap.map {}).get? name = none from rfl, hd1, firstDefault_exact h0 hex hk, hd] at g1
    simp only at g1
    refine ⟨?_, ?_⟩
    · intro o ho h1 h2
      obtain ⟨g3, g4, _⟩ := store_scalar hm2 h0 (fun hh => by simpa using g2.1 hh) (by
        rw [VarMap.get, g1]
        cases hq : t.dflt <;> simp [TypedValue.toSemantic, hq]) (hd2 ▸ hex) hd ht hi hc ho h1 h2
      rw [VarMap.get, g3]
      exact ⟨g4, rfl, rfl⟩
    · intro hno2
      obtain ⟨g3, _⟩ := store_miss hm2 name (.inl (hnot _ hno2))
      rw [g1, hd2, firstDefault_exact h0 hex hk, hd] at g3
      rw [VarMap.get, g3]
      cases hq : t.dflt <;> simp [TypedValue.toSemantic, hq]

/-- The four cases. -/
def C58_demo (args : List Str) (text : Str) (name : Str) : Option Any :=
  match EndToEnd_demo.parse args, parseConfigFile text EndToEnd_demo.desc with
  | .ok p1, .ok p2 =>
    match store p1 {} with
    | (m1, none) =>
      match store p2 m1 with
      | (m2, none) => some (m2.get name).v
      | _ => none
    | _ => none
  | _, _ => none

example :
    C58_demo [Test.L "--level=1"] (Test.L "level=2") (Test.L "level") = some (some (.scalar (.str ['1']))) ∧
    C58_demo [Test.L "-v"] (Test.L "level=2") (Test.L "level") = some (some (.scalar (.str ['2']))) ∧
    C58_demo [Test.L "-v"] [] (Test.L "level") = some (some (.scalar (.str ['0']))) ∧
    (Test.od "level" (Test.sem { Test.vstr with dflt := some (.scalar (.str ['0']), ['0']) })).own = Test.L "level" ∧
    exacts EndToEnd_demo.desc (Test.L "level") false false =
      [Test.od "level" (Test.sem { Test.vstr with dflt := some (.scalar (.str ['0']), ['0']) })] := by
  refine ⟨by decide, by decide, by decide, by decide, rfl⟩

end PO
