import Verif.Spec.Variables
import Verif.Props.OwnName
import Verif.Props.Stored
/-
C101: which variables set which options.
-/
namespace PO
open Spec

/-- What the environment parser makes of the variables, in terms of names and values. -/
theorem env_occurrences (vars : List (Str × Str)) (hv : ∀ v ∈ vars, '=' ∉ v.1) (desc : List OptionDesc) (pre : Str) (p : Parsed)
    (h : parseEnvironmentPrefix (vars.map envEntry) desc pre = .ok p) :
    p.desc = desc ∧ ∀ name, (occurrences p.options name).map (·.value) = (variableValues pre vars name).map ([·]) := by
  have h1 := h
  unfold parseEnvironmentPrefix at h1
  rw [C32_environment_mapper vars hv desc (prefixMapper pre)] at h1
  cases h1
  refine ⟨rfl, fun name => ?_⟩
  obtain ⟨p', h2, h3⟩ := C32_environment_prefix vars hv desc pre
  rw [h] at h2
  cases h2
  rw [h3]
  clear h3 h
  unfold occurrences variableValues
  induction vars with
  | nil => rfl
  | cons v vs ih =>
    have ih := ih fun w hw => hv w (List.mem_cons_of_mem _ hw)
    have hiff : (pre <+: v.1 ∧ v.1.length > pre.length) ∧ ((v.1.drop pre.length).map Char.toLower = name ∧ name ≠ []) ↔ StandsFor pre v.1 name := by
      unfold StandsFor
      constructor
      · rintro ⟨⟨a, -⟩, b, c⟩; exact ⟨a, c, b⟩
      · rintro ⟨a, b, c⟩
        refine ⟨⟨a, ?_⟩, c, b⟩
        rw [← c] at b
        simp only [ne_eq, List.map_eq_nil_iff, List.drop_eq_nil_iff, Nat.not_le] at b
        omega
    by_cases hs : StandsFor pre v.1 name
    · obtain ⟨a, b⟩ := hiff.2 hs
      rw [List.filter_cons_of_pos (by simpa using a), List.map_cons, List.filter_cons_of_pos (by simpa using b), List.map_cons,
        List.filter_cons_of_pos (by simpa using hs), List.map_cons, List.map_cons, ih]
    · rw [List.filter_cons_of_neg (p := fun v : Str × Str => StandsFor pre v.1 name) (by simpa using hs), ← ih]
      by_cases ha : pre <+: v.1 ∧ v.1.length > pre.length
      · rw [List.filter_cons_of_pos (by simpa using ha), List.map_cons]
        have hb : ¬ ((v.1.drop pre.length).map Char.toLower = name ∧ name ≠ []) := fun hb => hs (hiff.1 ⟨ha, hb⟩)
        rw [List.filter_cons_of_neg (by simpa using hb)]
      · rw [List.filter_cons_of_neg (by simpa using ha)]

theorem env_mentions {vars : List (Str × Str)} (hv : ∀ v ∈ vars, '=' ∉ v.1) {desc : List OptionDesc} {pre : Str} {p : Parsed}
    (h : parseEnvironmentPrefix (vars.map envEntry) desc pre = .ok p) (name : Str) : Mentions p.options name ↔ variableValues pre vars name ≠ [] := by
  have := (env_occurrences vars hv desc pre p h).2 name
  have h2 : occurrences p.options name = [] ↔ variableValues pre vars name = [] := by
    rw [← List.map_eq_nil_iff (f := fun o : Opt => o.value), this, List.map_eq_nil_iff]
  rw [mentions_iff, ne_eq, ne_eq, h2]

/-- **C101, exactly:** the variables with the prefix can be stored if and only if each of them stands for a name that one declared option goes
by, and the option accepts the values of all of its variables. -/
theorem C101_accepted_iff (env : Env) (vars : List (Str × Str)) (hv : ∀ v ∈ vars, '=' ∉ v.1) (desc : List OptionDesc) (pre : Str)
    (ht : ∀ d ∈ desc, ∃ t : TypedValue, d.semantic = t.toSemantic env) (xm : VarMap) (utf8 : Bool) :
    ∃ p, parseEnvironmentPrefix (vars.map envEntry) desc pre = .ok p ∧
      ((store p xm utf8).2 = none ↔ ∀ name, variableValues pre vars name ≠ [] → name ∉ xm.final → ∃ d t texts r,
        candidates desc name = [d] ∧ d.semantic = TypedValue.toSemantic env t ∧
        AllArrive env t.wide utf8 ((variableValues pre vars name).map ([·])) texts ∧ Gets env t (given xm name) texts r) := by
  obtain ⟨p, hp, -⟩ := C32_environment_prefix vars hv desc pre
  refine ⟨p, hp, ?_⟩
  obtain ⟨hd, ho⟩ := env_occurrences vars hv desc pre p hp
  rw [C87_succeeds env p xm utf8 (by rw [hd]; exact ht)]
  refine forall_congr' fun name => ?_
  rw [env_mentions hv hp, ho name, hd]

/-- The value: what the option makes of the values of its variables. -/
theorem C101_value (env : Env) (vars : List (Str × Str)) (hv : ∀ v ∈ vars, '=' ∉ v.1) (desc : List OptionDesc) (pre : Str) (p : Parsed)
    (hp : parseEnvironmentPrefix (vars.map envEntry) desc pre = .ok p) (xm m : VarMap) (utf8 : Bool) (h : store p xm utf8 = (m, none)) (name : Str)
    (hn : variableValues pre vars name ≠ []) (hf : name ∉ xm.final) (d : OptionDesc) (hd : candidates desc name = [d]) (t : TypedValue)
    (ht : d.semantic = t.toSemantic env) :
    ∃ texts r, AllArrive env t.wide utf8 ((variableValues pre vars name).map ([·])) texts ∧ Gets env t (given xm name) texts r ∧
      m.map.get? name = some { v := r, defaulted := false, semantic := some d.semantic } := by
  obtain ⟨hdesc, ho⟩ := env_occurrences vars hv desc pre p hp
  rw [← ho name]
  exact C87_stored env p xm m utf8 h name ((env_mentions hv hp name).2 hn) hf d (by rw [hdesc]; exact hd) t ht

/-- A variable that stands for no option makes the store fail, whatever the other variables. -/
theorem C101_stranger (vars : List (Str × Str)) (hv : ∀ v ∈ vars, '=' ∉ v.1) (desc : List OptionDesc) (pre : Str) (p : Parsed)
    (hp : parseEnvironmentPrefix (vars.map envEntry) desc pre = .ok p) (xm : VarMap) (utf8 : Bool) (name : Str) (hn : variableValues pre vars name ≠ [])
    (hf : name ∉ xm.final) (hc : candidates desc name = []) : ∃ f, (store p xm utf8).2 = some f := by
  obtain ⟨hd, -⟩ := env_occurrences vars hv desc pre p hp
  cases h : (store p xm utf8).2 with
  | some f => exact ⟨f, rfl⟩
  | none =>
    obtain ⟨d, _, h1, -⟩ := (C65_succeeds p xm utf8).1 h name ((env_mentions hv hp name).2 hn) hf
    rw [hd, hc] at h1
    cases h1

/-- An option all of whose names have upper-case letters cannot be set by any variable. (Families apart, whose members are not looked at.) -/
theorem C101_unreachable (vars : List (Str × Str)) (hv : ∀ v ∈ vars, '=' ∉ v.1) (desc : List OptionDesc) (pre : Str) (p : Parsed)
    (hp : parseEnvironmentPrefix (vars.map envEntry) desc pre = .ok p) (d : OptionDesc) (hl : ∀ n ∈ d.longNames, HasUpper n ∧ n.getLast? ≠ some '*')
    (hs : HasUpper d.shortName ∨ d.shortName = []) (o : Opt) : ¬ Setting p o d := by
  rintro ⟨hm, hk, hr, hd⟩
  have hlow : o.stringKey.map Char.toLower = o.stringKey := by
    have : Mentions p.options o.stringKey := ⟨o, hm, rfl, hk, hr⟩
    rw [env_mentions hv hp] at this
    obtain ⟨v, hv⟩ := List.exists_mem_of_ne_nil _ this
    obtain ⟨w, hw, -⟩ := List.mem_map.1 hv
    have := (List.mem_filter.1 hw).2
    simp only [decide_eq_true_eq] at this
    obtain ⟨-, -, h⟩ := this
    rw [← h]
    exact toLower_toLower _
  have hmem : Exact d o.stringKey false false ∨ Approximate d o.stringKey false false := by
    have : d ∈ candidates p.desc o.stringKey := by rw [hd]; exact List.mem_singleton.2 rfl
    unfold candidates at this
    split at this
    · exact .inl (by simpa using (List.mem_filter.1 this).2)
    · have := (List.mem_filter.1 this).2
      simp only [decide_eq_true_eq] at this
      exact .inr this.2
  rcases hmem with (⟨n, hn, -, he⟩ | he) | ⟨n, hn, -, ⟨h0, -⟩ | ⟨stem, he, -⟩⟩
  · simp only [fold, Bool.false_eq_true, if_false] at he
    exact (hl n hn).1 (he ▸ hlow)
  · simp only [fold, Bool.false_eq_true, if_false] at he
    rcases hs with hs | hs
    · exact hs (he ▸ hlow)
    · exact hk (he ▸ hs)
  · cases h0
  · simp only [fold, Bool.false_eq_true, if_false] at he
    exact (hl n hn).2 (by rw [he, List.getLast?_concat])

/-- Every other option can be set, by a variable with its name in any letter case. -/
theorem C101_reachable_partial (desc : List OptionDesc) (pre rest v : Str) (hr : rest ≠ []) (h : '=' ∉ pre ++ rest) (d : OptionDesc)
    (hd : candidates desc (rest.map Char.toLower) = [d]) :
    ∃ p o, parseEnvironmentPrefix [envEntry (pre ++ rest, v)] desc pre = .ok p ∧ p.options = [o] ∧ Setting p o d ∧ o.value = [v] := by
  obtain ⟨p, hp, ho⟩ := C32_environment_prefix [(pre ++ rest, v)] (by simpa using h) desc pre
  have hd' := (env_occurrences [(pre ++ rest, v)] (by simpa using h) desc pre p hp).1
  have hl : 0 < rest.length := List.length_pos_iff.2 hr
  rw [List.filter_cons_of_pos (by simpa using hl)] at ho
  simp only [List.filter_nil, List.map_cons, List.map_nil, List.drop_left] at ho
  refine ⟨p, _, hp, ho, ⟨by rw [ho]; exact List.mem_singleton.2 rfl, by simpa using hr, rfl, ?_⟩, rfl⟩
  rw [hd']
  exact hd

/-- The full claim: each declared name can be set by a variable. -/
def C101_claim : Prop := ∀ (desc : List OptionDesc) (pre name : Str) (d : OptionDesc), '=' ∉ pre ++ name → name ≠ [] → candidates desc name = [d] →
  ∃ (vars : List (Str × Str)) (p : Parsed) (o : Opt), (∀ v ∈ vars, '=' ∉ v.1) ∧ parseEnvironmentPrefix (vars.map envEntry) desc pre = .ok p ∧ Setting p o d

/-- **C101 is violated:** no variable sets the option `logLevel`. -/
theorem C101_negation : ¬ C101_claim := by
  intro h
  obtain ⟨vars, p, o, hv, hp, hs⟩ := h [Test.od "logLevel" (Test.sem Test.vstr)] (Test.L "APP_") (Test.L "logLevel") _ (by decide) (by decide) rfl
  refine C101_unreachable vars hv _ _ p hp _ ?_ (.inr rfl) o hs
  rw [show (Test.od "logLevel" (Test.sem Test.vstr)).longNames = [Test.L "logLevel"] from by decide]
  intro n hn
  rw [List.mem_singleton] at hn
  subst hn
  exact ⟨by unfold HasUpper; decide, by decide⟩

/-- A variable of another program that happens to have the prefix, too. -/
example : variableValues (Test.L "APP_") [(Test.L "APP_LEVEL", ['3']), (Test.L "APP_HOME", ['/'])] (Test.L "home") ≠ [] ∧
    candidates [Test.od "level" (Test.sem Test.vstr)] (Test.L "home") = [] := by decide

/-- `PO_X` and `PO_x` both stand for `x`. -/
example : variableValues (Test.L "PO_") [(Test.L "PO_X", ['1']), (Test.L "HOME", ['/']), (Test.L "PO_x", ['2'])] ['x'] = [['1'], ['2']] := by decide

example : ∃ p o, parseEnvironmentPrefix [envEntry (Test.L "PO_Level", ['3'])] [Test.od "level" (Test.sem Test.vstr)] (Test.L "PO_") = .ok p ∧ p.options = [o] ∧
    Setting p o (Test.od "level" (Test.sem Test.vstr)) ∧ o.value = [['3']] :=
  C101_reachable_partial _ (Test.L "PO_") (Test.L "Level") ['3'] (by decide) (by decide) _ rfl

end PO
