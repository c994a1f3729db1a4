import Verif.Lemmas.Str
import Verif.Model.Parsers
import Verif.Tests.Util
/-
C32: options from the environment.
-/
namespace PO

/-- The entry `NAME=value` of the process environment. -/
def envEntry (v : Str × Str) : Str := v.1 ++ '=' :: v.2

theorem splitEnv_entry (v : Str × Str) (h : '=' ∉ v.1) : splitEnv (envEntry v) = .ok v := by
  unfold splitEnv envEntry
  rw [findChar_append h]
  obtain ⟨n, w⟩ := v
  simp

/-- **C32, any name mapper.** Each variable whose name the mapper accepts (maps to a non-empty name)
becomes one option with the mapped name and the unchanged value, in environment order; the others
are ignored. -/
theorem C32_environment_mapper (vars : List (Str × Str)) (hv : ∀ v ∈ vars, '=' ∉ v.1)
    (desc : List OptionDesc) (mapper : Str → Str) :
    parseEnvironment (vars.map envEntry) desc mapper =
      .ok { desc, options := (vars.filter fun v => mapper v.1 ≠ []).map
              fun v => { stringKey := mapper v.1, value := [v.2] } } := by
  have key : parseEnvironmentLoop mapper (vars.map envEntry) =
      .ok ((vars.filter fun v => mapper v.1 ≠ []).map fun v => { stringKey := mapper v.1, value := [v.2] }) := by
    induction vars with
    | nil => rfl
    | cons v vs ih =>
      simp only [List.map_cons, parseEnvironmentLoop]
      rw [splitEnv_entry v (hv v (by simp)), ih fun w hw => hv w (by simp [hw])]
      by_cases h : mapper v.1 = []
      · simp [h]
      · simp [h]
  simp [parseEnvironment, key]

/-- **C32.** With a prefix: exactly the variables whose name properly extends the prefix, named by
the lower-cased rest, values unchanged, in environment order. -/
theorem C32_environment_prefix (vars : List (Str × Str)) (hv : ∀ v ∈ vars, '=' ∉ v.1)
    (desc : List OptionDesc) (pre : Str) :
    ∃ p, parseEnvironmentPrefix (vars.map envEntry) desc pre = .ok p ∧
      p.options = (vars.filter fun v => pre <+: v.1 ∧ v.1.length > pre.length).map
        fun v => { stringKey := (v.1.drop pre.length).map Char.toLower, value := [v.2] } := by
  refine ⟨_, C32_environment_mapper vars hv desc (prefixMapper pre), ?_⟩
  have hm : ∀ s, prefixMapper pre s = if pre <+: s then (s.drop pre.length).map Char.toLower else [] := by
    intro s
    unfold prefixMapper
    by_cases h : pre <+: s
    · rw [if_pos h, if_pos ((findSub_eq_zero _ _).2 h)]; rfl
    · rw [if_neg h, if_neg fun h' => h ((findSub_eq_zero _ _).1 h')]
  have hf : ∀ v : Str × Str, decide (prefixMapper pre v.1 ≠ []) =
      decide (pre <+: v.1 ∧ v.1.length > pre.length) := by
    intro v
    rw [decide_eq_decide, hm]
    by_cases h : pre <+: v.1
    · simp [h]
    · simp [h]
  simp only [hf]
  apply List.map_congr_left
  intro v hvm
  simp only [List.mem_filter, decide_eq_true_eq] at hvm
  rw [hm, if_pos hvm.2.1]

example : (∀ v ∈ [(Test.L "PO_Foo", Test.L "a=b"), (Test.L "PO_", Test.L "x"), (Test.L "HOME", Test.L "/")], '=' ∉ v.1) ∧
    (parseEnvironmentPrefix ([(Test.L "PO_Foo", Test.L "a=b"), (Test.L "PO_", Test.L "x"), (Test.L "HOME", Test.L "/")].map envEntry)
      [] (Test.L "PO_")).toOption.map (·.options.map fun o => (o.stringKey, o.value)) = some [(Test.L "foo", [Test.L "a=b"])] := by
  decide

end PO
