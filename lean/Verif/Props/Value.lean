import Verif.Model.Value
import Verif.Spec.Errors
import Verif.Tests.Util
/-
C42, C45: validators and token counts.
-/
namespace PO
open Spec

/-! ### C42 -/

def trueWords : List Str := [[], str% "on", str% "yes", str% "1", str% "true"]
def falseWords : List Str := [str% "off", str% "no", str% "0", str% "false"]

/-- **C42.** One token for a `bool` option (first occurrence): true, false or `invalid_bool_value`,
depending only on the case-folded token; no token at all means true. -/
theorem C42_bool_words (env : Env) (t : TypedValue) (ht : t.type = .scalar .bool) (hw : t.wide = false)
    (hi : t.implicit = none) (s : Str) :
    t.parse env none [s] false =
        (if s.map Char.toLower ∈ trueWords then (some (.scalar (.bool true)), none)
         else if s.map Char.toLower ∈ falseWords then (some (.scalar (.bool false)), none)
         else (none, some (aboutValue (.validation .invalidBoolValue) (s.map Char.toLower) [] [] 0))) ∧
      t.parse env none [] false = (some (.scalar (.bool true)), none) := by
  constructor
  · simp only [TypedValue.parse, hw, TypedValue.xparse, hi, validate, ht, validateScalar, getSingle,
      Bool.false_eq_true, if_false]
    change (match (match boolWord (s.map Char.toLower) with
      | some b => Except.ok (SVal.bool b)
      | none => Except.error (errInvalidBool (s.map Char.toLower))) with
      | .error f => (none, some f)
      | .ok r => (some (AVal.scalar r), none)) = _
    generalize s.map Char.toLower = u
    have h1 : u ∈ trueWords ↔
        u = [] ∨ u = str% "on" ∨ u = str% "yes" ∨ u = str% "1" ∨ u = str% "true" := by
      simp [trueWords]
    have h2 : u ∈ falseWords ↔
        u = str% "off" ∨ u = str% "no" ∨ u = str% "0" ∨ u = str% "false" := by
      simp [falseWords]
    unfold boolWord
    simp only [← h1, ← h2]
    by_cases a : u ∈ trueWords
    · simp only [if_pos a]
    · by_cases b : u ∈ falseWords
      · simp only [if_neg a, if_pos b]
      · simp only [if_neg a, if_neg b]
        rfl
  · simp [TypedValue.parse, hw, TypedValue.xparse, hi, validate, ht, validateScalar, getSingle, toLower, boolWord]

example : (boolSwitch).type = .scalar .bool ∧ (Test.L "YeS").map Char.toLower ∈ trueWords ∧
    (Test.L "OFF").map Char.toLower ∈ falseWords ∧ (Test.L "2").map Char.toLower ∉ trueWords ++ falseWords := by
  decide

/-- **C42, wide.** The same for an option of wide characters, with a token that stands for the wide text `s`. -/
theorem C42_wide_bool_words (env : Env) (t : TypedValue) (ht : t.type = .scalar .bool) (hw : t.wide = true) (utf8 : Bool) (tok : Str) (s : WStr)
    (hs : (if utf8 then env.fromUtf8 tok else env.fromLocal tok) = some s) :
    let u := s.map fun n => if 65 ≤ n ∧ n ≤ 90 then n + 32 else n
    t.parse env none [tok] utf8 =
      (if u ∈ trueWords.map (·.map Char.toNat) then (some (.scalar (.bool true)), none)
       else if u ∈ falseWords.map (·.map Char.toNat) then (some (.scalar (.bool false)), none)
       else (none, some (aboutValue (.validation .invalidBoolValue) ((env.toLocal u).getD (str% "<unrepresentable unicode string>")) [] [] 0))) := by
  dsimp only
  have hp : t.parse env none [tok] utf8 = t.xparse (wvalidateScalar env) none [s] := by
    simp only [TypedValue.parse, hw, if_true]
    cases utf8 <;> simp_all
  rw [hp]
  simp only [TypedValue.xparse, validate, ht, wvalidateScalar, getSingle]
  change (match (match wboolWord (s.map fun n => if 65 ≤ n ∧ n ≤ 90 then n + 32 else n) with
    | some b => Except.ok (SVal.bool b)
    | none => Except.error (errInvalidBool (convertValue env (s.map fun n => if 65 ≤ n ∧ n ≤ 90 then n + 32 else n)))) with
    | .error f => (none, some f)
    | .ok r => (some (AVal.scalar r), none)) = _
  generalize (s.map fun n => if 65 ≤ n ∧ n ≤ 90 then n + 32 else n) = u
  have h1 : u ∈ trueWords.map (·.map Char.toNat) ↔
      u = [] ∨ u = widen (str% "on") ∨ u = widen (str% "yes") ∨ u = widen (str% "1") ∨ u = widen (str% "true") := by
    simp [trueWords, widen]
  have h2 : u ∈ falseWords.map (·.map Char.toNat) ↔
      u = widen (str% "off") ∨ u = widen (str% "no") ∨ u = widen (str% "0") ∨ u = widen (str% "false") := by
    simp [falseWords, widen]
  unfold wboolWord
  simp only [← h1, ← h2]
  by_cases a : u ∈ trueWords.map (·.map Char.toNat)
  · simp only [if_pos a]
  · by_cases b : u ∈ falseWords.map (·.map Char.toNat)
    · simp only [if_neg a, if_pos b]
    · simp only [if_neg a, if_neg b]
      rfl

example : ([89, 69, 83] : WStr).map (fun n => if 65 ≤ n ∧ n ≤ 90 then n + 32 else n) ∈ trueWords.map (·.map Char.toNat) := by decide

/-! ### C45 -/

/-- One modifier call on a `typed_value` (value_semantic.hpp:193-298). -/
inductive Modifier
  | defaultValue (v : AVal) (text : Str)
  | implicitValue (v : AVal) (text : Str)
  | valueName (n : Str)
  | notifier (f : Nat)
  | composing | multitoken | zeroTokens | required

/-- Effect of a modifier (value_semantic.hpp:193-298). -/
def Modifier.apply (t : TypedValue) : Modifier → TypedValue
  | .defaultValue v s => { t with dflt := some (v, s) }
  | .implicitValue v s => { t with implicit := some (v, s) }
  | .valueName n => { t with valueName := n }
  | .notifier f => { t with notifier := some f }
  | .composing => { t with composing := true }
  | .multitoken => { t with multitoken := true }
  | .zeroTokens => { t with zeroTokens := true }
  | .required => { t with required := true }

/-- **C45.** Whatever modifiers are applied, in whatever order, to `value<T>()` or `bool_switch()`:
the token counts are one of five pairs, in particular min <= max. (4294967295 is the largest `unsigned`.) -/
theorem C45_token_counts (start : TypedValue) (ms : List Modifier) (env : Env) :
    let s := (ms.foldl Modifier.apply start).toSemantic env
    (s.minTokens, s.maxTokens) ∈ [(0, 0), (1, 1), (0, 1), (1, 4294967295), (0, 4294967295)] ∧
      s.minTokens ≤ s.maxTokens := by
  generalize ms.foldl Modifier.apply start = t
  simp only [TypedValue.toSemantic, TypedValue.minTokens, TypedValue.maxTokens]
  cases t.zeroTokens <;> cases t.implicit.isSome <;> cases t.multitoken <;> simp [uintMax]

/-- The counts follow the documented meaning of the modifiers applied. -/
theorem C45_token_counts_exact (start : TypedValue) (ms : List Modifier) (env : Env)
    (h0 : start.implicit = none) (h1 : start.multitoken = false) (h2 : start.zeroTokens = false) :
    let s := (ms.foldl Modifier.apply start).toSemantic env
    (s.minTokens = 0 ↔ (Modifier.zeroTokens ∈ ms ∨ ∃ v x, Modifier.implicitValue v x ∈ ms)) ∧
    (s.maxTokens = 4294967295 ↔ Modifier.multitoken ∈ ms) ∧
    (s.maxTokens = 0 ↔ Modifier.zeroTokens ∈ ms ∧ Modifier.multitoken ∉ ms) := by
  have key : ∀ (ms : List Modifier) (t : TypedValue),
      ((ms.foldl Modifier.apply t).implicit.isSome ↔ t.implicit.isSome ∨ ∃ v x, Modifier.implicitValue v x ∈ ms) ∧
      ((ms.foldl Modifier.apply t).multitoken = true ↔ t.multitoken = true ∨ Modifier.multitoken ∈ ms) ∧
      ((ms.foldl Modifier.apply t).zeroTokens = true ↔ t.zeroTokens = true ∨ Modifier.zeroTokens ∈ ms) := by
    intro ms
    induction ms with
    | nil => intro t; simp
    | cons m ms ih =>
      intro t
      obtain ⟨i1, i2, i3⟩ := ih (m.apply t)
      rw [List.foldl_cons, i1, i2, i3]
      cases m
      case implicitValue v x =>
        simp only [Modifier.apply, List.mem_cons, Modifier.implicitValue.injEq, reduceCtorEq, false_or,
          Option.isSome_some, true_or, and_self, and_true, true_iff]
        exact Or.inr ⟨v, x, Or.inl ⟨rfl, rfl⟩⟩
      all_goals simp [Modifier.apply]
  obtain ⟨k1, k2, k3⟩ := key ms start
  simp only [h0, h1, h2, Option.isSome_none, Bool.false_eq_true, false_or] at k1 k2 k3
  rw [← k1, ← k2, ← k3]
  generalize ms.foldl Modifier.apply start = t
  simp only [TypedValue.toSemantic, TypedValue.minTokens, TypedValue.maxTokens]
  cases t.zeroTokens <;> cases t.implicit.isSome <;> cases t.multitoken <;> simp [uintMax]

example : (([.zeroTokens, .multitoken] : List Modifier).foldl Modifier.apply Test.vint).maxTokens = 4294967295 := by decide

end PO
