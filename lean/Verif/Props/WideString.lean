import Verif.Props.Typed
/-
C69: exactly which values do not have the declared type.
-/
namespace PO
open Spec

theorem wideString_scalar (env : Env) (ws : List WStr) (r : SVal) (h : wvalidateScalar env .str ws = .ok r) : r.type = .wstr ∧ ws ≠ [] := by
  simp only [wvalidateScalar] at h
  cases ws with
  | nil => cases h
  | cons w ws =>
    refine ⟨?_, nofun⟩
    split at h
    · cases h
    · cases h; rfl

theorem mapM_nil_iff {α β : Type} (f : α → Option β) {xs : List α} {ys : List β} (h : xs.mapM f = some ys) : ys = [] ↔ xs = [] := by
  cases xs with
  | nil => simp only [List.mapM_nil] at h; cases h; simp
  | cons x xs =>
    rw [List.mapM_cons] at h
    cases hx : f x with
    | none => rw [hx] at h; cases h
    | some y =>
      rw [hx] at h
      cases hxs : xs.mapM f with
      | none => rw [hxs] at h; cases h
      | some zs => rw [hxs] at h; cases h; simp

/-- **C69, exactly which values:** the value a declaration of type `T` makes of some words has another type if and only if the declaration is
`wvalue<std::string>` and there are words (its implicit value has the right type). -/
theorem C69_exact (env : Env) (t : TypedValue) (ht : WellTyped t) (toks : List Str) (u : Bool) (x : AVal)
    (h : ((t.toSemantic env).parse none toks u).1 = some x) :
    x.type ≠ t.type ↔ t.wide = true ∧ t.type = .scalar .str ∧ toks ≠ [] := by
  by_cases hw : t.wide = true ∧ t.type = .scalar .str
  · obtain ⟨h1, h2⟩ := hw
    change (t.parse env none toks u).1 = some x at h
    unfold TypedValue.parse at h
    rw [if_pos h1] at h
    cases hm : toks.mapM (if u then env.fromUtf8 else env.fromLocal) with
    | none => rw [hm] at h; cases h
    | some ws =>
      rw [hm] at h
      have hn := mapM_nil_iff _ hm
      dsimp only at h
      have plain : (validate (wvalidateScalar env) t.type none ws).1 = some x →
          (x.type ≠ t.type ↔ t.wide = true ∧ t.type = .scalar .str ∧ toks ≠ []) := by
        intro h
        rw [h2] at h
        unfold validate at h
        dsimp only at h
        cases hv : wvalidateScalar env .str ws with
        | error f => rw [hv] at h; cases h
        | ok r =>
          rw [hv] at h
          cases h
          obtain ⟨e1, e2⟩ := wideString_scalar env ws r hv
          refine ⟨fun _ => ⟨h1, h2, fun e => e2 (hn.2 e)⟩, fun _ => ?_⟩
          rw [h2]
          show VType.scalar r.type ≠ _
          rw [e1]; decide
      unfold TypedValue.xparse at h
      cases ws with
      | cons w ws => exact plain h
      | nil =>
        cases hi : t.implicit with
        | none => rw [hi] at h; exact plain h
        | some q =>
          rw [hi] at h
          cases h
          exact ⟨fun hne => absurd (ht.implicit _ hi) hne, fun hh => absurd (hn.1 rfl) hh.2.2⟩
  · have := ((typed_keeps env t ht hw).parse none toks u nofun).1 x h
    exact ⟨fun hne => absurd this hne, fun hh => absurd ⟨hh.1, hh.2.1⟩ hw⟩

/-- Notifying of such a value dereferences a null pointer if and only if the value has another type and there is somebody to notify. -/
theorem C69_notify_exact (env : Env) (t : TypedValue) (ht : WellTyped t) (toks : List Str) (u : Bool) (x : AVal)
    (h : ((t.toSemantic env).parse none toks u).1 = some x) :
    ((t.toSemantic env).notify (some x)).2 = some (.ub .nullNotify) ↔
      (t.wide = true ∧ t.type = .scalar .str ∧ toks ≠ []) ∧ (t.storeTo ≠ none ∨ t.notifier ≠ none) := by
  rw [← C69_exact env t ht toks u x h]
  simp only [TypedValue.toSemantic, TypedValue.notify]
  cases t.storeTo <;> cases t.notifier <;> by_cases e : x.type = t.type <;> simp [e]

/-- **C69, exactly which declarations:** let `name` stand for one option of the descriptions, of type `T`, and let there be some text that can be
decoded. Then every value of `name`, whatever was stored before, successfully or not, has the type `T`, if and only if the option is not
`wvalue<std::string>`. -/
theorem C69_iff (env : Env) (t : TypedValue) (ht : WellTyped t) (hdec : ∃ s w, env.fromLocal s = some w) (desc : List OptionDesc) (name : Str)
    (h0 : name ≠ []) (d : OptionDesc) (hc : candidates desc name = [d]) (hd : d.semantic = t.toSemantic env)
    (hown : ∀ e ∈ desc, e.own = name → e = d) :
    (∀ srcs : List (Parsed × Bool), (∀ q ∈ srcs, q.1.desc = desc) → ((storesAny {} srcs).get name).empty = false →
      ∃ a, ((storesAny {} srcs).get name).as t.type = .ok a) ↔ ¬ (t.wide = true ∧ t.type = .scalar .str) := by
  constructor
  · intro h hw
    obtain ⟨s, w, hs⟩ := hdec
    have hp : (t.toSemantic env).parse none [s] false = (some (.scalar (.wstr w)), none) := by
      show t.parse env none [s] false = _
      unfold TypedValue.parse
      rw [if_pos hw.1]
      have : [s].mapM (if false = true then env.fromUtf8 else env.fromLocal) = some [w] := by
        simp [hs]
      rw [this]
      dsimp only
      unfold TypedValue.xparse
      dsimp only
      rw [hw.2]
      rfl
    have hg : (storesAny {} [({ desc := desc, options := [{ stringKey := name, value := [s] }] }, false)]).map.get? name
        = some { v := some (.scalar (.wstr w)), semantic := some d.semantic } := by
      have h1 := storeOne_open desc 0 false [] [] [] { stringKey := name, value := [s] } h0 rfl (by simp)
      dsimp only at h1
      rw [(find_ok_iff desc name d).2 hc] at h1
      have e : ((SMap.get? ([] : SMap VarValue) name).getD {}) = ({} : VarValue) := rfl
      dsimp only at h1
      rw [e] at h1
      have e2 : (if ({} : VarValue).defaulted = true then ({} : VarValue) else {}) = {} := rfl
      rw [e2, hd, show ({} : VarValue).v = none from rfl, hp] at h1
      dsimp only at h1
      show ((store _ {} false).1.map).get? name = _
      unfold store
      dsimp only
      rw [storeLoop, h1]
      dsimp only
      rw [storeLoop]
      dsimp only
      rw [applyAll_get, SMap.get?_set, if_pos rfl, hd]
    obtain ⟨a, ha⟩ := h [({ desc := desc, options := [{ stringKey := name, value := [s] }] }, false)]
      (by intro q hq; rw [List.mem_singleton.1 hq]) (by unfold VarMap.get; rw [hg]; rfl)
    unfold VarMap.get at ha
    rw [hg, hw.2] at ha
    cases ha
  · intro hw srcs hsrc he
    have hk : ∀ q ∈ srcs, ∀ e ∈ q.1.desc, candidates q.1.desc name = [e] ∨ e.own = name → Keeps e.semantic t.type := by
      intro q hq e hmem hce
      rw [hsrc q hq] at hmem hce
      have : e = d := by
        rcases hce with hce | hce
        · rw [hc] at hce; cases hce; rfl
        · exact hown e hmem hce
      rw [this, hd]
      exact typed_keeps env t ht hw
    have hf := storesAny_fitsType name t.type srcs hk {} (fun v hv => by cases hv)
    unfold VarMap.get at he ⊢
    cases hg : (storesAny {} srcs).map.get? name with
    | none => rw [hg] at he; cases he
    | some v =>
      rw [hg] at he
      simp only [Option.getD_some] at he ⊢
      have := (hf v hg).type
      unfold VarValue.empty at he
      unfold VarValue.as
      cases hv : v.v with
      | none => rw [hv] at he; cases he
      | some a => exact ⟨a, by simp [this a hv]⟩

example : (candidates (Ex.wideSrc none).desc (Test.L "s")) = (Ex.wideSrc none).desc := rfl

example : ((Test.sem (Ex.wideT none)).parse none [Test.L "x"] false).1 = some (.scalar (.wstr [120])) := rfl

example : ((Test.sem (Ex.wideT (some 0))).notify (some (.scalar (.wstr [120])))).2 = some (.ub .nullNotify) := rfl

end PO
