import Verif.Props.StoreGrammar
import Verif.Spec.Typed
/-
C69: stored values have the declared type.
-/
namespace PO
open Spec

/-- `wvalue<std::string>`, whose validator stores a `std::wstring`. -/
def WideString (s : ValueSemantic) : Prop := ∃ env t, s = TypedValue.toSemantic env t ∧ t.wide = true ∧ t.type = .scalar .str

/-- The full claim: whatever is stored, successfully or not, a value has the type of its option. -/
def C69_claim : Prop := ∀ (srcs : List (Parsed × Bool)) (name : Str) (T : VType), (∀ q ∈ srcs, HasType q.1.desc name T) →
  ((storesAny {} srcs).get name).empty = false → ∃ a, ((storesAny {} srcs).get name).as T = .ok a

/-- The same for `notify`: no undefined behaviour. -/
def C69_notify_claim : Prop := ∀ (srcs : List (Parsed × Bool)), (∀ name, ∃ T, ∀ q ∈ srcs, HasType q.1.desc name T) →
  ∀ u, (storesAny {} srcs).notify.2 ≠ some (.ub u)

/-- A semantic that keeps values in the type `T`. -/
structure Keeps (s : ValueSemantic) (T : VType) : Prop where
  parse : ∀ v toks u, (∀ x, v = some x → x.type = T) →
    (∀ x, (s.parse v toks u).1 = some x → x.type = T) ∧ ((s.parse v toks u).2 = none → (s.parse v toks u).1 ≠ none) ∧
      ((s.parse v toks u).1 = none → v = none)
  dflt : ∀ a, s.applyDefault = some a → ∃ x, a = some x ∧ x.type = T
  notify : ∀ x, x.type = T → (s.notify (some x)).2 = none

theorem validateScalar_type (env : Env) (t : SType) (xs : List Str) (r : SVal) (h : validateScalar env t xs = .ok r) : r.type = t := by
  cases t with
  | bool =>
    simp only [validateScalar] at h
    split at h
    · cases h
    · split at h
      · cases h; rfl
      · cases h
  | str => simp only [validateScalar] at h; split at h <;> cases h; rfl
  | wstr => simp only [validateScalar] at h; split at h <;> cases h
  | lex ty =>
    simp only [validateScalar] at h
    split at h
    · cases h
    · split at h
      · cases h; rfl
      · cases h

theorem wvalidateScalar_type (env : Env) (t : SType) (ht : t ≠ .str) (xs : List WStr) (r : SVal) (h : wvalidateScalar env t xs = .ok r) : r.type = t := by
  cases t with
  | bool =>
    simp only [wvalidateScalar] at h
    split at h
    · cases h
    · split at h
      · cases h; rfl
      · cases h
  | str => exact absurd rfl ht
  | wstr => simp only [wvalidateScalar] at h; split at h <;> cases h; rfl
  | lex ty =>
    simp only [wvalidateScalar] at h
    split at h
    · cases h
    · split at h
      · cases h; rfl
      · cases h

theorem validate_keeps {α : Type} (scalar : SType → List α → Except Fail SVal) (T : VType)
    (hs : ∀ st, T = .scalar st → ∀ xs r, scalar st xs = .ok r → r.type = st) (v : Any) (xs : List α) (hv : ∀ x, v = some x → x.type = T) :
    (∀ x, (validate scalar T v xs).1 = some x → x.type = T) ∧ ((validate scalar T v xs).2 = none → (validate scalar T v xs).1 ≠ none) ∧
      ((validate scalar T v xs).1 = none → v = none) := by
  cases T with
  | scalar st =>
    unfold validate
    cases v with
    | some w => simp only; exact ⟨hv, nofun, nofun⟩
    | none =>
      simp only
      cases h : scalar st xs with
      | error f => exact ⟨nofun, nofun, fun _ => by trivial⟩
      | ok r =>
        refine ⟨?_, nofun, nofun⟩
        intro x hx
        cases hx
        show VType.scalar r.type = _
        rw [hs st rfl xs r h]
  | vector st =>
    unfold validate
    cases v with
    | none => simp only; refine ⟨?_, nofun, nofun⟩; intro x hx; cases hx; rfl
    | some w =>
      have := hv w rfl
      cases w with
      | scalar => cases this
      | optional => cases this
      | vector st' vs =>
        have e : st' = st := by injection this
        simp only [if_pos e]
        refine ⟨?_, nofun, nofun⟩; intro x hx; cases hx; rfl
  | optional st =>
    unfold validate
    cases v with
    | some w => simp only; exact ⟨hv, nofun, nofun⟩
    | none =>
      cases xs with
      | nil => exact ⟨nofun, nofun, fun _ => by trivial⟩
      | cons x xs =>
        cases xs with
        | cons y xs => exact ⟨nofun, nofun, fun _ => by trivial⟩
        | nil =>
          simp only
          cases h : scalar st [x] with
          | error f => exact ⟨nofun, nofun, fun _ => by trivial⟩
          | ok r =>
            simp only
            by_cases hr : r.type = st
            · rw [if_pos hr]
              refine ⟨?_, nofun, nofun⟩
              intro z hz; cases hz; rfl
            · rw [if_neg hr]; exact ⟨nofun, nofun, fun _ => by trivial⟩

theorem xparse_keeps {α : Type} (scalar : SType → List α → Except Fail SVal) (t : TypedValue) (ht : WellTyped t)
    (hs : ∀ st, t.type = .scalar st → ∀ xs r, scalar st xs = .ok r → r.type = st) (v : Any) (xs : List α) (hv : ∀ x, v = some x → x.type = t.type) :
    (∀ x, (t.xparse scalar v xs).1 = some x → x.type = t.type) ∧ ((t.xparse scalar v xs).2 = none → (t.xparse scalar v xs).1 ≠ none) ∧
      ((t.xparse scalar v xs).1 = none → v = none) := by
  unfold TypedValue.xparse
  split
  · rename_i iv _ hi
    refine ⟨?_, nofun, nofun⟩
    intro x hx; cases hx
    exact ht.implicit _ hi
  · exact validate_keeps scalar t.type hs v _ hv

theorem typed_keeps (env : Env) (t : TypedValue) (ht : WellTyped t) (hw : ¬ (t.wide = true ∧ t.type = .scalar .str)) :
    Keeps (t.toSemantic env) t.type := by
  constructor
  · intro v toks u hv
    show (∀ x, (t.parse env v toks u).1 = some x → _) ∧ _
    show _ ∧ ((t.parse env v toks u).2 = none → (t.parse env v toks u).1 ≠ none) ∧ ((t.parse env v toks u).1 = none → v = none)
    unfold TypedValue.parse
    by_cases h1 : t.wide = true
    · rw [if_pos h1]
      split
      · exact ⟨hv, nofun, fun h => h⟩
      · refine xparse_keeps _ t ht ?_ v _ hv
        intro st hst xs r hr
        exact wvalidateScalar_type env st (fun he => hw ⟨h1, by rw [hst, he]⟩) xs r hr
    · have hn : ∀ st, t.type = .scalar st → ∀ xs r, validateScalar env st xs = .ok r → r.type = st :=
        fun st _ xs r hr => validateScalar_type env st xs r hr
      rw [if_neg h1]
      by_cases h2 : u = true
      · rw [if_pos h2]
        split
        · exact ⟨hv, nofun, fun h => h⟩
        · exact xparse_keeps _ t ht hn v _ hv
      · rw [if_neg h2]; exact xparse_keeps _ t ht hn v _ hv
  · intro a ha
    simp only [TypedValue.toSemantic, Option.map_eq_some_iff] at ha
    obtain ⟨q, hq, rfl⟩ := ha
    exact ⟨q.1, rfl, ht.dflt q hq⟩
  · intro x hx
    simp only [TypedValue.toSemantic, TypedValue.notify]
    split
    · rfl
    · rfl

theorem untyped_keeps (env : Env) (zero : Bool) : Keeps (untypedValue env zero) (.scalar .str) := by
  constructor
  · intro v toks u hv
    cases u with
    | false =>
      cases v with
      | some w =>
        have e : (untypedValue env zero).parse (some w) toks false = (some w, some errMultipleOccurrences) := rfl
        rw [e]; exact ⟨hv, nofun, nofun⟩
      | none =>
        match toks with
        | [] => exact ⟨by intro x hx; cases hx; rfl, nofun, nofun⟩
        | [x] => exact ⟨by intro x hx; cases hx; rfl, nofun, nofun⟩
        | x :: y :: l =>
          have e : (untypedValue env zero).parse none (x :: y :: l) false = (none, some errMultipleValues) := rfl
          rw [e]; exact ⟨nofun, nofun, fun _ => rfl⟩
    | true =>
      cases hc : toks.mapM (fun s => (env.fromUtf8 s).bind env.toLocal) with
      | none =>
        have e : (untypedValue env zero).parse v toks true = (v, some .conversion) := by
          simp [untypedValue, hc]
        rw [e]; exact ⟨hv, nofun, fun h => h⟩
      | some ls =>
        cases v with
        | some w =>
          have e : (untypedValue env zero).parse (some w) toks true = (some w, some errMultipleOccurrences) := by
            simp [untypedValue, hc]
          rw [e]; exact ⟨hv, nofun, nofun⟩
        | none =>
          match ls, hc with
          | [], hc =>
            have e : (untypedValue env zero).parse none toks true = (some (.scalar (.str [])), none) := by simp [untypedValue, hc]
            rw [e]; exact ⟨by intro x hx; cases hx; rfl, nofun, nofun⟩
          | [y], hc =>
            have e : (untypedValue env zero).parse none toks true = (some (.scalar (.str y)), none) := by simp [untypedValue, hc]
            rw [e]; exact ⟨by intro x hx; cases hx; rfl, nofun, nofun⟩
          | x :: y :: l, hc =>
            have e : (untypedValue env zero).parse none toks true = (none, some errMultipleValues) := by simp [untypedValue, hc]
            rw [e]; exact ⟨nofun, nofun, fun _ => rfl⟩
  · intro a ha; cases ha
  · intro x _; rfl

theorem declared_keeps {s : ValueSemantic} {T : VType} (h : Declared s T) (hw : ¬ WideString s) : Keeps s T := by
  cases h with
  | typed env t ht => exact typed_keeps env t ht fun hh => hw ⟨env, t, rfl, hh⟩
  | untyped env zero => exact untyped_keeps env zero

/-- A record of type `T`. -/
structure FitsType (v : VarValue) (T : VType) : Prop where
  type : ∀ x, v.v = some x → x.type = T
  full : ∀ s, v.semantic = some s → v.v ≠ none ∧ Keeps s T

theorem storeOne_fitsType (desc pre utf8 final m nf) (o : Opt) (name : Str) (T : VType)
    (hk : ∀ d ∈ desc, candidates desc name = [d] ∨ d.own = name → Keeps d.semantic T)
    (hm : ∀ v, m.get? name = some v → FitsType v T) (v : VarValue)
    (hv : (storeOne desc pre utf8 final m nf o).1.1.get? name = some v) : FitsType v T := by
  by_cases hh : o.stringKey = name ∧ name ≠ [] ∧ o.unregistered = false ∧ name ∉ final
  · obtain ⟨rfl, h0, hu, hf⟩ := hh
    rw [storeOne_open _ _ _ _ _ _ _ h0 hu hf] at hv
    cases hfind : findOrThrow desc o.stringKey false false false with
    | error f => rw [hfind] at hv; exact hm v hv
    | ok d =>
      have hc := (find_ok_iff _ _ _).1 hfind
      have hmem : d ∈ desc := by
        have : d ∈ candidates desc o.stringKey := by rw [hc]; simp
        unfold candidates at this
        split at this
        · exact (List.mem_filter.1 this).1
        · exact (List.mem_filter.1 this).1
      have hkd := hk d hmem (.inl hc)
      rw [hfind] at hv
      simp only at hv
      have hcur : FitsType (if ((m.get? o.stringKey).getD {}).defaulted = true then {} else (m.get? o.stringKey).getD {}) T := by
        split
        · exact ⟨nofun, nofun⟩
        · cases hg : m.get? o.stringKey with
          | none => exact ⟨nofun, nofun⟩
          | some w => exact hm w hg
      generalize (if ((m.get? o.stringKey).getD {}).defaulted = true then ({} : VarValue) else (m.get? o.stringKey).getD {}) = w at hv hcur
      obtain ⟨k1, k2, k3⟩ := hkd.parse w.v o.value utf8 hcur.type
      cases hp : d.semantic.parse w.v o.value utf8 with
      | mk a e =>
        rw [hp] at hv k1 k2 k3
        cases e with
        | some e =>
          simp only [SMap.get?_set, if_true, Option.some.injEq] at hv
          subst hv
          exact ⟨k1, fun s hs => ⟨fun ha => (hcur.full s hs).1 (k3 ha), (hcur.full s hs).2⟩⟩
        | none =>
          simp only [SMap.get?_set, if_true, Option.some.injEq] at hv
          subst hv
          refine ⟨k1, fun s hs => ⟨k2 rfl, ?_⟩⟩
          simp only [Option.some.injEq] at hs
          subst hs; exact hkd
  · rw [(storeOne_frame desc pre utf8 final m nf o name hh).1] at hv
    exact hm v hv

theorem storeLoop_fitsType (desc pre utf8 final) (name : Str) (T : VType)
    (hk : ∀ d ∈ desc, candidates desc name = [d] ∨ d.own = name → Keeps d.semantic T) (os : List Opt) (m nf)
    (hm : ∀ v, m.get? name = some v → FitsType v T) (v : VarValue)
    (hv : (storeLoop desc pre utf8 final os m nf).1.1.get? name = some v) : FitsType v T := by
  induction os generalizing m nf with
  | nil => exact hm v hv
  | cons o os ih =>
    rw [storeLoop] at hv
    have h1 := storeOne_fitsType desc pre utf8 final m nf o name T hk hm
    cases hs : storeOne desc pre utf8 final m nf o with
    | mk s f =>
      rw [hs] at hv h1
      cases f with
      | some f => exact h1 v hv
      | none => exact ih s.1 s.2 h1 hv

theorem firstDefault_mem {desc : List OptionDesc} {name : Str} {q : ValueSemantic × Any} (h : firstDefault desc name = some q) :
    ∃ d ∈ desc, d.own = name ∧ q.1 = d.semantic ∧ d.semantic.applyDefault = some q.2 := by
  unfold firstDefault at h
  obtain ⟨d, hd, he⟩ := List.exists_of_findSome?_eq_some h
  split at he
  · rename_i hk
    rw [Option.map_eq_some_iff] at he
    obtain ⟨a, ha, rfl⟩ := he
    exact ⟨d, hd, hk.1, rfl, ha⟩
  · cases he

theorem store_fitsType (p : Parsed) (xm : VarMap) (utf8 : Bool) (name : Str) (T : VType)
    (hk : ∀ d ∈ p.desc, candidates p.desc name = [d] ∨ d.own = name → Keeps d.semantic T)
    (hm : ∀ v, xm.map.get? name = some v → FitsType v T) (v : VarValue) (hv : (store p xm utf8).1.map.get? name = some v) : FitsType v T := by
  have h1 := storeLoop_fitsType p.desc p.pre utf8 xm.final name T hk p.options xm.map [] hm
  cases hs : store p xm utf8 with
  | mk xm' f =>
    rw [hs] at hv
    cases f with
    | some f =>
      obtain ⟨m, nf, hl, rfl⟩ := store_failed hs
      rw [hl] at h1; exact h1 v hv
    | none =>
      obtain ⟨m, nf, hl, rfl⟩ := store_ok hs
      rw [hl] at h1
      simp only [applyAll_get] at hv
      cases hg : m.get? name with
      | some w => rw [hg] at hv; simp only [Option.some.injEq] at hv; subst hv; exact h1 w hg
      | none =>
        rw [hg] at hv
        simp only [Option.map_eq_some_iff] at hv
        obtain ⟨q, hq, rfl⟩ := hv
        obtain ⟨d, hd, hkey, e1, e2⟩ := firstDefault_mem hq
        have hkd := hk d hd (.inr hkey)
        obtain ⟨x, hx, hxt⟩ := hkd.dflt _ e2
        refine ⟨fun y hy => ?_, fun s hs => ⟨?_, ?_⟩⟩
        · rw [hx] at hy; cases hy; exact hxt
        · rw [hx]; nofun
        · simp only [Option.some.injEq] at hs; rw [← hs, e1]; exact hkd

theorem storesAny_fitsType (name : Str) (T : VType) (srcs : List (Parsed × Bool))
    (hk : ∀ q ∈ srcs, ∀ d ∈ q.1.desc, candidates q.1.desc name = [d] ∨ d.own = name → Keeps d.semantic T) (xm : VarMap)
    (hm : ∀ v, xm.map.get? name = some v → FitsType v T) (v : VarValue) (hv : (storesAny xm srcs).map.get? name = some v) : FitsType v T := by
  induction srcs generalizing xm with
  | nil => exact hm v hv
  | cons q srcs ih =>
    obtain ⟨p, u⟩ := q
    exact ih (fun q hq => hk q (by simp [hq])) _ (store_fitsType p xm u name T (hk (p, u) (by simp)) hm) hv

theorem od_semantic (names : String) (s : ValueSemantic) (descr : String) : (Test.od names s descr).semantic = s := by
  unfold Test.od
  split
  · rename_i d h
    unfold OptionDesc.make OptionDesc.setNames at h
    dsimp only at h
    split at h
    · cases h
    · split at h
      · split at h <;> (injection h with h; rw [← h])
      · injection h with h; rw [← h]
  · rfl

/-- `wvalue<std::string>`, with or without a variable to assign. -/
def Ex.wideT (target : Option Nat) : TypedValue := { type := .scalar .str, wide := true, storeTo := target }

def Ex.wideSrc (target : Option Nat) : Parsed :=
  { desc := [Test.od "s" (Test.sem (Ex.wideT target))], options := [Ex.o "s" ["x"]] }

theorem wideSrc_type (target : Option Nat) (name : Str) : ∀ q ∈ [(Ex.wideSrc target, false)], HasType q.1.desc name (.scalar .str) := by
  intro q hq d hd _
  simp only [List.mem_singleton] at hq
  subst hq
  simp only [Ex.wideSrc, List.mem_singleton] at hd
  subst hd
  rw [od_semantic]
  exact .typed Test.env (Ex.wideT target) ⟨nofun, nofun⟩

/-- **C69 is false in the code:** the value of a `wvalue<std::string>` is a `std::wstring`. -/
theorem C69_negation : ¬ C69_claim := by
  intro h
  obtain ⟨a, ha⟩ := h [(Ex.wideSrc none, false)] (Test.L "s") (.scalar .str) (wideSrc_type none _) (by decide)
  have : ((storesAny {} [(Ex.wideSrc none, false)]).get (Test.L "s")).as (.scalar .str) = .error .badAnyCast := rfl
  rw [this] at ha; cases ha

/-- So storing into a variable dereferences a null pointer. -/
theorem C69_notify_negation : ¬ C69_notify_claim := by
  intro h
  exact h [(Ex.wideSrc (some 0), false)] (fun name => ⟨.scalar .str, wideSrc_type (some 0) name⟩) .nullNotify (by decide)

/-- **C69, part that holds:** apart from `wvalue<std::string>`, `as<T>` succeeds on every non-empty value of an option of type `T`,
whatever sources were stored before, successfully or not. Missing: `wvalue<std::string>` (see `C69_negation`). -/
theorem C69_type_partial (srcs : List (Parsed × Bool)) (name : Str) (T : VType) (h : ∀ q ∈ srcs, HasType q.1.desc name T)
    (hw : ∀ q ∈ srcs, ∀ d ∈ q.1.desc, ¬ WideString d.semantic) :
    ((storesAny {} srcs).get name).empty = false → ∃ a, ((storesAny {} srcs).get name).as T = .ok a ∧ a.type = T := by
  intro he
  have hk : ∀ q ∈ srcs, ∀ d ∈ q.1.desc, candidates q.1.desc name = [d] ∨ d.own = name → Keeps d.semantic T :=
    fun q hq d hd hc => declared_keeps (h q hq d hd hc) (hw q hq d hd)
  have hf := storesAny_fitsType name T srcs hk {} (fun v hv => by cases hv)
  unfold VarMap.get at he ⊢
  cases hg : (storesAny {} srcs).map.get? name with
  | none => rw [hg] at he; cases he
  | some v =>
    rw [hg] at he
    simp only [Option.getD_some] at he ⊢
    have := (hf v hg).type
    unfold VarValue.empty at he
    unfold VarValue.as
    cases hv : v.v with
    | none => rw [hv] at he; cases he
    | some a => exact ⟨a, by simp [this a hv], this a hv⟩

/-- `notify` fails only for a missing required option: it has no undefined behaviour. -/
theorem C69_notify_partial (srcs : List (Parsed × Bool)) (h : ∀ name, ∃ T, ∀ q ∈ srcs, HasType q.1.desc name T)
    (hw : ∀ q ∈ srcs, ∀ d ∈ q.1.desc, ¬ WideString d.semantic) :
    (storesAny {} srcs).notify.2 = none ∨ ∃ display, (storesAny {} srcs).notify = ([], some (missingRequired display)) := by
  unfold VarMap.notify
  cases VarMap.missingRequired (storesAny {} srcs).map (storesAny {} srcs).required with
  | some d => exact .inr ⟨d, rfl⟩
  | none =>
    left
    simp only
    cases hn : (VarMap.notifyLoop (storesAny {} srcs).map).2 with
    | none => rfl
    | some f =>
      exfalso
      obtain ⟨e, he, s, hs, hf⟩ := notifyLoop_fail _ _ hn
      have hord : SMap.Sorted (storesAny {} srcs).map := by
        have : ∀ (srcs : List (Parsed × Bool)) (m : VarMap), m.Ordered → (storesAny m srcs).Ordered := by
          intro srcs
          induction srcs with
          | nil => exact fun m hm => hm
          | cons q srcs ih => exact fun m hm => ih _ (ordered_store hm q.1 q.2)
        exact (this srcs {} ordered_empty).map
      have hget := (SMap.get?_eq_some hord e.1 e.2).2 he
      obtain ⟨T, hT⟩ := h e.1
      have hk : ∀ q ∈ srcs, ∀ d ∈ q.1.desc, candidates q.1.desc e.1 = [d] ∨ d.own = e.1 → Keeps d.semantic T :=
        fun q hq d hd hc => declared_keeps (hT q hq d hd hc) (hw q hq d hd)
      have fit := storesAny_fitsType e.1 T srcs hk {} (fun v hv => by cases hv) e.2 hget
      obtain ⟨hne, hkeep⟩ := fit.full s hs
      cases hv : e.2.v with
      | none => exact hne hv
      | some x =>
        rw [hv, hkeep.notify x (fit.type x hv)] at hf
        cases hf

example : ∃ a, ((storesAny {} [(Ex.src1, false), (Ex.src2, false)]).get (Test.L "inc")).as (.vector .str) = .ok a := ⟨_, rfl⟩

example : ∀ q ∈ [(Ex.src1, false), (Ex.src2, false)], HasType q.1.desc (Test.L "inc") (.vector .str) := by
  intro q hq d hd hc
  have e1 : candidates Ex.descs (Test.L "inc") = [Ex.dVec] := rfl
  have hd' : d ∈ Ex.descs ∧ (candidates Ex.descs (Test.L "inc") = [d] ∨ d.own = Test.L "inc") := by
    simp only [List.mem_cons, List.not_mem_nil, or_false] at hq
    rcases hq with rfl | rfl <;> exact ⟨hd, hc⟩
  obtain ⟨hd, hc⟩ := hd'
  have : d = Ex.dVec := by
    rcases hc with hc | hc
    · rw [e1] at hc; cases hc; rfl
    · simp only [Ex.descs, List.mem_cons, List.not_mem_nil, or_false] at hd
      rcases hd with rfl | rfl | rfl
      · exact absurd hc (by decide)
      · exact absurd hc (by decide)
      · rfl
  subst this
  rw [Ex.dVec, od_semantic]
  exact .typed Test.env { Test.vvec with composing := true } ⟨nofun, nofun⟩

end PO
