import Verif.Spec.Custom
import Verif.Props.Usual
/-
C119: `validate` functions supplied by the program.
-/
namespace PO
open Spec
open Hierarchy (occ_nil occ_ne)
open MultipleSources (settled_one one_settled)

/-! ### The overloads of the library -/

/-- The overloads of the library for `T` (src/value_semantic.cpp:148-200 and detail/value_semantic.hpp:88-101), each of which begins with
`check_first_occurrence`. -/
def libraryValidator {α : Type} (scalar : SType → List α → Except Fail SVal) (T : SType) : Validator α := fun v xs =>
  match v with
  | some _ => (v, some errMultipleOccurrences)
  | none =>
    match scalar T xs with
    | .error f => (none, some f)
    | .ok r => (some (.scalar r), none)

def libraryOverloads (env : Env) (T : SType) : Overloads := ⟨libraryValidator (validateScalar env) T, libraryValidator (wvalidateScalar env) T⟩

theorem validateScalar_no_cast (env : Env) (T : SType) (xs : List Str) : validateScalar env T xs ≠ .error .badLexicalCast := by
  intro h
  exact validateScalar_library env T xs _ h

theorem wvalidateScalar_no_cast (env : Env) (T : SType) (xs : List WStr) : wvalidateScalar env T xs ≠ .error .badLexicalCast := by
  intro h
  have hg : ∀ b, getSingle ([] : WStr) xs b ≠ .error .badLexicalCast := by
    intro b hb
    match xs, hb with
    | _ :: _ :: _, hb => cases hb
    | [x], hb => cases hb
    | [], hb => cases b <;> cases hb
  cases T with
  | bool =>
    simp only [wvalidateScalar] at h
    split at h
    · rename_i he; cases h; exact hg _ he
    · split at h <;> cases h
  | str =>
    simp only [wvalidateScalar] at h
    split at h
    · rename_i he; cases h; exact hg _ he
    · cases h
  | wstr =>
    simp only [wvalidateScalar] at h
    split at h
    · rename_i he; cases h; exact hg _ he
    · cases h
  | lex ty =>
    simp only [wvalidateScalar] at h
    split at h
    · rename_i he; cases h; exact hg _ he
    · split at h <;> cases h

theorem vecLoop_library' {α : Type} (scalar : SType → List α → Except Fail SVal) (text : α → Str) (T : SType)
    (hs : ∀ xs, scalar T xs ≠ .error .badLexicalCast) (xs : List α) (acc : List SVal) :
    (libraryValidator scalar T).vecLoop text T acc xs = validateVecLoop (scalar T) T acc xs := by
  induction xs generalizing acc with
  | nil => rfl
  | cons x xs ih =>
    unfold Validator.vecLoop validateVecLoop
    have hx := hs [x]
    cases h : scalar T [x] with
    | error f =>
      have : libraryValidator scalar T none [x] = (none, some f) := by simp [libraryValidator, h]
      rw [this]
      cases f <;> first | rfl | exact absurd h hx
    | ok r =>
      have : libraryValidator scalar T none [x] = (some (.scalar r), none) := by simp [libraryValidator, h]
      rw [this]
      dsimp only [castScalar]
      by_cases hr : r.type = T
      · simp only [if_pos hr]; exact ih _
      · simp only [if_neg hr]

theorem lift_library {α : Type} (scalar : SType → List α → Except Fail SVal) (text : α → Str) (t : VType)
    (hs : ∀ xs, scalar t.element xs ≠ .error .badLexicalCast) (v : Any) (xs : List α) :
    (libraryValidator scalar t.element).lift text t v xs = validate scalar t v xs := by
  cases t with
  | scalar T => rfl
  | vector T =>
    simp only [Validator.lift, validate, VType.element]
    cases v with
    | none => rw [vecLoop_library' scalar text T hs]
    | some a =>
      cases a with
      | vector T' vs => simp only [vecLoop_library' scalar text T hs]
      | scalar _ => rfl
      | optional _ _ => rfl
  | optional T =>
    simp only [Validator.lift, validate, VType.element]
    cases v with
    | some a => rfl
    | none =>
      match xs with
      | [] => rfl
      | _ :: _ :: _ => rfl
      | [x] =>
        dsimp only
        cases h : scalar T [x] with
        | error f =>
          have : libraryValidator scalar T none [x] = (none, some f) := by simp [libraryValidator, h]
          rw [this]
        | ok r =>
          have : libraryValidator scalar T none [x] = (some (.scalar r), none) := by simp [libraryValidator, h]
          rw [this]
          dsimp only [castScalar]
          by_cases hr : r.type = T
          · simp only [if_pos hr]
          · simp only [if_neg hr]

/-- **C119.** An option whose class has the overloads of the library is an option without overloads: what the program supplies is used in the same
places. -/
theorem C119_library (env : Env) (t : TypedValue) : t.withOverloads env (libraryOverloads env t.type.element) = t.toSemantic env := by
  have hn : ∀ xs, validateScalar env t.type.element xs ≠ .error .badLexicalCast := validateScalar_no_cast env _
  have hw : ∀ xs, wvalidateScalar env t.type.element xs ≠ .error .badLexicalCast := wvalidateScalar_no_cast env _
  have hp : t.parseWith env (libraryOverloads env t.type.element) = t.parse env := by
    funext v toks u
    have x1 : ∀ xs, t.xparseWith ((libraryOverloads env t.type.element).narrow.lift id t.type) v xs = t.xparse (validateScalar env) v xs := by
      intro xs
      have hl := lift_library _ id t.type hn v xs
      unfold TypedValue.xparseWith TypedValue.xparse
      cases xs with
      | cons x xs => exact hl
      | nil =>
        cases t.implicit with
        | none => exact hl
        | some q => rfl
    have x2 : ∀ xs, t.xparseWith ((libraryOverloads env t.type.element).wide.lift (convertValue env) t.type) v xs = t.xparse (wvalidateScalar env) v xs := by
      intro xs
      have hl := lift_library _ (convertValue env) t.type hw v xs
      unfold TypedValue.xparseWith TypedValue.xparse
      cases xs with
      | cons x xs => exact hl
      | nil =>
        cases t.implicit with
        | none => exact hl
        | some q => rfl
    unfold TypedValue.parseWith TypedValue.parse
    simp only [x1, x2]
    rfl
  unfold TypedValue.withOverloads
  rw [hp]
  rfl

/-- For the classes read with `lexical_cast` this overload is written like those in the documentation. -/
theorem libraryValidator_once (env : Env) (ty : Nat) : libraryValidator (validateScalar env) (.lex ty) =
    onceValidator [] fun s => match env.lex ty s with | some v => .ok (.lex ty v) | none => .error (errInvalidValue s) := by
  funext v xs
  unfold libraryValidator onceValidator
  cases v with
  | some _ => rfl
  | none =>
    simp only [validateScalar]
    cases getSingle [] xs false with
    | error f => rfl
    | ok s =>
      dsimp only
      cases env.lex ty s <;> rfl

/-! ### One occurrence -/

theorem castScalar_ok {T : SType} {a : Any} {r : SVal} : castScalar T a = .ok r ↔ a = some (.scalar r) ∧ r.type = T := by
  cases a with
  | none => simp [castScalar]
  | some a =>
    cases a with
    | scalar s =>
      dsimp only [castScalar]
      by_cases h : s.type = T
      · rw [if_pos h]
        constructor
        · intro he; cases he; exact ⟨rfl, h⟩
        · rintro ⟨h1, -⟩; cases h1; rfl
      · rw [if_neg h]
        constructor
        · intro he; cases he
        · rintro ⟨h1, h2⟩; cases h1; exact absurd h2 h
    | vector _ _ => simp [castScalar]
    | optional _ _ => simp [castScalar]

theorem castScalar_error {T : SType} {a : Any} {e : Fail} (h : castScalar T a = .error e) : e = .badAnyCast ∧ ∀ r : SVal, r.type = T → a ≠ some (.scalar r) := by
  refine ⟨?_, ?_⟩
  · unfold castScalar at h
    split at h
    · split at h <;> cases h; rfl
    · cases h; rfl
  · rintro r hr rfl
    rw [(castScalar_ok (T := T)).2 ⟨rfl, hr⟩] at h
    cases h

theorem vecLoop_elements (f : Validator Str) (T : SType) (xs : List Str) (acc out : List SVal) :
    f.vecLoop id T acc xs = (out, none) ↔ ∃ rs, List.Forall₂ (Element f T) xs rs ∧ out = acc ++ rs := by
  induction xs generalizing acc with
  | nil =>
    constructor
    · intro h; cases h; exact ⟨[], .nil, by simp⟩
    · rintro ⟨rs, h, rfl⟩; cases h; simp [Validator.vecLoop]
  | cons x xs ih =>
    unfold Validator.vecLoop
    rcases hx : f none [x] with ⟨a, e⟩
    cases e with
    | some e =>
      constructor
      · intro h; cases e <;> cases h
      · rintro ⟨rs, h, -⟩
        cases h with
        | cons h1 _ => rw [Element, hx] at h1; cases h1.1
    | none =>
      dsimp only
      cases hc : castScalar T a with
      | error e =>
        constructor
        · intro h; cases h
        · rintro ⟨rs, h, -⟩
          cases h with
          | cons h1 _ =>
            rw [Element, hx] at h1
            cases h1.1
            exact absurd rfl ((castScalar_error hc).2 _ h1.2)
      | ok r =>
        dsimp only
        rw [ih]
        obtain ⟨rfl, hr⟩ := castScalar_ok.1 hc
        constructor
        · rintro ⟨rs, h, rfl⟩
          exact ⟨r :: rs, .cons ⟨hx, hr⟩ h, by simp⟩
        · rintro ⟨rs, h, rfl⟩
          cases h with
          | cons h1 h2 =>
            rw [Element, hx] at h1
            cases h1.1
            exact ⟨_, h2, by simp⟩

/-- The elements before the first refused string stay in the vector. -/
theorem vecLoop_refused (f : Validator Str) (T : SType) (xs : List Str) (acc out : List SVal) (e : Fail) :
    f.vecLoop id T acc xs = (out, some e) ↔ ∃ ys x zs rs, xs = ys ++ x :: zs ∧ List.Forall₂ (Element f T) ys rs ∧ RefusesElement f T x e ∧ out = acc ++ rs := by
  induction xs generalizing acc with
  | nil =>
    constructor
    · intro h; cases h
    · rintro ⟨ys, x, zs, rs, h, -⟩; cases ys <;> cases h
  | cons x xs ih =>
    unfold Validator.vecLoop
    have split : ∀ {P : List Str → Str → List Str → Prop}, (∃ ys y zs, x :: xs = ys ++ y :: zs ∧ P ys y zs) ↔ P [] x xs ∨ ∃ ys y zs, xs = ys ++ y :: zs ∧ P (x :: ys) y zs := by
      intro P
      constructor
      · rintro ⟨ys, y, zs, h, hp⟩
        cases ys with
        | nil => cases h; exact .inl hp
        | cons y' ys => cases h; exact .inr ⟨ys, y, zs, rfl, hp⟩
      · rintro (hp | ⟨ys, y, zs, rfl, hp⟩)
        · exact ⟨[], x, xs, rfl, hp⟩
        · exact ⟨x :: ys, y, zs, rfl, hp⟩
    have hgoal : (∃ ys y zs rs, x :: xs = ys ++ y :: zs ∧ List.Forall₂ (Element f T) ys rs ∧ RefusesElement f T y e ∧ out = acc ++ rs) ↔
        (RefusesElement f T x e ∧ out = acc) ∨ ∃ ys y zs rs r, xs = ys ++ y :: zs ∧ Element f T x r ∧ List.Forall₂ (Element f T) ys rs ∧ RefusesElement f T y e ∧ out = acc ++ r :: rs := by
      constructor
      · rintro ⟨ys, y, zs, rs, h, h1, h2, h3⟩
        cases ys with
        | nil => cases h; cases h1; exact .inl ⟨h2, by simpa using h3⟩
        | cons y' ys =>
          cases h
          cases h1 with
          | cons h4 h5 => exact .inr ⟨ys, y, zs, _, _, rfl, h4, h5, h2, h3⟩
      · rintro (⟨h1, h2⟩ | ⟨ys, y, zs, rs, r, rfl, h1, h2, h3, h4⟩)
        · exact ⟨[], x, xs, [], rfl, .nil, h1, by simpa using h2⟩
        · exact ⟨x :: ys, y, zs, r :: rs, rfl, .cons h1 h2, h3, h4⟩
    rw [hgoal]
    rcases hx : f none [x] with ⟨a, e'⟩
    cases e' with
    | some e' =>
      have hno : ∀ r, ¬ Element f T x r := by intro r hr; rw [Element, hx] at hr; cases hr.1
      have hval : (match ((a, some e') : Any × Option Fail) with
          | (_, some .badLexicalCast) => ((acc, some (errInvalidValue (id x))) : List SVal × Option Fail)
          | (_, some e) => (acc, some e)
          | (a, none) => match castScalar T a with | .error e => (acc, some e) | .ok r => f.vecLoop id T (acc ++ [r]) xs) = (out, some e) ↔
          RefusesElement f T x e ∧ out = acc := by
        by_cases hb : e' = .badLexicalCast
        · subst hb
          constructor
          · intro h; cases h; exact ⟨.cast hx, rfl⟩
          · rintro ⟨h, rfl⟩
            cases h with
            | cast => rfl
            | thrown h1 h2 => rw [hx] at h1; cases h1; exact absurd rfl h2
            | other h1 => rw [hx] at h1; cases h1
        · have hm : (match ((a, some e') : Any × Option Fail) with
              | (_, some .badLexicalCast) => ((acc, some (errInvalidValue (id x))) : List SVal × Option Fail)
              | (_, some e) => (acc, some e)
              | (a, none) => match castScalar T a with | .error e => (acc, some e) | .ok r => f.vecLoop id T (acc ++ [r]) xs) = (acc, some e') := by
            cases e' <;> first | rfl | exact absurd rfl hb
          rw [hm]
          constructor
          · intro h; cases h; exact ⟨.thrown hx hb, rfl⟩
          · rintro ⟨h, rfl⟩
            cases h with
            | cast h1 => rw [hx] at h1; cases h1; exact absurd rfl hb
            | thrown h1 h2 => rw [hx] at h1; cases h1; rfl
            | other h1 => rw [hx] at h1; cases h1
      constructor
      · intro h; exact .inl (hval.1 h)
      · rintro (h | ⟨_, _, _, _, r, _, h, _⟩)
        · exact hval.2 h
        · exact absurd h (hno r)
    | none =>
      dsimp only
      cases hc : castScalar T a with
      | error e' =>
        obtain ⟨rfl, hne⟩ := castScalar_error hc
        constructor
        · intro h; cases h; exact .inl ⟨.other hx hne, rfl⟩
        · rintro (⟨h, rfl⟩ | ⟨_, _, _, _, r, _, h, _⟩)
          · cases h with
            | cast h1 => rw [hx] at h1; cases h1
            | thrown h1 h2 => rw [hx] at h1; cases h1
            | other h1 => rfl
          · rw [Element, hx] at h; cases h.1; exact absurd rfl (hne _ h.2)
      | ok r =>
        dsimp only
        rw [ih]
        obtain ⟨rfl, hr⟩ := castScalar_ok.1 hc
        constructor
        · rintro ⟨ys, y, zs, rs, rfl, h1, h2, rfl⟩
          exact .inr ⟨ys, y, zs, rs, r, rfl, ⟨hx, hr⟩, h1, h2, by simp⟩
        · rintro (⟨h, -⟩ | ⟨ys, y, zs, rs, r', rfl, h0, h1, h2, rfl⟩)
          · cases h with
            | cast h1 => rw [hx] at h1; cases h1
            | thrown h1 h2 => rw [hx] at h1; cases h1
            | other h1 h2 => rw [hx] at h1; cases h1; exact absurd rfl (h2 r hr)
          · rw [Element, hx] at h0
            cases h0.1
            exact ⟨ys, y, zs, rs, rfl, h1, h2, by simp⟩

theorem lift_step (f : Validator Str) (T : VType) (v : Any) (xs : List Str) (a : Any) : f.lift id T v xs = (a, none) ↔ Step f T v xs a := by
  cases T with
  | scalar T => exact ⟨.scalar, fun h => by cases h; assumption⟩
  | vector T =>
    simp only [Validator.lift]
    cases v with
    | none =>
      constructor
      · intro h
        have h1 : (f.vecLoop id T [] xs).2 = none := congrArg Prod.snd h
        obtain ⟨rs, h2, h3⟩ := (vecLoop_elements f T xs [] _).1 (Prod.ext rfl h1)
        rw [List.nil_append] at h3
        have h4 : some (AVal.vector T (f.vecLoop id T [] xs).1) = a := congrArg Prod.fst h
        obtain rfl : a = some (.vector T rs) := by rw [← h4]; exact congrArg (fun l => some (AVal.vector T l)) h3
        exact .first h2
      · intro h
        cases h with
        | first h => rw [(vecLoop_elements f T xs [] _).2 ⟨_, h, rfl⟩]; rfl
    | some w =>
      cases w with
      | scalar _ => exact ⟨(fun h => by cases h), (fun h => by cases h)⟩
      | optional _ _ => exact ⟨(fun h => by cases h), (fun h => by cases h)⟩
      | vector T' vs =>
        dsimp only
        by_cases hT : T' = T
        · subst hT
          rw [if_pos rfl]
          constructor
          · intro h
            have h1 : (f.vecLoop id T' vs xs).2 = none := congrArg Prod.snd h
            obtain ⟨rs, h2, h3⟩ := (vecLoop_elements f T' xs vs _).1 (Prod.ext rfl h1)
            have h4 : some (AVal.vector T' (f.vecLoop id T' vs xs).1) = a := congrArg Prod.fst h
            obtain rfl : a = some (.vector T' (vs ++ rs)) := by rw [← h4]; exact congrArg (fun l => some (AVal.vector T' l)) h3
            exact .more h2
          · intro h
            cases h with
            | more h => rw [(vecLoop_elements f T' xs vs _).2 ⟨_, h, rfl⟩]
        · rw [if_neg hT]
          constructor
          · intro h; cases h
          · intro h; cases h; exact absurd rfl hT
  | optional T =>
    simp only [Validator.lift]
    cases v with
    | some w => exact ⟨(fun h => by cases h), (fun h => by cases h)⟩
    | none =>
      match xs with
      | [] => exact ⟨(fun h => by cases h), (fun h => by cases h)⟩
      | _ :: _ :: _ => exact ⟨(fun h => by cases h), (fun h => by cases h)⟩
      | [x] =>
        dsimp only
        rcases hx : f none [x] with ⟨b, e⟩
        cases e with
        | some e =>
          constructor
          · intro h; cases h
          · intro h
            cases h with
            | optional h => rw [Element, hx] at h; cases h.1
        | none =>
          dsimp only
          cases hc : castScalar T b with
          | error e =>
            constructor
            · intro h; cases h
            · intro h
              cases h with
              | optional h => rw [Element, hx] at h; cases h.1; exact absurd rfl ((castScalar_error hc).2 _ h.2)
          | ok r =>
            obtain ⟨rfl, hr⟩ := castScalar_ok.1 hc
            constructor
            · intro h; cases h; exact .optional ⟨hx, hr⟩
            · intro h
              cases h with
              | optional h => rw [Element, hx] at h; cases h.1; rfl

/-! ### All occurrences -/

theorem parseAll_hands (env : Env) (t : TypedValue) (o : Overloads) (hw : t.wide = false) (v : Any) (L : List (List Str)) (r : Any) :
    parseAll (t.withOverloads env o) false v L = .ok r ↔ Hands o.narrow t v L r := by
  have hpar : ∀ v xs, (t.withOverloads env o).parse v xs false = t.xparseWith (o.narrow.lift id t.type) v xs := by
    intro v xs
    show t.parseWith env o v xs false = _
    unfold TypedValue.parseWith
    rw [if_neg (by rw [hw]; simp), if_neg (by simp)]
  induction L generalizing v with
  | nil =>
    constructor
    · intro h; cases h; exact .done _
    · intro h; cases h; rfl
  | cons xs L ih =>
    rw [parseAll, hpar]
    have key : ∀ a, t.xparseWith (o.narrow.lift id t.type) v xs = (a, none) ↔
        (xs = [] ∧ ∃ q, t.implicit = some q ∧ a = some q.1) ∨ ((xs ≠ [] ∨ t.implicit = none) ∧ Step o.narrow t.type v xs a) := by
      intro a
      unfold TypedValue.xparseWith
      cases xs with
      | cons x xs => dsimp only; rw [lift_step]; simp
      | nil =>
        cases hi : t.implicit with
        | none => dsimp only; rw [lift_step]; simp
        | some q => dsimp only; simp [eq_comm]
    rcases hx : t.xparseWith (o.narrow.lift id t.type) v xs with ⟨a, e⟩
    rw [hx] at key
    cases e with
    | some e =>
      constructor
      · intro h; cases h
      · intro h
        cases h with
        | implicit h _ => exact absurd ((key _).2 (.inl ⟨rfl, _, h, rfl⟩)) (by simp)
        | called h hs _ => exact absurd ((key _).2 (.inr ⟨h, hs⟩)) (by simp)
    | none =>
      refine (ih a).trans ?_
      constructor
      · intro h
        rcases (key a).1 rfl with ⟨rfl, q, hq, rfl⟩ | ⟨h1, h2⟩
        · exact .implicit hq h
        · exact .called h1 h2 h
      · intro h
        cases h with
        | implicit h hr => cases (key _).2 (.inl ⟨rfl, _, h, rfl⟩); exact hr
        | called h hs hr => cases (key _).2 (.inr ⟨h, hs⟩); exact hr

theorem obtains_iff {env : Env} {s : ValueSemantic} (hs : Admits env s) (L : List (List Str)) (r : Any) : parseAll s false none L = .ok r ↔ Obtains env s L r := by
  constructor
  · intro h
    cases hs with
    | plain hs => exact .plain ((gains_iff hs L r).1 h)
    | custom t o _ hw => exact .custom hw ((parseAll_hands env t o hw none L r).1 h)
  · intro h
    cases h with
    | custom hw h => exact (parseAll_hands env _ _ hw none L r).2 h
    | plain h => exact parse_of_gains h

/-! ### Command lines -/

/-- A command line is stored exactly if every option can make something of the tokens given with it; -/
theorem C119_stored (env : Env) (c : Cmdline) (hc : CustomParser env c) (args : List Str) (p : Parsed) (h : c.parse args = .ok p) :
    (∃ m, store p {} = (m, none)) ↔ ∀ d ∈ c.desc, ∃ r, Obtains env d.semantic (tokensOf p.options d.own) r := by
  have hdesc := (OnceOnlyParser.run_of h).1
  constructor
  · rintro ⟨m, hm⟩ d hd
    rcases OnceOnlyParser.record_of h hm d.own with ⟨hg, -⟩ | ⟨d', a, hg, hd', ha, -⟩
    · exact ⟨none, by unfold tokensOf; rw [occ_nil hg]; exact .plain (.never _)⟩
    · cases (hc.cand hd).symm.trans hd'
      exact ⟨a, (obtains_iff (hc.admits d hd) _ _).1 ha⟩
  · intro hall
    have : ∃ m, Stores {} [(p, false)] m := by
      rw [C104_succeeds]
      intro n
      by_cases hg : Mentions p.options n
      · obtain ⟨d, hd, rfl⟩ := hc.declared h hg
        obtain ⟨r, hr⟩ := hall d hd
        exact ⟨_, one_settled hg (by rw [hdesc]; exact hc.cand hd) ((obtains_iff (hc.admits d hd) _ _).2 hr)⟩
      · exact ⟨_, .silent hg (.done _)⟩
    obtain ⟨m, hm⟩ := this
    cases hm with
    | cons h1 h2 => exact ⟨_, h1⟩

/-- then an option that is given has the value it gets from its tokens. -/
theorem C119_given (env : Env) (c : Cmdline) (hc : CustomParser env c) (args : List Str) (p : Parsed) (h : c.parse args = .ok p) (m : VarMap)
    (hm : store p {} = (m, none)) (d : OptionDesc) (hd : d ∈ c.desc) (hg : Mentions p.options d.own) :
    ∃ r, Obtains env d.semantic (tokensOf p.options d.own) r ∧ m.map.get? d.own = some { v := r, defaulted := false, semantic := some d.semantic } := by
  rcases OnceOnlyParser.record_of h hm d.own with ⟨hg', -⟩ | ⟨d', a, -, hd', ha, hr⟩
  · exact absurd hg hg'
  · cases (hc.cand hd).symm.trans hd'
    exact ⟨a, (obtains_iff (hc.admits d hd) _ _).1 ha, hr⟩

/-- One that is not given has its default, if it has one. -/
theorem C119_not_given (env : Env) (c : Cmdline) (hc : CustomParser env c) (args : List Str) (p : Parsed) (h : c.parse args = .ok p) (m : VarMap)
    (hm : store p {} = (m, none)) (d : OptionDesc) (hd : d ∈ c.desc) (hg : ¬ Mentions p.options d.own) :
    m.map.get? d.own = d.semantic.applyDefault.map fun a => { v := a, defaulted := true, semantic := some d.semantic } := by
  rcases OnceOnlyParser.record_of h hm d.own with ⟨-, hr⟩ | ⟨d', a, hg', -⟩
  · rw [hr, hc.default_of hd]
    cases d.semantic.applyDefault <;> rfl
  · exact absurd hg' hg

/-! ### What options of particular types get -/

theorem obtains_custom {env : Env} {t : TypedValue} {o : Overloads} (ht : WellTyped t) (hw : t.wide = false) {L : List (List Str)} {r : Any} :
    Obtains env (t.withOverloads env o) L r ↔ Hands o.narrow t none L r := by
  rw [← obtains_iff (.custom t o ht hw), parseAll_hands env t o hw]

/-- An overload written like those in the documentation: the option can be given once, with one string that can be read. -/
theorem C119_once (read : Str → Except Fail SVal) (t : TypedValue) (T : SType) (hT : t.type = .scalar T) (hi : t.implicit = none) (L : List (List Str)) (r : Any) :
    Hands (onceValidator [] read) t none L r ↔ L = [] ∧ r = none ∨ ∃ x w, L = [[x]] ∧ read x = .ok w ∧ r = some (.scalar w) := by
  have first : ∀ xs a, onceValidator [] read none xs = (a, none) ↔ ∃ x w, xs = [x] ∧ read x = .ok w ∧ a = some (.scalar w) := by
    intro xs a
    match xs with
    | [] => simp [onceValidator, getSingle]
    | _ :: _ :: _ => simp [onceValidator, getSingle]
    | [x] =>
      simp only [onceValidator, getSingle]
      cases hr : read x with
      | error e =>
        constructor
        · intro h; cases h
        · rintro ⟨_, _, h, h1, -⟩; cases h; rw [hr] at h1; cases h1
      | ok w =>
        constructor
        · intro h; cases h; exact ⟨x, w, rfl, hr, rfl⟩
        · rintro ⟨_, _, h, h1, rfl⟩; cases h; rw [hr] at h1; cases h1; rfl
  constructor
  · intro h
    cases h with
    | done => exact .inl ⟨rfl, rfl⟩
    | implicit h => rw [hi] at h; cases h
    | called _ hs hr =>
      right
      rw [hT] at hs
      cases hs with
      | scalar hs =>
        obtain ⟨x, w, rfl, hw, rfl⟩ := (first _ _).1 hs
        cases hr with
        | done => exact ⟨x, w, rfl, hw, rfl⟩
        | implicit h => rw [hi] at h; cases h
        | called _ hs' _ => rw [hT] at hs'; cases hs' with
          | scalar h => cases h
  · rintro (⟨rfl, rfl⟩ | ⟨x, w, rfl, hw, rfl⟩)
    · exact .done _
    · exact .called (.inl (by simp)) (by rw [hT]; exact .scalar ((first _ _).2 ⟨x, w, rfl, hw, rfl⟩)) (.done _)

theorem forall₂_split_left {α β : Type} {R : α → β → Prop} {xs ys : List α} {rs : List β} (h : List.Forall₂ R (xs ++ ys) rs) :
    ∃ r1 r2, rs = r1 ++ r2 ∧ List.Forall₂ R xs r1 ∧ List.Forall₂ R ys r2 := by
  induction xs generalizing rs with
  | nil => exact ⟨[], rs, rfl, .nil, h⟩
  | cons x xs ih =>
    cases h with
    | cons h1 h2 =>
      obtain ⟨r1, r2, rfl, h3, h4⟩ := ih h2
      exact ⟨_ :: r1, r2, rfl, .cons h1 h3, h4⟩

/-- A vector has one element for each string, however these are distributed over occurrences. -/
theorem C119_vector (f : Validator Str) (t : TypedValue) (T : SType) (hT : t.type = .vector T) (L : List (List Str)) (hne : L ≠ [])
    (hi : t.implicit = none ∨ ∀ l ∈ L, l ≠ []) (r : Any) :
    Hands f t none L r ↔ ∃ rs, List.Forall₂ (Element f T) L.flatten rs ∧ r = some (.vector T rs) := by
  have more : ∀ (L : List (List Str)) (vs : List SVal), (t.implicit = none ∨ ∀ l ∈ L, l ≠ []) → ∀ r,
      (Hands f t (some (.vector T vs)) L r ↔ ∃ rs, List.Forall₂ (Element f T) L.flatten rs ∧ r = some (.vector T (vs ++ rs))) := by
    intro L
    induction L with
    | nil =>
      intro vs _ r
      constructor
      · intro h; cases h; exact ⟨[], .nil, by simp⟩
      · rintro ⟨rs, h, rfl⟩; cases h; simp only [List.append_nil]; exact .done _
    | cons xs L ih =>
      intro vs hi r
      have hi' : t.implicit = none ∨ ∀ l ∈ L, l ≠ [] := hi.imp_right fun h l hl => h l (by simp [hl])
      constructor
      · intro h
        cases h with
        | implicit h => rcases hi with hi | hi
                        · rw [hi] at h; cases h
                        · exact absurd rfl (hi [] (by simp))
        | called _ hs hr =>
          rw [hT] at hs
          cases hs with
          | more hs =>
            obtain ⟨rs, h1, rfl⟩ := (ih _ hi' _).1 hr
            exact ⟨_ ++ rs, List.rel_append hs h1, by simp⟩
      · rintro ⟨rs, h, rfl⟩
        rw [List.flatten_cons] at h
        obtain ⟨r1, r2, rfl, h1, h2⟩ := forall₂_split_left h
        refine .called (by rcases hi with hi | hi
                           · exact .inr hi
                           · exact .inl (hi _ (by simp))) (by rw [hT]; exact .more h1) ((ih _ hi' _).2 ⟨_, h2, by simp⟩)
  cases L with
  | nil => exact absurd rfl hne
  | cons xs L =>
    have hi' : t.implicit = none ∨ ∀ l ∈ L, l ≠ [] := hi.imp_right fun h l hl => h l (by simp [hl])
    constructor
    · intro h
      cases h with
      | implicit h => rcases hi with hi | hi
                      · rw [hi] at h; cases h
                      · exact absurd rfl (hi [] (by simp))
      | called _ hs hr =>
        rw [hT] at hs
        cases hs with
        | first hs =>
          obtain ⟨rs, h1, rfl⟩ := (more L _ hi' _).1 hr
          exact ⟨_ ++ rs, List.rel_append hs h1, rfl⟩
    · rintro ⟨rs, h, rfl⟩
      rw [List.flatten_cons] at h
      obtain ⟨r1, r2, rfl, h1, h2⟩ := forall₂_split_left h
      refine .called (by rcases hi with hi | hi
                         · exact .inr hi
                         · exact .inl (hi _ (by simp))) (by rw [hT]; exact .first h1) ((more L _ hi' _).2 ⟨_, h2, by simp⟩)

/-- An optional can be given once, with one string. -/
theorem C119_optional (f : Validator Str) (t : TypedValue) (T : SType) (hT : t.type = .optional T) (hi : t.implicit = none) (L : List (List Str)) (r : Any) :
    Hands f t none L r ↔ L = [] ∧ r = none ∨ ∃ x w, L = [[x]] ∧ Element f T x w ∧ r = some (.optional T (some w)) := by
  constructor
  · intro h
    cases h with
    | done => exact .inl ⟨rfl, rfl⟩
    | implicit h => rw [hi] at h; cases h
    | called _ hs hr =>
      rw [hT] at hs
      cases hs with
      | optional hs =>
        cases hr with
        | done => exact .inr ⟨_, _, rfl, hs, rfl⟩
        | implicit h => rw [hi] at h; cases h
        | called _ hs' _ => rw [hT] at hs'; cases hs'
  · rintro (⟨rfl, rfl⟩ | ⟨x, w, rfl, hw, rfl⟩)
    · exact .done _
    · exact .called (.inl (by simp)) (by rw [hT]; exact .optional hw) (.done _)

/-! ### Refusals -/

/-- The value is absent or of the type of the option. -/
def TypeFits (T : VType) (v : Any) : Prop := ∀ x, v = some x → x.type = T

theorem lift_objection (f : Validator Str) (T : VType) (v : Any) (hv : (∃ t, T = .vector t) → TypeFits T v) (xs : List Str) (e : Fail) :
    (f.lift id T v xs).2 = some e ↔ Objection f T v xs e := by
  cases T with
  | scalar T =>
    constructor
    · intro h; exact .scalar (a := (f v xs).1) (Prod.ext rfl h)
    · intro h
      cases h with
      | scalar h => show (f v xs).2 = _; rw [h]
  | vector T =>
    have loop : ∀ acc, (f.vecLoop id T acc xs).2 = some e ↔ Objection f (.vector T) v xs e := by
      intro acc
      constructor
      · intro h
        obtain ⟨ys, x, zs, rs, rfl, h1, h2, -⟩ := (vecLoop_refused f T xs acc (f.vecLoop id T acc xs).1 e).1 (Prod.ext rfl h)
        exact .element h1 h2
      · intro h
        cases h with
        | element h he => rw [(vecLoop_refused f T _ acc _ e).2 ⟨_, _, _, _, rfl, h, he, rfl⟩]
    cases v with
    | none => exact loop []
    | some w =>
      have hw := hv ⟨T, rfl⟩ w rfl
      cases w with
      | scalar _ => cases hw
      | optional _ _ => cases hw
      | vector T' vs =>
        cases hw
        simp only [Validator.lift]
        rw [if_pos trivial]
        exact loop vs
  | optional T =>
    simp only [Validator.lift]
    cases v with
    | some w =>
      constructor
      · intro h; cases h; exact .again
      · intro h; cases h; rfl
    | none =>
      match xs with
      | [] =>
        constructor
        · intro h; cases h; exact .nothing
        · intro h; cases h; rfl
      | _ :: _ :: _ =>
        constructor
        · intro h; cases h; exact .several
        · intro h; cases h; rfl
      | [x] =>
        dsimp only
        rcases hx : f none [x] with ⟨b, e'⟩
        cases e' with
        | some e' =>
          constructor
          · intro h; cases h; exact .thrown hx
          · intro h
            cases h with
            | thrown h => rw [hx] at h; cases h; rfl
            | other h => rw [hx] at h; cases h
        | none =>
          dsimp only
          cases hc : castScalar T b with
          | error e' =>
            obtain ⟨rfl, hne⟩ := castScalar_error hc
            constructor
            · intro h; cases h; exact .other hx hne
            · intro h
              cases h with
              | thrown h => rw [hx] at h; cases h
              | other h => rfl
          | ok r =>
            obtain ⟨rfl, hr⟩ := castScalar_ok.1 hc
            constructor
            · intro h; cases h
            · intro h
              cases h with
              | thrown h => rw [hx] at h; cases h
              | other h ha => rw [hx] at h; cases h; exact absurd rfl (ha r hr)

/-- The values of vectors and optionals are of their type, whatever the overload does. -/
theorem hands_fits {f : Validator Str} {t : TypedValue} (ht : WellTyped t) (hT : ∀ T, t.type = .scalar T → Proper f T) {v r : Any} {L : List (List Str)}
    (hv : TypeFits t.type v) (h : Hands f t v L r) : TypeFits t.type r := by
  induction h with
  | done => exact hv
  | @implicit v rest q r h _ ih => exact ih (by intro x hx; cases hx; exact ht.implicit q h)
  | @called v xs rest a r _ hs _ ih =>
    refine ih ?_
    intro x hx
    subst hx
    generalize hty : t.type = ty at hs hv hT
    cases hs with
    | scalar h =>
      obtain ⟨w, hw, he⟩ := (hT _ rfl).stores _ _ _ hv h
      cases he
      exact congrArg VType.scalar hw
    | first _ => rfl
    | more _ => rfl
    | optional _ => rfl

/-- The first argument of an overload that leaves objects of its class is empty or such an object, each time it is called. -/
theorem C119_argument (f : Validator Str) (t : TypedValue) (ht : WellTyped t) (T : SType) (hT : t.type = .scalar T) (hf : Proper f T) (before : List (List Str)) (v : Any)
    (h : Hands f t none before v) : v = none ∨ ∃ r : SVal, r.type = T ∧ v = some (.scalar r) := by
  have hx := hands_fits ht (fun T' hT' => by cases hT.symm.trans hT'; exact hf) (by intro x hx; cases hx) h
  cases v with
  | none => exact .inl rfl
  | some w =>
    right
    have := hx w rfl
    rw [hT] at this
    cases w with
    | scalar r => cases this; exact ⟨r, rfl, rfl⟩
    | vector _ _ => cases this
    | optional _ _ => cases this

theorem parse_objection {env : Env} {t : TypedValue} {o : Overloads} (hw : t.wide = false) {v : Any} (hv : (∃ T, t.type = .vector T) → TypeFits t.type v) {xs : List Str}
    {e : Fail} : ((t.withOverloads env o).parse v xs false).2 = some e ↔ (xs ≠ [] ∨ t.implicit = none) ∧ Objection o.narrow t.type v xs e := by
  have hpar : (t.withOverloads env o).parse v xs false = t.xparseWith (o.narrow.lift id t.type) v xs := by
    show t.parseWith env o v xs false = _
    unfold TypedValue.parseWith
    rw [if_neg (by rw [hw]; simp), if_neg (by simp)]
  rw [hpar]
  unfold TypedValue.xparseWith
  have hl := lift_objection o.narrow t.type v hv xs e
  cases xs with
  | cons x xs => dsimp only; rw [hl]; simp
  | nil =>
    cases hi : t.implicit with
    | none => dsimp only; rw [hl]; simp
    | some q => dsimp only; simp

theorem vector_fits {f : Validator Str} {t : TypedValue} (ht : WellTyped t) {r : Any} {L : List (List Str)} (h : Hands f t none L r) (hT : ∃ T, t.type = .vector T) :
    TypeFits t.type r := by
  obtain ⟨T, hT⟩ := hT
  exact hands_fits ht (fun T' hT' => by rw [hT] at hT'; cases hT') (by intro x hx; cases hx) h

/-- A store that fails fails with the first option that refuses the tokens given with it. If that option has overloads, the exception is the one
that is due, and if it is of the library, the name and the token of the option are added to it. -/
theorem C119_refused (env : Env) (c : Cmdline) (hc : CustomParser env c) (args : List Str) (p : Parsed) (h : c.parse args = .ok p) (f : Fail)
    (hf : (store p {}).2 = some f) :
    ∃ before o after d e, FirstFault p {} false before o after e ∧ d ∈ c.desc ∧ o.stringKey = d.own ∧ f = e.addContext d.own (o.originalTokens.headD []) p.pre ∧
      ∀ (t : TypedValue) (ov : Overloads), d.semantic = t.withOverloads env ov → WellTyped t → t.wide = false →
        ∃ v, Hands ov.narrow t none (tokensOf before d.own) v ∧ (o.value ≠ [] ∨ t.implicit = none) ∧ Objection ov.narrow t.type v o.value e := by
  have hdesc := (OnceOnlyParser.run_of h).1
  obtain ⟨before, o, after, e, hff, rfl⟩ := (C65_fails p {} false f).1 hf
  have hm : Mentions p.options o.stringKey := ⟨o, by rw [hff.split]; simp, rfl, hff.named, hff.registered⟩
  obtain ⟨d, hd, hk⟩ := hc.declared h hm
  refine ⟨before, o, after, d, e, hff, hd, hk.symm, by rw [hk], ?_⟩
  intro t ov hs ht hw
  have hcand : candidates p.desc o.stringKey = [d] := by rw [hdesc, ← hk]; exact hc.cand hd
  cases hff.fault with
  | unknown h0 => rw [hcand] at h0; cases h0
  | ambiguous h0 => rw [hcand] at h0; simp at h0
  | value d' a hy he =>
    obtain ⟨h1, h2⟩ := hy
    cases hcand.symm.trans h1
    rw [hs] at h2 he
    have hg : given {} o.stringKey = none := rfl
    rw [hg] at h2
    have hh := (parseAll_hands env t ov hw none _ a).1 h2
    rw [hk]
    exact ⟨a, hh, (parse_objection hw (vector_fits ht hh)).1 he⟩

/-- Conversely the first objection is what the store throws. -/
theorem C119_refuses (env : Env) (c : Cmdline) (hc : CustomParser env c) (args : List Str) (p : Parsed) (h : c.parse args = .ok p) (before : List Opt) (o : Opt)
    (after : List Opt) (hsplit : p.options = before ++ o :: after) (hreg : o.unregistered = false) (hfine : ∀ d ∈ c.desc, ∃ r, Obtains env d.semantic (tokensOf before d.own) r)
    (d : OptionDesc) (hd : d ∈ c.desc) (hk : o.stringKey = d.own) (t : TypedValue) (ov : Overloads) (hs : d.semantic = t.withOverloads env ov) (ht : WellTyped t)
    (hw : t.wide = false) (v : Any) (hv : Hands ov.narrow t none (tokensOf before d.own) v) (hi : o.value ≠ [] ∨ t.implicit = none) (e : Fail)
    (he : Objection ov.narrow t.type v o.value e) : (store p {}).2 = some (e.addContext d.own (o.originalTokens.headD []) p.pre) := by
  have hdesc := (OnceOnlyParser.run_of h).1
  have hcand : candidates p.desc d.own = [d] := by rw [hdesc]; exact hc.cand hd
  refine (C65_fails p {} false _).2 ⟨before, o, after, e, ⟨hsplit, by rw [hk]; exact hc.named d hd, hreg, by simp, ?_, ?_⟩, by rw [hk]⟩
  · rintro n ⟨x, hx, rfl, hn, hr⟩ -
    obtain ⟨d', hd', hk'⟩ := hc.declared h ⟨x, by rw [hsplit]; simp [hx], rfl, hn, hr⟩
    obtain ⟨r, hr⟩ := hfine d' hd'
    refine ⟨d', r, by rw [hdesc, ← hk']; exact hc.cand hd', ?_⟩
    rw [← hk']
    exact (obtains_iff (hc.admits d' hd') _ _).2 hr
  · refine .value d v ⟨by rw [hk]; exact hcand, ?_⟩ ?_
    · rw [hs, hk]
      exact (parseAll_hands env t ov hw none _ v).2 hv
    · rw [hs]
      exact (parse_objection hw (vector_fits ht hv)).2 ⟨hi, he⟩

/-! ### `notify` -/

theorem lift_keeps {f : Validator Str} {T : VType} (hf : Proper f T.element) (v : Any) (xs : List Str) (hv : TypeFits T v) :
    TypeFits T (f.lift id T v xs).1 ∧ ((f.lift id T v xs).2 = none → (f.lift id T v xs).1 ≠ none) ∧ ((f.lift id T v xs).1 = none → v = none) := by
  cases T with
  | scalar T =>
    show TypeFits _ (f v xs).1 ∧ ((f v xs).2 = none → (f v xs).1 ≠ none) ∧ ((f v xs).1 = none → v = none)
    rcases hx : f v xs with ⟨a, e⟩
    cases e with
    | none =>
      obtain ⟨r, hr, rfl⟩ := hf.stores v xs a hv hx
      exact ⟨by intro x hx; cases hx; exact congrArg VType.scalar hr, nofun, nofun⟩
    | some e =>
      obtain rfl := hf.leaves v xs a e hv hx
      exact ⟨hv, nofun, id⟩
  | vector T =>
    simp only [Validator.lift]
    cases v with
    | none => exact ⟨by intro x hx; cases hx; rfl, nofun, nofun⟩
    | some w =>
      have hw := hv w rfl
      cases w with
      | scalar _ => cases hw
      | optional _ _ => cases hw
      | vector T' vs =>
        cases hw
        dsimp only
        rw [if_pos rfl]
        exact ⟨by intro x hx; cases hx; rfl, nofun, nofun⟩
  | optional T =>
    simp only [Validator.lift]
    cases v with
    | some w => exact ⟨hv, nofun, id⟩
    | none =>
      match xs with
      | [] => exact ⟨nofun, nofun, fun _ => rfl⟩
      | _ :: _ :: _ => exact ⟨nofun, nofun, fun _ => rfl⟩
      | [x] =>
        dsimp only
        rcases hx : f none [x] with ⟨b, e⟩
        cases e with
        | some e => exact ⟨nofun, nofun, fun _ => rfl⟩
        | none =>
          dsimp only
          cases castScalar T b with
          | error e => exact ⟨nofun, nofun, fun _ => rfl⟩
          | ok r => exact ⟨by intro x hx; cases hx; rfl, nofun, nofun⟩

theorem custom_keeps (env : Env) {t : TypedValue} {o : Overloads} (ht : WellTyped t) (hw : t.wide = false) (hf : Proper o.narrow t.type.element) :
    Keeps (t.withOverloads env o) t.type := by
  have hx : ∀ v xs, TypeFits t.type v → TypeFits t.type (t.xparseWith (o.narrow.lift id t.type) v xs).1 ∧
      ((t.xparseWith (o.narrow.lift id t.type) v xs).2 = none → (t.xparseWith (o.narrow.lift id t.type) v xs).1 ≠ none) ∧
      ((t.xparseWith (o.narrow.lift id t.type) v xs).1 = none → v = none) := by
    intro v xs hv
    have hl := lift_keeps hf v xs hv
    unfold TypedValue.xparseWith
    cases xs with
    | cons x xs => exact hl
    | nil =>
      cases hi : t.implicit with
      | none => exact hl
      | some q => exact ⟨by intro x hx; cases hx; exact ht.implicit q hi, nofun, nofun⟩
  have hk := typed_keeps env t ht (by rw [hw]; simp)
  refine ⟨?_, hk.dflt, hk.notify⟩
  intro v toks u hv
  show TypeFits t.type (t.parseWith env o v toks u).1 ∧ ((t.parseWith env o v toks u).2 = none → (t.parseWith env o v toks u).1 ≠ none) ∧
    ((t.parseWith env o v toks u).1 = none → v = none)
  unfold TypedValue.parseWith
  rw [if_neg (by rw [hw]; simp)]
  cases u with
  | false => rw [if_neg (by simp)]; exact hx v toks hv
  | true =>
    rw [if_pos rfl]
    cases toks.mapM (fun s => (env.fromUtf8 s).bind env.toLocal) with
    | none => exact ⟨hv, nofun, id⟩
    | some ls => exact hx v ls hv

theorem Spec.ProperOptions.keeps {env : Env} {desc : List OptionDesc} (hp : ProperOptions env desc) {d : OptionDesc} (hd : d ∈ desc) : ∃ T, Keeps d.semantic T := by
  rcases hp d hd with h | ⟨t, o, hs, ht, hw, hf⟩
  · obtain ⟨T, hT⟩ := h.narrow
    exact ⟨T, narrow_declared hT⟩
  · exact ⟨t.type, by rw [hs]; exact custom_keeps env ht hw hf⟩

theorem Spec.ProperOptions.sameType {env : Env} {p : Parsed} (hp : ProperOptions env p.desc) (name : Str) :
    ∃ T, ∀ q ∈ [(p, false)], ∀ d, candidates q.1.desc name = [d] → Keeps d.semantic T := by
  by_cases hd : ∃ d, candidates p.desc name = [d]
  · obtain ⟨d, hd⟩ := hd
    obtain ⟨T, hT⟩ := hp.keeps (cand_mem hd)
    refine ⟨T, fun q hq d' hd' => ?_⟩
    cases List.mem_singleton.1 hq
    cases hd.symm.trans hd'
    exact hT
  · refine ⟨.scalar .str, fun q hq d' hd' => ?_⟩
    cases List.mem_singleton.1 hq
    exact absurd ⟨d', hd'⟩ hd

theorem custom_lacking {env : Env} {c : Cmdline} (hc : CustomParser env c) (hp : ProperOptions env c.desc) {args : List Str} {p : Parsed} (h : c.parse args = .ok p)
    {m : VarMap} (hm : store p {} = (m, none)) {d : OptionDesc} (hd : d ∈ c.desc) :
    (m.get d.own).v = none ↔ ¬ Mentions p.options d.own ∧ d.semantic.applyDefault = none := by
  unfold VarMap.get
  obtain ⟨T, hk⟩ := hp.keeps hd
  by_cases hg : Mentions p.options d.own
  · obtain ⟨r, hr, hv⟩ := C119_given env c hc args p h m hm d hd hg
    rw [hv]
    refine ⟨fun h => absurd h ?_, fun h => absurd hg h.1⟩
    exact (parseAll_keeps hk (by intro x hx; cases hx) ((obtains_iff (hc.admits d hd) _ _).2 hr)).2.1 (occ_ne hg)
  · rw [C119_not_given env c hc args p h m hm d hd hg]
    cases hdf : d.semantic.applyDefault with
    | none => exact ⟨fun _ => ⟨hg, rfl⟩, fun _ => rfl⟩
    | some a =>
      obtain ⟨x, rfl, -⟩ := hk.dflt a hdf
      exact ⟨(fun h => by cases h), fun h => nomatch h.2⟩

/-- If the overloads leave objects of their classes, `notify` goes through exactly if no option is lacking. -/
theorem C119_notify (env : Env) (c : Cmdline) (hc : CustomParser env c) (hp : ProperOptions env c.desc) (args : List Str) (p : Parsed) (h : c.parse args = .ok p)
    (m : VarMap) (hm : store p {} = (m, none)) : m.notify.2 = none ↔ ∀ d ∈ c.desc, ¬ Lacking p.options d := by
  have hdesc := (OnceOnlyParser.run_of h).1
  have hS : Stores {} [(p, false)] m := .cons hm (.nil _)
  have hist : History {} [(p, false)] m := .ok hm (.nil _)
  constructor
  · rintro hn d hd ⟨h1, h2, h3⟩
    obtain ⟨k, display, -, -, -, -, hf⟩ := (C38_required _ m hist).1 ⟨d.own, _, ⟨_, List.mem_singleton.2 rfl, d, by rw [hdesc]; exact hd, hc.named d hd, rfl, h1,
      (shows_iff d p.pre _).2 rfl⟩, (custom_lacking hc hp h hm hd).2 ⟨h2, h3⟩⟩
    rw [hf] at hn
    cases hn
  · intro hall
    cases hf : m.notify.2 with
    | none => rfl
    | some f =>
      exfalso
      obtain ⟨e, he, s, hs, hnf⟩ := (C38_required _ m hist).2 (by
        rintro k n ⟨q, hq, d, hd, -, rfl, hr, -⟩ hv
        cases List.mem_singleton.1 hq
        have hd : d ∈ c.desc := hdesc ▸ hd
        exact hall d hd ⟨hr, (custom_lacking hc hp h hm hd).1 hv⟩) f hf
      refine delivers_keeps (by simp) hS ?_ ((hdesc ▸ hp : ProperOptions env p.desc).sameType) he hs hnf
      intro q hq d hd
      cases List.mem_singleton.1 hq
      exact hp.keeps (hdesc ▸ hd)

/-! ### Exceptions -/

theorem objection_library {f : Validator Str} {T : VType} (hp : Polite f T) (hf : Proper f T.element) {v : Any} {xs : List Str} {e : Fail} (h : Objection f T v xs e) :
    LibraryException e := by
  cases h with
  | scalar h =>
    rcases hp _ _ _ _ h with h | ⟨-, t, ht⟩
    · exact h
    · cases ht
  | element _ he =>
    cases he with
    | cast => trivial
    | thrown h hne =>
      rcases hp _ _ _ _ h with h | ⟨h, -⟩
      · exact h
      · exact absurd h hne
    | other h ha =>
      obtain ⟨r, hr, he⟩ := hf.stores _ _ _ (by intro x hx; cases hx) h
      exact absurd he (ha r hr)
  | again => trivial
  | nothing => trivial
  | several => trivial
  | thrown h =>
    rcases hp _ _ _ _ h with h | ⟨-, t, ht⟩
    · exact h
    · cases ht
  | other h ha =>
    obtain ⟨r, hr, he⟩ := hf.stores _ _ _ (by intro x hx; cases hx) h
    exact absurd he (ha r hr)

/-- Whatever the arguments are, only exceptions of the library are thrown, if the overloads throw no others; for classes that occur only as elements
of vectors they can throw `bad_lexical_cast` as well. -/
theorem C119_otherwise (env : Env) (c : Cmdline) (hc : CustomParser env c)
    (hp : ∀ d ∈ c.desc, PlainValue env d.semantic ∨ ∃ t o, d.semantic = TypedValue.withOverloads env o t ∧ WellTyped t ∧ t.wide = false ∧ Proper o.narrow t.type.element ∧
      Polite o.narrow t.type) (args : List Str) (f : Fail)
    (h : c.parse args = .error f ∨ (∃ p m, c.parse args = .ok p ∧ store p {} = (m, some f)) ∨
      ∃ p m, c.parse args = .ok p ∧ store p {} = (m, none) ∧ m.notify.2 = some f) : LibraryException f := by
  have hpo : ProperOptions env c.desc := fun d hd => (hp d hd).imp_right fun ⟨t, o, h1, h2, h3, h4, _⟩ => ⟨t, o, h1, h2, h3, h4⟩
  rcases h with h | ⟨p, m, h, hst⟩ | ⟨p, m, h, hst, hn⟩
  · unfold Cmdline.parse at h
    cases hr : c.run args with
    | ok os => rw [hr] at h; cases h
    | error g =>
      rw [hr] at h
      cases h
      exact commandLine_library c hc.style (fun d hd hk => hc.named d hd ((own_canonical (hc.named d hd)).1 hk).symm)
        (fun d hd k hk => .inl ⟨d, .inl (hc.identified d hd k hk)⟩) args _ hr
  · have hdesc := (OnceOnlyParser.run_of h).1
    obtain ⟨before, o, after, d, e, hff, hd, hk, rfl, hob⟩ := C119_refused env c hc args p h f (by rw [hst])
    apply library_ctx
    rcases hp d hd with hpl | ⟨t, ov, hs, ht, hw, h1, h2⟩
    · obtain ⟨T, hT⟩ := hpl.narrow
      have hcand : candidates p.desc o.stringKey = [d] := by rw [hdesc, hk]; exact hc.cand hd
      cases hff.fault with
      | unknown => trivial
      | ambiguous => trivial
      | value d' a hy he =>
        cases hcand.symm.trans hy.1
        exact narrow_library hT a o.value (parseAll_keeps (narrow_declared hT) (by intro x hx; cases hx) hy.2).1 e he
    · obtain ⟨v, -, -, ho⟩ := hob t ov hs ht hw
      exact objection_library h2 h1 ho
  · have hdesc := (OnceOnlyParser.run_of h).1
    by_cases hall : ∀ d ∈ c.desc, ¬ Lacking p.options d
    · rw [(C119_notify env c hc hpo args p h m hst).2 hall] at hn
      cases hn
    · simp only [not_forall, not_not] at hall
      obtain ⟨d, hd, h1, h2, h3⟩ := hall
      obtain ⟨k, display, -, -, -, -, hf⟩ := (C38_required _ m (.ok hst (.nil _))).1 ⟨d.own, _, ⟨_, List.mem_singleton.2 rfl, d, by rw [hdesc]; exact hd, hc.named d hd, rfl, h1,
        (shows_iff d p.pre _).2 rfl⟩, (custom_lacking hc hpo h hst hd).2 ⟨h2, h3⟩⟩
      rw [hf] at hn
      cases hn
      trivial

/-- For the class itself and for optionals `bad_lexical_cast` leaves `store` as it is, without the name of the option; from an element of a vector it becomes
`invalid_option_value`. Wherever the option is: those before it are fine, and one that is not a vector has no value yet. -/
theorem C119_cast_escapes (env : Env) (c : Cmdline) (hc : CustomParser env c) (args : List Str) (p : Parsed) (h : c.parse args = .ok p) (before : List Opt) (o : Opt)
    (after : List Opt) (hsplit : p.options = before ++ o :: after) (hreg : o.unregistered = false) (hfine : ∀ d ∈ c.desc, ∃ r, Obtains env d.semantic (tokensOf before d.own) r)
    (d : OptionDesc) (hd : d ∈ c.desc) (hk : o.stringKey = d.own) (t : TypedValue) (ov : Overloads) (hs : d.semantic = t.withOverloads env ov) (ht : WellTyped t)
    (hw : t.wide = false) (v : Any) (hv : Hands ov.narrow t none (tokensOf before d.own) v) (hone : (∀ T, t.type ≠ .vector T) → v = none)
    (x : Str) (hx : o.value = [x]) (a : Any) (hf : ov.narrow none [x] = (a, some .badLexicalCast)) :
    (store p {}).2 = some (match t.type with
      | .vector _ => .opt { cls := .validation .invalidOptionValue, style := p.pre
                            subst := [(str% "option", d.own), (str% "original_token", o.originalTokens.headD []), (str% "value", x)] }
      | _ => .badLexicalCast) := by
  have h0 := C119_refuses env c hc args p h before o after hsplit hreg hfine d hd hk t ov hs ht hw v hv (.inl (by rw [hx]; simp))
  cases hT : t.type with
  | scalar T =>
    rw [hone (by rw [hT]; nofun)] at h0
    exact h0 .badLexicalCast (by rw [hT]; exact .scalar (by rw [hx]; exact hf))
  | optional T =>
    rw [hone (by rw [hT]; nofun)] at h0
    exact h0 .badLexicalCast (by rw [hT, hx]; exact .thrown hf)
  | vector T =>
    have := h0 _ (by rw [hT, hx]; exact .element (ys := []) (zs := []) .nil (.cast hf))
    rw [this]
    rfl

/-! ### An example -/

/-- A class with type number 9, read from `a` and `b`; other strings make the overload throw `bad_lexical_cast`, `!` an exception of the program. -/
def Ex.letter : Overloads where
  narrow := onceValidator [] fun s =>
    if s = Test.L "a" then .ok (.lex 9 0) else if s = Test.L "b" then .ok (.lex 9 1) else if s = Test.L "!" then .error (.foreign 4) else .error .badLexicalCast
  wide := fun v _ => (v, none)

/-- An overload that throws nothing and leaves an `int` instead of an object of the class. -/
def Ex.stranger : Overloads := ⟨fun _ _ => (some (.scalar (.lex 0 5)), none), fun v _ => (v, none)⟩

def Ex.letters : Cmdline where
  desc := Hierarchy.opt (str% "one") (TypedValue.withOverloads sourcesEnv Ex.letter { type := .scalar (.lex 9) }) ++
    Hierarchy.opt (str% "many,m") (TypedValue.withOverloads sourcesEnv Ex.letter { type := .vector (.lex 9) }) ++
    Hierarchy.opt (str% "maybe") (TypedValue.withOverloads sourcesEnv Ex.letter { type := .optional (.lex 9), required := true }) ++
    Hierarchy.opt (str% "odd") (TypedValue.withOverloads sourcesEnv Ex.stranger { type := .scalar (.lex 9) }) ++
    Hierarchy.opt (str% "odds") (TypedValue.withOverloads sourcesEnv Ex.stranger { type := .vector (.lex 9) })

def Ex.lettersStored (args : List String) : Option Fail × List (Str × Any) :=
  match Ex.letters.parse (args.map Test.L) with
  | .error f => (some f, [])
  | .ok p => ((store p {}).2, (store p {}).1.map.map fun x => (x.1, x.2.v))

set_option maxRecDepth 8000 in
example : Ex.lettersStored ["--many", "a", "--one=b", "-mb", "--many=a"] =
      (none, [(Test.L "many", some (.vector (.lex 9) [.lex 9 0, .lex 9 1, .lex 9 0])), (Test.L "one", some (.scalar (.lex 9 1)))]) ∧
    (Ex.lettersStored ["--one=c"]).1 = some .badLexicalCast ∧ (Ex.lettersStored ["--maybe=c"]).1 = some .badLexicalCast ∧
    (Ex.lettersStored ["--many=a", "--many=c"]).1 = some (.opt { cls := .validation .invalidOptionValue, style := Style.allowLong, subst :=
      [(Test.L "option", Test.L "many"), (Test.L "original_token", Test.L "--many=c"), (Test.L "value", Test.L "c")] }) ∧
    (Ex.lettersStored ["--many=!"]).1 = some (.foreign 4) ∧ (Ex.lettersStored ["--one=a", "--one=a"]).1 = some (.opt { cls := .multipleOccurrences, style := Style.allowLong, subst :=
      [(Test.L "option", Test.L "one"), (Test.L "original_token", Test.L "--one=a")] }) ∧
    (Ex.lettersStored ["--odds=a"]).1 = some .badAnyCast ∧ Ex.lettersStored ["--odd=a"] = (none, [(Test.L "odd", some (.scalar (.lex 0 5)))]) :=
  ⟨rfl, rfl, rfl, rfl, rfl, rfl, rfl, rfl⟩

/-- The value that is not of the class is found out only later: with a notifier or a variable, `notify` dereferences the null pointer of `any_cast`. -/
example : ((TypedValue.withOverloads sourcesEnv Ex.stranger { type := .scalar (.lex 9), storeTo := some 0 }).notify (some (.scalar (.lex 0 5)))).2 = some (.ub .nullNotify) := rfl

end PO
