import Verif.Props.Store
/-
C34, C43, C44: repeated occurrences of an option, within one source and across sources.
-/
namespace PO
open Spec

/-! ### C34 -/

/-- Conversion of one command-line token to an element of type `st`, as an option declared with the
given character type reads it: decode the token, then the scalar conversion for `st`. -/
def tokenConv (env : Env) (wide utf8 : Bool) (st : SType) (x : Str) : Option SVal :=
  let r : Option SVal :=
    if wide then ((if utf8 then env.fromUtf8 else env.fromLocal) x).bind fun w => (wvalidateScalar env st [w]).toOption
    else if utf8 then ((env.fromUtf8 x).bind env.toLocal).bind fun s => (validateScalar env st [s]).toOption
    else (validateScalar env st [x]).toOption
  r.bind fun v => if v.type = st then some v else none

theorem mapM_cons_some {α β : Type} (f : α → Option β) (x : α) (xs : List α) (r : List β)
    (h : (x :: xs).mapM f = some r) : ∃ y ys, f x = some y ∧ xs.mapM f = some ys ∧ r = y :: ys := by
  rw [List.mapM_cons] at h
  cases hx : f x with
  | none => simp [hx] at h
  | some y =>
    cases hxs : xs.mapM f with
    | none => simp [hx, hxs] at h
    | some ys => simp [hx, hxs] at h; exact ⟨y, ys, rfl, rfl, h.symm⟩

theorem mapM_some_length {α β : Type} (f : α → Option β) (xs : List α) (r : List β)
    (h : xs.mapM f = some r) : xs.map f = r.map some := by
  induction xs generalizing r with
  | nil => simp at h; subst h; rfl
  | cons x xs ih =>
    obtain ⟨y, ys, hy, hys, rfl⟩ := mapM_cons_some f x xs r h
    simp [hy, ih ys hys]

theorem validateVecLoop_ok {α : Type} (scalar : List α → Except Fail SVal) (st : SType) (xs : List α)
    (acc r : List SVal) (h : validateVecLoop scalar st acc xs = (r, none)) :
    ∃ vs, xs.map (fun x => (scalar [x]).toOption.bind fun v => if v.type = st then some v else none) = vs.map some ∧
      r = acc ++ vs := by
  induction xs generalizing acc with
  | nil => simp only [validateVecLoop, Prod.mk.injEq, and_true] at h; exact ⟨[], rfl, by simp [h]⟩
  | cons x xs ih =>
    rw [validateVecLoop] at h
    cases hx : scalar [x] with
    | error f => simp [hx] at h
    | ok v =>
      simp only [hx] at h
      split at h
      · rename_i ht
        obtain ⟨vs, hvs, hr⟩ := ih _ h
        refine ⟨v :: vs, ?_, by simp [hr]⟩
        simp only [List.map_cons, hvs, hx]
        simp [Except.toOption, ht]
      · simp at h

theorem validateVec_ok {α : Type} (scalar : SType → List α → Except Fail SVal) (st : SType) (v : Any)
    (acc : List SVal) (hv : v = none ∧ acc = [] ∨ v = some (.vector st acc)) (xs : List α) (a : Any)
    (h : validate scalar (.vector st) v xs = (a, none)) :
    ∃ vs, xs.map (fun x => (scalar st [x]).toOption.bind fun v => if v.type = st then some v else none) = vs.map some ∧
      a = some (.vector st (acc ++ vs)) := by
  rcases hv with ⟨rfl, rfl⟩ | rfl
  · simp only [validate, Prod.mk.injEq] at h
    obtain ⟨vs, h1, h2⟩ := validateVecLoop_ok (scalar st) st xs [] _ (Prod.ext rfl h.2)
    exact ⟨vs, h1, by rw [← h.1]; exact congrArg (fun l => some (AVal.vector st l)) h2⟩
  · simp only [validate, if_true, Prod.mk.injEq] at h
    obtain ⟨vs, h1, h2⟩ := validateVecLoop_ok (scalar st) st xs acc _ (Prod.ext rfl h.2)
    exact ⟨vs, h1, by rw [← h.1]; exact congrArg (fun l => some (AVal.vector st l)) h2⟩

theorem xparse_noimplicit {α : Type} (scalar : SType → List α → Except Fail SVal) (t : TypedValue)
    (v : Any) (toks : List α) (hi : t.implicit = none ∨ toks ≠ []) :
    t.xparse scalar v toks = validate scalar t.type v toks := by
  unfold TypedValue.xparse
  rcases hi with hi | hi
  · rw [hi]; cases toks <;> rfl
  · cases toks with
    | nil => exact absurd rfl hi
    | cons => rfl

theorem mapM_some_ne_nil {α β : Type} {f : α → Option β} {xs : List α} {r : List β} {P : Prop}
    (h : xs.mapM f = some r) (hx : P ∨ xs ≠ []) : P ∨ r ≠ [] := by
  rcases hx with hx | hx
  · exact .inl hx
  · right
    rintro rfl
    have := congrArg List.length (mapM_some_length _ _ _ h)
    simp at this
    exact hx this

theorem parse_vec_ok (env : Env) (t : TypedValue) (st : SType) (ht : t.type = .vector st) 
    (utf8 : Bool) (v : Any) (acc : List SVal) (hv : v = none ∧ acc = [] ∨ v = some (.vector st acc))
    (toks : List Str) (hi : t.implicit = none ∨ toks ≠ []) (a : Any) (h : t.parse env v toks utf8 = (a, none)) :
    ∃ vs, toks.map (tokenConv env t.wide utf8 st) = vs.map some ∧ a = some (.vector st (acc ++ vs)) := by
  unfold TypedValue.parse at h
  by_cases hw : t.wide = true
  · rw [if_pos hw] at h
    cases hm : toks.mapM (if utf8 = true then env.fromUtf8 else env.fromLocal) with
    | none => simp [hm] at h
    | some ws =>
      simp only [hm] at h
      rw [xparse_noimplicit _ t _ _ (mapM_some_ne_nil hm hi), ht] at h
      obtain ⟨vs, h1, h2⟩ := validateVec_ok _ st v acc hv ws a h
      refine ⟨vs, ?_, h2⟩
      rw [← h1]
      have := mapM_some_length _ _ _ hm
      have h3 : toks.map (tokenConv env t.wide utf8 st) =
          (toks.map (if utf8 = true then env.fromUtf8 else env.fromLocal)).map fun o =>
            (o.bind fun w => (wvalidateScalar env st [w]).toOption).bind fun v => if v.type = st then some v else none := by
        rw [List.map_map]
        apply List.map_congr_left
        intro x _
        simp only [tokenConv, hw, if_true, Function.comp]
      rw [h3, this, List.map_map]
      rfl
  · rw [if_neg hw] at h
    by_cases hu : utf8 = true
    · rw [if_pos hu] at h
      cases hm : toks.mapM (fun s => (env.fromUtf8 s).bind env.toLocal) with
      | none => simp [hm] at h
      | some ws =>
        simp only [hm] at h
        rw [xparse_noimplicit _ t _ _ (mapM_some_ne_nil hm hi), ht] at h
        obtain ⟨vs, h1, h2⟩ := validateVec_ok _ st v acc hv ws a h
        refine ⟨vs, ?_, h2⟩
        rw [← h1]
        have := mapM_some_length _ _ _ hm
        have h3 : toks.map (tokenConv env t.wide utf8 st) =
            (toks.map (fun s => (env.fromUtf8 s).bind env.toLocal)).map fun o =>
              (o.bind fun w => (validateScalar env st [w]).toOption).bind fun v => if v.type = st then some v else none := by
          rw [List.map_map]
          apply List.map_congr_left
          intro x _
          simp only [tokenConv, hw, hu, if_true, Function.comp]
          rfl
        rw [h3, this, List.map_map]
        rfl
    · rw [if_neg hu] at h
      rw [xparse_noimplicit _ t _ _ hi, ht] at h
      obtain ⟨vs, h1, h2⟩ := validateVec_ok _ st v acc hv toks a h
      refine ⟨vs, ?_, h2⟩
      rw [← h1]
      apply List.map_congr_left
      intro x _
      simp [tokenConv, hw, hu]

theorem parseAll_vec_ok (env : Env) (t : TypedValue) (st : SType) (ht : t.type = .vector st) 
    (utf8 : Bool) (tss : List (List Str)) (hi : t.implicit = none ∨ ∀ ts ∈ tss, ts ≠ []) (v : Any) (acc : List SVal)
    (hv : v = none ∧ acc = [] ∨ v = some (.vector st acc)) (a : Any)
    (h : parseAll (t.toSemantic env) utf8 v tss = .ok a) :
    ∃ vs, tss.flatten.map (tokenConv env t.wide utf8 st) = vs.map some ∧
      (a = none ∧ v = none ∧ tss = [] ∧ acc ++ vs = [] ∨ a = some (.vector st (acc ++ vs))) := by
  induction tss generalizing v acc with
  | nil =>
    simp only [parseAll, Except.ok.injEq] at h
    subst h
    refine ⟨[], rfl, ?_⟩
    rcases hv with ⟨rfl, rfl⟩ | rfl
    · simp
    · simp
  | cons toks tss ih =>
    rw [parseAll] at h
    cases hp : (t.toSemantic env).parse v toks utf8 with
    | mk a1 e =>
      rw [hp] at h
      cases e with
      | some f => simp at h
      | none =>
        simp only at h
        obtain ⟨vs1, h1, h2⟩ := parse_vec_ok env t st ht utf8 v acc hv toks (hi.imp_right fun h => h toks (by simp)) a1 hp
        obtain ⟨vs2, h3, h4⟩ := ih (hi.imp_right fun h ts hts => h ts (by simp [hts])) a1 (acc ++ vs1) (.inr h2) h
        refine ⟨vs1 ++ vs2, ?_, ?_⟩
        · simp [h1, h3]
        · rcases h4 with ⟨_, h5, _⟩ | h4
          · rw [h2] at h5; cases h5
          · right; rw [h4, List.append_assoc]

theorem composing_accumulates (env : Env) (t : TypedValue) (st : SType) (ht : t.type = .vector st)
    (hc : t.composing = true) (name : Str) (srcs : List (Parsed × Bool))
    (hi : t.implicit = none ∨ ∀ q ∈ srcs, ∀ o ∈ occurrences q.1.options name, o.value ≠ []) (m0 m : VarMap) (h : Stores m0 srcs m)
    (h0 : m0.map.get? name = none ∨ (m0.get name).defaulted = true) (hf : name ∉ m0.final)
    (hd : ∀ q ∈ srcs, ∃ d, findOrThrow q.1.desc name false false false = .ok d ∧ d.semantic = t.toSemantic env)
    (hm : ∃ q ∈ srcs, Mentions q.1.options name) :
    ∃ vs, (srcs.flatMap fun q => (occurrences q.1.options name).flatMap fun o =>
            o.value.map (tokenConv env t.wide q.2 st)) = vs.map some ∧
      m.get name = { v := some (.vector st vs), defaulted := false, semantic := some (t.toSemantic env) } := by
  have key : ∀ (srcs : List (Parsed × Bool)) (m0 m : VarMap), Stores m0 srcs m →
      ∀ acc, (((if (m0.get name).defaulted then none else (m0.get name).v) = none ∧ acc = [] ∧
            ∃ q ∈ srcs, Mentions q.1.options name) ∨
          m0.map.get? name = some { v := some (.vector st acc), defaulted := false, semantic := some (t.toSemantic env) }) →
        name ∉ m0.final → (t.implicit = none ∨ ∀ q ∈ srcs, ∀ o ∈ occurrences q.1.options name, o.value ≠ []) →
        (∀ q ∈ srcs, ∃ d, findOrThrow q.1.desc name false false false = .ok d ∧ d.semantic = t.toSemantic env) →
        ∃ vs, (srcs.flatMap fun q => (occurrences q.1.options name).flatMap fun o =>
                o.value.map (tokenConv env t.wide q.2 st)) = vs.map some ∧
          m.get name = { v := some (.vector st (acc ++ vs)), defaulted := false, semantic := some (t.toSemantic env) } := by
    intro srcs m0 m h
    induction h with
    | nil m =>
      intro acc hs _ _ _
      rcases hs with ⟨_, _, q, hq, _⟩ | hs
      · cases hq
      · exact ⟨[], rfl, by simp [VarMap.get, hs]⟩
    | @cons m m1 m2 p u rest hst tl ih =>
      intro acc hs hf hi hd
      have hi' : t.implicit = none ∨ ∀ q ∈ rest, ∀ o ∈ occurrences q.1.options name, o.value ≠ [] :=
        hi.imp_right fun h q hq => h q (by simp [hq])
      have hd' : ∀ q ∈ rest, ∃ d, findOrThrow q.1.desc name false false false = .ok d ∧ d.semantic = t.toSemantic env :=
        fun q hq => hd q (by simp [hq])
      by_cases hment : Mentions p.options name
      · obtain ⟨d, a, hd1, hp, hg, hn⟩ := store_hit hst name hment hf
        obtain ⟨d', hd2, hsem⟩ := hd (p, u) (by simp)
        simp only at hd2
        rw [hd1] at hd2
        injection hd2 with e
        subst e
        rw [hsem] at hp hg hn
        have hn' : name ∉ m1.final := by
          rw [hn]; simp [TypedValue.toSemantic, hc]
        have hcur : (if (m.get name).defaulted then none else (m.get name).v) = none ∧ acc = [] ∨
            (if (m.get name).defaulted then none else (m.get name).v) = some (.vector st acc) := by
          rcases hs with ⟨h1, h2, _⟩ | hs
          · exact .inl ⟨h1, h2⟩
          · right; simp [VarMap.get, hs]
        obtain ⟨vs1, hv1, hv2⟩ := parseAll_vec_ok env t st ht u _ (hi.imp_right fun h ts hts => by
          obtain ⟨o, ho, rfl⟩ := List.mem_map.1 hts
          exact h (p, u) (by simp) o ho) _ acc hcur a hp
        have hne : (occurrences p.options name).map (·.value) ≠ [] := by
          rw [mentions_iff] at hment; simpa using hment
        have ha : a = some (.vector st (acc ++ vs1)) := by
          rcases hv2 with ⟨_, _, h3, _⟩ | h3
          · exact absurd h3 hne
          · exact h3
        rw [ha] at hg
        obtain ⟨vs2, hv3, hv4⟩ := ih (acc ++ vs1) (.inr hg) hn' hi' hd'
        refine ⟨vs1 ++ vs2, ?_, by rw [hv4, List.append_assoc]⟩
        rw [List.flatMap_cons, hv3, List.map_append, ← hv1]
        congr 1
        rw [List.map_flatten, List.map_map, List.flatMap_def]
        rfl
      · obtain ⟨h1, h2⟩ := store_miss hst name (.inl hment)
        have hn' : name ∉ m1.final := fun hh => hf (h2.1 hh)
        have hocc : occurrences p.options name = [] := by
          rw [mentions_iff] at hment; simpa using hment
        have hnext : (((if (m1.get name).defaulted then none else (m1.get name).v) = none ∧ acc = [] ∧
              ∃ q ∈ rest, Mentions q.1.options name) ∨
            m1.map.get? name = some { v := some (.vector st acc), defaulted := false, semantic := some (t.toSemantic env) }) := by
          rcases hs with ⟨h3, h4, q, hq, hqm⟩ | hs
          · left
            refine ⟨?_, h4, q, ?_, hqm⟩
            · unfold VarMap.get at h3 ⊢
              rw [h1]
              cases hx : m.map.get? name with
              | some v => simpa [hx] using h3
              | none => cases firstDefault p.desc name <;> simp
            · rcases List.mem_cons.1 hq with e | e
              · subst e; exact absurd hqm hment
              · exact e
          · right; rw [h1, hs]
        obtain ⟨vs, hv, hv'⟩ := ih acc hnext hn' hi' hd'
        exact ⟨vs, by simpa [hocc] using hv, hv'⟩
  have := key srcs m0 m h [] (.inl ⟨?_, rfl, hm⟩) hf hi hd
  · simpa using this
  · rcases h0 with h0 | h0
    · simp [VarMap.get, h0]
    · simp [h0]

/-- **C34.** Any sequence of successful stores into a map in which the option has no explicit value
yet, each source resolving the name to the composing vector option (no implicit value): the value is
the concatenation, in order, of the conversions of all tokens of all occurrences in all sources. -/
theorem C34_composing_accumulates (env : Env) (t : TypedValue) (st : SType) (ht : t.type = .vector st)
    (hi : t.implicit = none) (hc : t.composing = true) (name : Str)
    (srcs : List (Parsed × Bool)) (m0 m : VarMap) (h : Stores m0 srcs m)
    (h0 : m0.map.get? name = none ∨ (m0.get name).defaulted = true) (hf : name ∉ m0.final)
    (hd : ∀ q ∈ srcs, ∃ d, candidates q.1.desc name = [d] ∧ d.semantic = t.toSemantic env)
    (hm : ∃ q ∈ srcs, Mentions q.1.options name) :
    ∃ vs, (srcs.flatMap fun q => (occurrences q.1.options name).flatMap fun o =>
            o.value.map (tokenConv env t.wide q.2 st)) = vs.map some ∧
      m.get name = { v := some (.vector st vs), defaulted := false, semantic := some (t.toSemantic env) } :=
  composing_accumulates env t st ht hc name srcs (.inl hi) m0 m h h0 hf (fun q hq => (hd q hq).imp fun _ h => ⟨(find_ok_iff _ _ _).2 h.1, h.2⟩) hm

example : ∃ m, Stores {} [(Ex.src1, false), (Ex.src2, false)] m ∧
    (m.get (Test.L "inc")).v = some (.vector .str [.str (Test.L "x"), .str (Test.L "y"), .str (Test.L "z"), .str (Test.L "w")]) ∧
    ∃ d, findOrThrow Ex.src1.desc (Test.L "inc") false false false = .ok d ∧
      d.semantic = ({ Test.vvec with composing := true } : TypedValue).toSemantic Test.env := by
  refine ⟨(store Ex.src2 (store Ex.src1 {} false).1 false).1, ?_, by decide, Ex.dVec, rfl, rfl⟩
  have h1 : (store Ex.src1 {} false).2 = none := by decide
  have h2 : (store Ex.src2 (store Ex.src1 {} false).1 false).2 = none := by decide
  exact .cons (m1 := (store Ex.src1 {} false).1) (Prod.ext rfl h1)
    (.cons (m1 := (store Ex.src2 (store Ex.src1 {} false).1 false).1) (Prod.ext rfl h2) (.nil _))

/-! ### C43 -/

/-- A non-vector option. -/
def NotVector : VType → Prop
  | .vector _ => False
  | _ => True

theorem validate_notVector_some {α : Type} (scalar : SType → List α → Except Fail SVal) (t : VType) (ht : NotVector t)
    (w : AVal) (xs : List α) : validate scalar t (some w) xs = (some w, some errMultipleOccurrences) := by
  cases t with
  | vector => exact absurd ht id
  | scalar => rfl
  | optional => rfl

theorem validate_notVector_ok {α : Type} (scalar : SType → List α → Except Fail SVal) (t : VType) (ht : NotVector t)
    (v : Any) (xs : List α) (a : Any) (h : validate scalar t v xs = (a, none)) : a ≠ none := by
  cases t with
  | vector => exact absurd ht id
  | scalar st =>
    cases v with
    | some w => simp [validate] at h
    | none =>
      simp only [validate] at h
      split at h
      · simp at h
      · simp only [Prod.mk.injEq, and_true] at h; rw [← h]; simp
  | optional st =>
    cases v with
    | some w => simp [validate] at h
    | none =>
      simp only [validate] at h
      split at h
      · split at h
        · simp at h
        · split at h
          · simp only [Prod.mk.injEq, and_true] at h; rw [← h]; simp
          · simp at h
      · simp at h
      · simp at h

/-- A second value for a non-vector option is refused (unless decoding the token already fails). -/
theorem parse_second (env : Env) (t : TypedValue) (ht : NotVector t.type) (w : AVal) (toks : List Str)
    (hi : t.implicit = none ∨ toks ≠ []) (utf8 : Bool) :
    t.parse env (some w) toks utf8 = (some w, some errMultipleOccurrences) ∨
    (t.parse env (some w) toks utf8 = (some w, some .conversion) ∧ (utf8 = true ∨ t.wide = true)) := by
  have hx : ∀ {α : Type} (scalar : SType → List α → Except Fail SVal) (ws : List α),
      (t.implicit = none ∨ ws ≠ []) → t.xparse scalar (some w) ws = (some w, some errMultipleOccurrences) := by
    intro α scalar ws h
    unfold TypedValue.xparse
    rcases h with h | h
    · rw [h]; cases ws <;> exact validate_notVector_some _ _ ht _ _
    · cases ws with
      | nil => exact absurd rfl h
      | cons => exact validate_notVector_some _ _ ht _ _
  have hl : ∀ {β : Type} (f : Str → Option β) (ws : List β), toks.mapM f = some ws → (t.implicit = none ∨ ws ≠ []) := by
    intro β f ws h
    rcases hi with hi | hi
    · exact .inl hi
    · right
      rintro rfl
      have := congrArg List.length (mapM_some_length _ _ _ h)
      simp at this
      exact hi this
  unfold TypedValue.parse
  by_cases hw : t.wide = true
  · rw [if_pos hw]
    cases hm : toks.mapM (if utf8 = true then env.fromUtf8 else env.fromLocal) with
    | none => exact .inr ⟨rfl, .inr hw⟩
    | some ws => exact .inl (hx _ ws (hl _ _ hm))
  · rw [if_neg hw]
    by_cases hu : utf8 = true
    · rw [if_pos hu]
      cases hm : toks.mapM (fun s => (env.fromUtf8 s).bind env.toLocal) with
      | none => exact .inr ⟨rfl, .inl hu⟩
      | some ws => exact .inl (hx _ ws (hl _ _ hm))
    · rw [if_neg hu]
      exact .inl (hx _ toks hi)

theorem parse_ok_some (env : Env) (t : TypedValue) (ht : NotVector t.type) (v : Any) (toks : List Str) (utf8 : Bool) (a : Any)
    (h : t.parse env v toks utf8 = (a, none)) : a ≠ none := by
  have hx : ∀ {α : Type} (scalar : SType → List α → Except Fail SVal) (ws : List α),
      t.xparse scalar v ws = (a, none) → a ≠ none := by
    intro α scalar ws h
    unfold TypedValue.xparse at h
    split at h
    · simp only [Prod.mk.injEq, and_true] at h; rw [← h]; simp
    · exact validate_notVector_ok _ _ ht _ _ _ h
  unfold TypedValue.parse at h
  split at h
  · split at h
    · simp at h
    · exact hx _ _ h
  · split at h
    · split at h
      · simp at h
      · exact hx _ _ h
    · exact hx _ _ h

theorem storeLoop_append (desc pre utf8 final) (a b : List Opt) (m nf) :
    storeLoop desc pre utf8 final (a ++ b) m nf =
      match storeLoop desc pre utf8 final a m nf with
      | (s, some f) => (s, some f)
      | ((m', nf'), none) => storeLoop desc pre utf8 final b m' nf' := by
  induction a generalizing m nf with
  | nil => rfl
  | cons o a ih =>
    rw [List.cons_append, storeLoop, storeLoop]
    generalize storeOne desc pre utf8 final m nf o = r
    obtain ⟨⟨m', nf'⟩, e⟩ := r
    cases e with
    | some f => rfl
    | none => exact ih m' nf'

/-- The first error of the source comes from the options before `i`, if any. -/
def firstError (p : Parsed) (xm : VarMap) (utf8 : Bool) (os : List Opt) : Option Fail :=
  (store { p with options := os } xm utf8).2

theorem second_occurrence (p : Parsed) (xm : VarMap) (utf8 : Bool) (name : Str)
    (before between after : List Opt) (o1 o2 : Opt)
    (hp : p.options = before ++ o1 :: between ++ o2 :: after)
    (h1 : o1.stringKey = name ∧ name ≠ [] ∧ o1.unregistered = false)
    (h2 : o2.stringKey = name ∧ name ≠ [] ∧ o2.unregistered = false)
    (hf : name ∉ xm.final) (d : OptionDesc) (hd : findOrThrow p.desc name false false false = .ok d) (c : Prop)
    (hgive : ∀ v toks a, d.semantic.parse v toks utf8 = (a, none) → a ≠ none)
    (hsec : ∀ w, d.semantic.parse (some w) o2.value utf8 = (some w, some errMultipleOccurrences) ∨
      d.semantic.parse (some w) o2.value utf8 = (some w, some .conversion) ∧ c) :
    (∃ f, (store p xm utf8).2 = some f) ∧
    (firstError p xm utf8 (before ++ o1 :: between) = none →
      (store p xm utf8).2 = some (errMultipleOccurrences.addContext name (o2.originalTokens.headD []) p.pre) ∨
      (store p xm utf8).2 = some .conversion ∧ c) ∧
    (∀ f, firstError p xm utf8 (before ++ o1 :: between) = some f → (store p xm utf8).2 = some f) := by
  have hstore2 : ∀ os, (store { p with options := os } xm utf8).2 = (storeLoop p.desc p.pre utf8 xm.final os xm.map []).2 := by
    intro os
    unfold store
    simp only
    split <;> simp_all
  have hfull : (store p xm utf8).2 = (storeLoop p.desc p.pre utf8 xm.final p.options xm.map []).2 := hstore2 p.options
  have happ := storeLoop_append p.desc p.pre utf8 xm.final (before ++ o1 :: between) (o2 :: after) xm.map []
  rw [← hp] at happ
  unfold firstError
  rw [hstore2 (before ++ o1 :: between), hfull, happ]
  generalize hfirst : storeLoop p.desc p.pre utf8 xm.final (before ++ o1 :: between) xm.map [] = r
  obtain ⟨⟨m', nf'⟩, e⟩ := r
  cases e with
  | some f => simp
  | none =>
    simp only [reduceCtorEq, false_implies, implies_true, and_true, true_implies]
    have hment : Mentions (before ++ o1 :: between) name := ⟨o1, by simp, h1⟩
    obtain ⟨d', a, hd', hpa, hg, _⟩ := storeLoop_hit _ _ _ _ name _ _ _ _ _ hment hf hfirst
    rw [hd] at hd'
    injection hd' with e
    subst e
    have hane : a ≠ none := by
      have hne : (occurrences (before ++ o1 :: between) name).map (·.value) ≠ [] := by
        rw [mentions_iff] at hment; simpa using hment
      revert hpa hne
      generalize (occurrences (before ++ o1 :: between) name).map (·.value) = tss
      generalize (if ((xm.map.get? name).getD {}).defaulted = true then none else ((xm.map.get? name).getD {}).v) = v0
      intro hpa hne
      induction tss generalizing v0 with
      | nil => exact absurd rfl hne
      | cons toks tss ih =>
        rw [parseAll] at hpa
        cases hq : d.semantic.parse v0 toks utf8 with
        | mk a1 e =>
          rw [hq] at hpa
          cases e with
          | some f => simp at hpa
          | none =>
            simp only at hpa
            cases tss with
            | nil =>
              simp only [parseAll, Except.ok.injEq] at hpa
              subst hpa
              exact hgive v0 toks a1 hq
            | cons => exact ih a1 hpa (by simp)
    obtain ⟨w, rfl⟩ : ∃ w, a = some w := by
      cases a with
      | none => exact absurd rfl hane
      | some w => exact ⟨w, rfl⟩
    have hstep : ∃ f s, storeOne p.desc p.pre utf8 xm.final m' nf' o2 = (s, some f) ∧
        (f = errMultipleOccurrences.addContext name (o2.originalTokens.headD []) p.pre ∨
          f = .conversion ∧ c) := by
      unfold storeOne
      have hk : o2.stringKey = name := h2.1
      rw [hk]
      have hf' : ¬ xm.final.has name = true := by rwa [SSet.has_iff]
      simp only [h2.2.1, h2.2.2, if_false, hf', hd, hg, Option.getD_some, Bool.false_eq_true]
      rcases hsec w with h | ⟨h, hc⟩
      · simp only [h]
        exact ⟨_, _, rfl, .inl (by cases o2.originalTokens <;> rfl)⟩
      · simp only [h]
        exact ⟨_, _, rfl, .inr ⟨rfl, hc⟩⟩
    obtain ⟨f, s, hst, hcase⟩ := hstep
    rw [storeLoop, hst]
    refine ⟨⟨f, rfl⟩, ?_⟩
    rcases hcase with rfl | ⟨rfl, hc⟩
    · exact .inl rfl
    · exact .inr ⟨rfl, hc⟩

/-- **C43.** A source in which a non-vector option without implicit value, not settled by an earlier
source, occurs twice is refused. If nothing before the second occurrence is refused, the error is
`multiple_occurrences` carrying the option's name and the second occurrence's token (or a
character-set conversion error of that token, which needs a wide or UTF-8 source); otherwise it is
that earlier error. -/
theorem C43_scalar_once_per_source (p : Parsed) (xm : VarMap) (utf8 : Bool) (name : Str)
    (before between after : List Opt) (o1 o2 : Opt)
    (hp : p.options = before ++ o1 :: between ++ o2 :: after)
    (h1 : o1.stringKey = name ∧ name ≠ [] ∧ o1.unregistered = false)
    (h2 : o2.stringKey = name ∧ name ≠ [] ∧ o2.unregistered = false)
    (hf : name ∉ xm.final) (env : Env) (t : TypedValue) (ht : NotVector t.type) (hi : t.implicit = none)
    (d : OptionDesc) (hd : candidates p.desc name = [d]) (hs : d.semantic = t.toSemantic env) :
    (∃ f, (store p xm utf8).2 = some f) ∧
    (firstError p xm utf8 (before ++ o1 :: between) = none →
      (store p xm utf8).2 = some (about .multipleOccurrences name (o2.originalTokens.headD []) p.pre) ∨
      (store p xm utf8).2 = some .conversion ∧ (utf8 = true ∨ t.wide = true)) ∧
    (∀ f, firstError p xm utf8 (before ++ o1 :: between) = some f → (store p xm utf8).2 = some f) :=
  second_occurrence p xm utf8 name before between after o1 o2 hp h1 h2 hf d ((find_ok_iff _ _ _).2 hd) (utf8 = true ∨ t.wide = true)
    (hs ▸ fun v toks a => parse_ok_some env t ht v toks utf8 a)
    (hs ▸ fun w => parse_second env t ht w o2.value (.inl hi) utf8)

/-- **C43 for options declared without a value semantic** (`untyped_value`). -/
theorem C43_untyped_once_per_source (p : Parsed) (xm : VarMap) (utf8 : Bool) (name : Str)
    (before between after : List Opt) (o1 o2 : Opt)
    (hp : p.options = before ++ o1 :: between ++ o2 :: after)
    (h1 : o1.stringKey = name ∧ name ≠ [] ∧ o1.unregistered = false)
    (h2 : o2.stringKey = name ∧ name ≠ [] ∧ o2.unregistered = false)
    (hf : name ∉ xm.final) (env : Env) (zero : Bool)
    (d : OptionDesc) (hd : candidates p.desc name = [d]) (hs : d.semantic = untypedValue env zero) :
    (∃ f, (store p xm utf8).2 = some f) ∧
    (firstError p xm utf8 (before ++ o1 :: between) = none →
      (store p xm utf8).2 = some (about .multipleOccurrences name (o2.originalTokens.headD []) p.pre) ∨
      (store p xm utf8).2 = some .conversion ∧ utf8 = true) ∧
    (∀ f, firstError p xm utf8 (before ++ o1 :: between) = some f → (store p xm utf8).2 = some f) := by
  refine second_occurrence p xm utf8 name before between after o1 o2 hp h1 h2 hf d ((find_ok_iff _ _ _).2 hd) (utf8 = true) ?_ ?_
  · rw [hs]
    intro v toks a h
    simp only [untypedValue] at h
    cases utf8 with
    | false =>
      simp only [Bool.false_eq_true, if_false] at h
      split at h
      · simp at h
      · split at h
        · simp only [Prod.mk.injEq, and_true] at h; rw [← h]; simp
        · simp only [Prod.mk.injEq, and_true] at h; rw [← h]; simp
        · simp at h
    | true =>
      simp only [if_true] at h
      split at h
      · simp at h
      · split at h
        · simp at h
        · split at h
          · simp only [Prod.mk.injEq, and_true] at h; rw [← h]; simp
          · simp only [Prod.mk.injEq, and_true] at h; rw [← h]; simp
          · simp at h
  · rw [hs]
    intro w
    simp only [untypedValue]
    cases utf8 with
    | false => simp
    | true =>
      simp only [if_true]
      cases List.mapM (fun s => (env.fromUtf8 s).bind env.toLocal) o2.value <;> simp

example : ∃ p : Parsed, p.options = [] ++ Ex.o "name" ["a"] :: [Ex.o "inc" ["x"]] ++ Ex.o "name" ["b"] :: [] ∧
    firstError p {} false ([] ++ Ex.o "name" ["a"] :: [Ex.o "inc" ["x"]]) = none ∧
    findOrThrow p.desc (Test.L "name") false false false = .ok Ex.dStr ∧ Ex.dStr.semantic = Test.vstr.toSemantic Test.env :=
  ⟨{ desc := Ex.descs, options := [Ex.o "name" ["a"], Ex.o "inc" ["x"], Ex.o "name" ["b"]] }, rfl, by decide, rfl, rfl⟩

/-! ### C44 -/

/-- The full claim: the same with an implicit value. -/
def C44_claim : Prop := ∀ (p : Parsed) (xm : VarMap) (name : Str) (before between after : List Opt) (o1 o2 : Opt),
  p.options = before ++ o1 :: between ++ o2 :: after →
  (o1.stringKey = name ∧ name ≠ [] ∧ o1.unregistered = false) →
  (o2.stringKey = name ∧ name ≠ [] ∧ o2.unregistered = false) → name ∉ xm.final →
  ∀ (env : Env) (t : TypedValue), NotVector t.type → t.implicit ≠ none →
  ∀ d, findOrThrow p.desc name false false false = .ok d → d.semantic = t.toSemantic env →
  ∃ f, (store p xm false).2 = some f

def Ex.impT : TypedValue := { Test.vstr with implicit := some (.scalar (.str (Test.L "yes")), Test.L "yes") }
def Ex.dImp : OptionDesc := Test.od "log" (Test.sem Ex.impT)

/-- **C44 is false in the code.** `--log=no --log` is accepted, and the explicit value `no` is
silently replaced by the implicit one. -/
theorem C44_negation : ¬ C44_claim := by
  intro h
  obtain ⟨f, hf⟩ := h { desc := [Ex.dImp], options := [Ex.o "log" ["no"], Ex.o "log" []] } {} (Test.L "log")
    [] [] [] (Ex.o "log" ["no"]) (Ex.o "log" []) rfl (by decide) (by decide) (by simp) Test.env Ex.impT
    trivial (by simp [Ex.impT]) Ex.dImp rfl rfl
  have : (store { desc := [Ex.dImp], options := [Ex.o "log" ["no"], Ex.o "log" []] } {} false).2 = none := by decide
  rw [this] at hf
  cases hf

/-- The value `no` given first is lost. -/
theorem C44_overwritten :
    let m := (store { desc := [Ex.dImp], options := [Ex.o "log" ["no"], Ex.o "log" []] } {} false).1
    (m.get (Test.L "log")).v = some (.scalar (.str (Test.L "yes"))) := by decide

/-- **C44, part that holds:** the repetition is reported when the second occurrence carries a value.
Missing: a second occurrence without a value (see `C44_negation`). -/
theorem C44_implicit_repetition_partial (p : Parsed) (xm : VarMap) (utf8 : Bool) (name : Str)
    (before between after : List Opt) (o1 o2 : Opt)
    (hp : p.options = before ++ o1 :: between ++ o2 :: after)
    (h1 : o1.stringKey = name ∧ name ≠ [] ∧ o1.unregistered = false)
    (h2 : o2.stringKey = name ∧ name ≠ [] ∧ o2.unregistered = false)
    (hf : name ∉ xm.final) (env : Env) (t : TypedValue) (ht : NotVector t.type) (hv : o2.value ≠ [])
    (d : OptionDesc) (hd : candidates p.desc name = [d]) (hs : d.semantic = t.toSemantic env) :
    (∃ f, (store p xm utf8).2 = some f) ∧
    (firstError p xm utf8 (before ++ o1 :: between) = none →
      (store p xm utf8).2 = some (about .multipleOccurrences name (o2.originalTokens.headD []) p.pre) ∨
      (store p xm utf8).2 = some .conversion ∧ (utf8 = true ∨ t.wide = true)) :=
  have h := second_occurrence p xm utf8 name before between after o1 o2 hp h1 h2 hf d ((find_ok_iff _ _ _).2 hd) (utf8 = true ∨ t.wide = true)
    (hs ▸ fun v toks a => parse_ok_some env t ht v toks utf8 a)
    (hs ▸ fun w => parse_second env t ht w o2.value (.inr hv) utf8)
  ⟨h.1, h.2.1⟩

example : (store { desc := [Ex.dImp], options := [Ex.o "log" [], Ex.o "log" ["no"]] } {} false).2 =
    some (errMultipleOccurrences.addContext (Test.L "log") [] 0) := by decide

/-! ### C59 -/

/-- The full claim: C34 for composing vector options that have an implicit value; an occurrence
without a value adds nothing of its own or the implicit elements, but keeps what was there. -/
def C59_claim : Prop := ∀ (env : Env) (t : TypedValue) (st : SType) (_ : t.type = .vector st) (_ : t.composing = true)
  (name : Str) (p : Parsed) (m0 m1 : VarMap) (old : List SVal),
  store p m0 false = (m1, none) → name ∉ m0.final → m0.get name = { v := some (.vector st old), defaulted := false, semantic := some (t.toSemantic env) } →
  (∃ d, findOrThrow p.desc name false false false = .ok d ∧ d.semantic = t.toSemantic env) →
  ∃ new, (m1.get name).v = some (.vector st (old ++ new))

def Ex.compT : TypedValue :=
  { Test.vvec with composing := true, implicit := some (.vector .str [.str (Test.L "all")], Test.L "all") }
def Ex.dComp : OptionDesc := Test.od "inc" (Test.sem Ex.compT)
def Ex.compMap : VarMap := (store { desc := [Ex.dComp], options := [Ex.o "inc" ["x"]] } {} false).1

/-- **C59 is false in the code**: `--inc=x` in one source and a value-less `--inc` in the next leave
only the implicit value; the accumulated `x` is lost. -/
theorem C59_negation : ¬ C59_claim := by
  intro h
  obtain ⟨new, hn⟩ := h Test.env Ex.compT .str rfl rfl (Test.L "inc")
    { desc := [Ex.dComp], options := [Ex.o "inc" []] } Ex.compMap
    (store { desc := [Ex.dComp], options := [Ex.o "inc" []] } Ex.compMap false).1 [.str (Test.L "x")]
    (Prod.ext rfl (by decide)) (by decide) rfl ⟨Ex.dComp, rfl, rfl⟩
  have hv : ((store { desc := [Ex.dComp], options := [Ex.o "inc" []] } Ex.compMap false).1.get (Test.L "inc")).v =
      some (.vector .str [.str (Test.L "all")]) := by decide
  rw [hv] at hn
  simp only [List.cons_append, List.nil_append, Option.some.injEq, AVal.vector.injEq, List.cons.injEq, true_and] at hn
  exact absurd hn.1 (by decide)

/-- **C59, part that holds:** if every occurrence carries a value, all of them accumulate.
Missing: occurrences without a value (see `C59_negation`). -/
theorem C59_accumulates_partial (env : Env) (t : TypedValue) (st : SType) (ht : t.type = .vector st)
    (hc : t.composing = true) (name : Str) (srcs : List (Parsed × Bool))
    (hi : ∀ q ∈ srcs, ∀ o ∈ occurrences q.1.options name, o.value ≠ []) (m0 m : VarMap) (h : Stores m0 srcs m)
    (h0 : m0.map.get? name = none ∨ (m0.get name).defaulted = true) (hf : name ∉ m0.final)
    (hd : ∀ q ∈ srcs, ∃ d, candidates q.1.desc name = [d] ∧ d.semantic = t.toSemantic env)
    (hm : ∃ q ∈ srcs, Mentions q.1.options name) :
    ∃ vs, (srcs.flatMap fun q => (occurrences q.1.options name).flatMap fun o =>
            o.value.map (tokenConv env t.wide q.2 st)) = vs.map some ∧
      m.get name = { v := some (.vector st vs), defaulted := false, semantic := some (t.toSemantic env) } :=
  composing_accumulates env t st ht hc name srcs (.inr hi) m0 m h h0 hf (fun q hq => (hd q hq).imp fun _ h => ⟨(find_ok_iff _ _ _).2 h.1, h.2⟩) hm

example : (Ex.compMap.get (Test.L "inc")).v = some (.vector .str [.str (Test.L "x")]) ∧
    ((store { desc := [Ex.dComp], options := [Ex.o "inc" ["y"], Ex.o "inc" ["z"]] } Ex.compMap false).1.get (Test.L "inc")).v =
      some (.vector .str [.str (Test.L "x"), .str (Test.L "y"), .str (Test.L "z")]) := by decide

end PO
