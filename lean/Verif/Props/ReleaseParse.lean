import Verif.Model.ReleaseParse
import Verif.Spec.ReleaseParse
import Verif.Props.Positional
import Verif.Lemmas.CmdlineFinal
import Verif.Tests.Util
/-
C128: parsing in a build without assertions.
-/
namespace PO.Release
open Spec

/-! ### The environment -/

theorem splitEnv_eq (e : Str) : PO.splitEnv (withEquals e) = .ok (splitEnv e) := by
  unfold PO.splitEnv splitEnv withEquals
  by_cases h : '=' ∈ e
  · rw [if_pos h]
    cases hf : findChar e '=' with
    | none => exact absurd h (findChar_eq_none.1 hf)
    | some n => rfl
  · rw [if_neg h, findChar_eq_none.2 h, findChar_append h]
    simp

/-- **C128, the environment.** Without assertions an entry without `=` is read as the variable of that name with its own name as value; everything else
is as with assertions. -/
theorem C128_environment (environ : List Str) (desc : List OptionDesc) (mapper : Str → Str) :
    PO.parseEnvironment (environ.map withEquals) desc mapper = .ok (parseEnvironment environ desc mapper) := by
  have loop : ∀ es : List Str, PO.parseEnvironmentLoop mapper (es.map withEquals) = .ok (parseEnvironmentLoop mapper es) := by
    intro es
    induction es with
    | nil => rfl
    | cons e es ih =>
      rw [List.map_cons, PO.parseEnvironmentLoop, splitEnv_eq, ih, parseEnvironmentLoop]
      dsimp only
      split <;> rfl
  unfold PO.parseEnvironment parseEnvironment
  rw [loop]

/-! ### Positional options -/

/-- A call `add(name, count)` for each entry, `none` standing for the count -1. -/
def addAll (p : Positional) : List (Str × Option Nat) → Except Fail Positional
  | [] => .ok p
  | (n, c) :: rest =>
    match addPositional p n (match c with | some k => (k : Int) | none => -1) with
    | .error f => .error f
    | .ok p' => addAll p' rest

theorem add_nat (p : Positional) (n : Str) (k : Nat) :
    addPositional p n (k : Int) = .ok { p with names := p.names ++ List.replicate k n } := by
  rw [← PO.add_nat]
  unfold addPositional Positional.add
  have h : ¬ ((k : Int) = -1) := by omega
  simp only [h, if_false]

theorem addAll_spec (l : List (Str × Option Nat)) (p : Positional) :
    ∃ q, addAll p l = .ok q ∧ q.trailing = (trailingNames l).getLastD p.trailing ∧
      ∀ k, q.names[k]? = if k < p.names.length then p.names[k]? else nameAt l (k - p.names.length) := by
  induction l generalizing p with
  | nil =>
    refine ⟨p, rfl, by simp [trailingNames], fun k => ?_⟩
    simp only [nameAt]
    split
    · rfl
    · rename_i h; simpa using h
  | cons a l ih =>
    obtain ⟨n, _ | c⟩ := a
    · obtain ⟨q, hq, hqt, hqn⟩ := ih { p with trailing := n }
      refine ⟨q, by simp [addAll, addPositional, hq], ?_, ?_⟩
      · rw [hqt, trailingNames]
        cases trailingNames l <;> rfl
      · intro k; rw [hqn k]; rfl
    · obtain ⟨q, hq, hqt, hqn⟩ := ih { p with names := p.names ++ List.replicate c n }
      refine ⟨q, ?_, ?_, ?_⟩
      · simp only [addAll, add_nat, hq]
      · rw [hqt]; rfl
      · intro k
        rw [hqn k]
        simp only [List.length_append, List.length_replicate, nameAt]
        by_cases h1 : k < p.names.length
        · rw [if_pos (by omega), if_pos h1, List.getElem?_append_left h1]
        · rw [if_neg h1]
          by_cases h2 : k < p.names.length + c
          · rw [if_pos h2, if_pos (by omega), List.getElem?_append_right (by omega)]
            simp only [List.getElem?_replicate]
            rw [if_pos (by omega)]
          · rw [if_neg h2, if_neg (by omega)]
            congr 1; omega

/-- **C128, positional options.** Without assertions any sequence of calls of `add` is accepted: positions are named by the runs, and after them by the
last name given with count -1; if there is none, the name is empty. -/
theorem C128_positional (l : List (Str × Option Nat)) :
    ∃ p, addAll {} l = .ok p ∧ ∀ k, nameForPosition p k = (nameAt l k).getD ((trailingNames l).getLastD []) := by
  obtain ⟨p, hp, hpt, hpn⟩ := addAll_spec l {}
  refine ⟨p, hp, fun k => ?_⟩
  have : p.names[k]? = nameAt l k := by simpa using hpn k
  unfold nameForPosition
  rw [this, hpt]
  cases nameAt l k <;> rfl

/-- Where the call is accepted with assertions, it does the same. -/
theorem C128_add (p : Positional) (name : Str) (n : Int) (q : Positional) (h : p.add name n = .ok q) : addPositional p name n = .ok q := by
  unfold Positional.add at h
  unfold addPositional
  by_cases hn : n = -1
  · rw [if_pos hn] at h ⊢
    by_cases ht : p.trailing = []
    · rw [if_pos ht] at h; exact h
    · rw [if_neg ht] at h; cases h
  · rw [if_neg hn] at h ⊢
    exact h

/-! ### The command line -/

theorem name_eq (p : Positional) (k : Nat) (h : p.full k = false) : p.nameForPosition k = .ok (nameForPosition p k) := by
  unfold nameForPosition Positional.nameForPosition
  cases hk : p.names[k]? with
  | some n => rfl
  | none =>
    by_cases ht : p.trailing = []
    · unfold Positional.full Positional.maxTotalCount at h
      rw [if_pos ht] at h
      simp at h hk
      omega
    · dsimp only; rw [if_neg ht]

theorem namePositional_eq (p : Positional) (os : List Opt) : ∀ k, namePositional p k os = Cmdline.namePositional p k os := by
  induction os with
  | nil => intro k; rfl
  | cons o os ih =>
    intro k
    rw [namePositional, Cmdline.namePositional, ih, ih]
    by_cases h : o.positionKey ≠ -1
    · rw [if_pos h, if_pos h]
      by_cases hf : p.full k = true
      · rw [if_pos hf, if_pos hf]
      · rw [if_neg hf, if_neg hf, name_eq p k (by simpa using hf)]
        cases Cmdline.namePositional p (k + 1) os <;> rfl
    · rw [if_neg h, if_neg h]
      cases Cmdline.namePositional p k os <;> rfl

theorem absorb_eq (lim : Option Nat) (o : Opt) (ps : List Opt) : absorb lim o ps = Cmdline.absorb lim o ps ∨ ∃ u, Cmdline.absorb lim o ps = .error (.ub u) := by
  induction ps generalizing lim o with
  | nil => exact .inl rfl
  | cons p ps ih =>
    rw [absorb, Cmdline.absorb]
    by_cases h1 : lim = some 0
    · rw [if_pos h1, if_pos h1]; exact .inl rfl
    · rw [if_neg h1, if_neg h1]
      by_cases h2 : p.stringKey ≠ []
      · rw [if_pos h2, if_pos h2]; exact .inl rfl
      · rw [if_neg h2, if_neg h2]
        by_cases h3 : p.positionKey = intMax
        · rw [if_pos h3, if_pos h3]; exact .inl rfl
        · rw [if_neg h3, if_neg h3]
          match p.value with
          | [] => exact .inr ⟨_, rfl⟩
          | _ :: _ :: _ => exact .inr ⟨_, rfl⟩
          | [v] =>
            match p.originalTokens with
            | [] => exact .inr ⟨_, rfl⟩
            | _ :: _ :: _ => exact .inr ⟨_, rfl⟩
            | [t] =>
              dsimp only
              rcases ih (lim.map (· - 1)) { o with value := o.value ++ [v], originalTokens := o.originalTokens ++ [t] } with h | ⟨u, h⟩
              · rw [h]; exact .inl rfl
              · rw [h]; exact .inr ⟨u, rfl⟩

theorem regroup_eq (c : Cmdline) (os : List Opt) : ∀ k, regroup c k os = c.regroup k os ∨ ∃ u, c.regroup k os = .error (.ub u) := by
  induction os with
  | nil => intro k; cases k <;> exact .inl rfl
  | cons o rest ih =>
    intro k
    cases k with
    | succ k => exact ih k
    | zero =>
      have cont : ∀ (o' : Opt) (k : Nat),
          (match regroup c k rest with
            | .error f => Except.error f
            | .ok os => .ok (o' :: os)) =
          (match c.regroup k rest with
            | .error f => Except.error f
            | .ok os => .ok (o' :: os)) ∨
          ∃ u, (match c.regroup k rest with
            | .error f => Except.error f
            | .ok os => .ok (o' :: os)) = .error (.ub u) := by
        intro o' k
        rcases ih k with h | ⟨u, h⟩
        · rw [h]; exact .inl rfl
        · rw [h]; exact .inr ⟨u, rfl⟩
      rw [regroup, Cmdline.regroup]
      dsimp only
      by_cases h1 : o.stringKey = []
      · rw [if_pos h1, if_pos h1]; exact cont o 0
      · rw [if_neg h1, if_neg h1]
        cases c.lookup o.stringKey with
        | error f => exact .inl (by cases f <;> rfl)
        | ok r =>
          cases r with
          | none => exact cont o 0
          | some d =>
            dsimp only
            by_cases h2 : d.semantic.minTokens < d.semantic.maxTokens ∧ o.value.length < d.semantic.maxTokens
            · rw [if_pos h2, if_pos h2]
              rcases absorb_eq (Cmdline.takeLimit d.semantic.maxTokens o.value.length) o rest with h | ⟨u, h⟩
              · rw [h]
                cases Cmdline.absorb (Cmdline.takeLimit d.semantic.maxTokens o.value.length) o rest with
                | error f => exact .inl rfl
                | ok r => exact cont r.1 r.2
              · rw [h]; exact .inr ⟨u, rfl⟩
            · rw [if_neg h2, if_neg h2]; exact cont o 0

/-- **C128, the command line.** Unless the build with assertions stops at one (or is undefined), both do the same. -/
theorem C128_parse (c : Cmdline) (args : List Str) (h : ∀ u, c.run args ≠ .error (.ub u)) : run c args = c.run args := by
  unfold Cmdline.run Cmdline.runFuel at h ⊢
  unfold run
  cases hl : c.loop (args.length + 1) args with
  | error f => rfl
  | ok result =>
    rw [hl] at h
    dsimp only at h ⊢
    unfold Cmdline.finalize at h ⊢
    rcases regroup_eq c result 0 with e | ⟨u, e⟩
    · rw [e]
      cases c.regroup 0 result with
      | error f => rfl
      | ok r2 =>
        dsimp only
        have : applyPositional c (Cmdline.assignPositions 0 r2) = c.applyPositional (Cmdline.assignPositions 0 r2) := by
          unfold applyPositional Cmdline.applyPositional
          cases c.positional with
          | none => rfl
          | some p => exact namePositional_eq p _ 0
        rw [this]
        cases c.applyPositional (Cmdline.assignPositions 0 r2) <;> rfl
    · rw [e] at h
      exact absurd rfl (h u)

theorem swallowed_nil {lim : Option Nat} {next taken : List Opt} (hs : Swallowed lim next taken)
    (h : lim = some 0 ∨ next = [] ∨ ∃ p ps, next = p :: ps ∧ (p.stringKey ≠ [] ∨ p.positionKey = 2147483647)) : taken = [] := by
  rcases h with h | h | ⟨p, ps, h, hp⟩
  · exact List.length_eq_zero_iff.1 (Nat.le_zero.1 (hs.room 0 h))
  · exact List.prefix_nil.1 (h ▸ hs.first)
  · cases taken with
    | nil => rfl
    | cons q qs =>
      obtain ⟨t, ht⟩ := hs.first
      rw [h, List.cons_append] at ht
      injection ht with h1 h2
      obtain ⟨a, b⟩ := hs.nameless q (by simp)
      rw [h1] at a b
      rcases hp with hp | hp
      · exact absurd a hp
      · exact absurd hp b

theorem swallowed_cons {lim : Option Nat} {p : Opt} {ps taken : List Opt} (hs : Swallowed lim (p :: ps) taken) (h0 : lim ≠ some 0) (h1 : p.stringKey = [])
    (h2 : p.positionKey ≠ 2147483647) : ∃ qs, taken = p :: qs ∧ Swallowed (lim.map (· - 1)) ps qs := by
  cases taken with
  | nil =>
    rcases hs.most with h | h | ⟨q, rest, h, hq⟩
    · exact absurd h h0
    · cases h
    · cases h
      rcases hq with hq | hq
      · exact absurd h1 hq
      · exact absurd hq h2
  | cons q qs =>
    obtain ⟨t, ht⟩ := hs.first
    rw [List.cons_append] at ht
    injection ht with e1 e2
    subst e1
    refine ⟨qs, rfl, ⟨t, e2⟩, fun x hx => hs.nameless x (by simp [hx]), ?_, ?_⟩
    · intro m hm
      cases lim with
      | none => cases hm
      | some k =>
        cases hm
        have := hs.room k rfl
        rw [List.length_cons] at this
        show qs.length ≤ k - 1
        omega
    · rcases hs.most with h | h | ⟨x, rest, h, hx⟩
      · exact .inl (by rw [h]; simp)
      · injection h with _ h
        exact .inr (.inl h)
      · rw [List.cons_append] at h
        injection h with _ h
        exact .inr (.inr ⟨x, rest, h, hx⟩)

theorem absorb_stop {lim : Option Nat} {o : Opt} {ps taken : List Opt} {o' : Opt} {k : Nat} (ht : taken = []) (h : absorb lim o ps = .ok (o, 0)) :
    absorb lim o ps = .ok (o', k) ↔ k = taken.length ∧ ∃ vs ts, taken.map (·.value.head?) = vs.map some ∧ taken.map (·.originalTokens.head?) = ts.map some ∧
      o' = { o with value := o.value ++ vs, originalTokens := o.originalTokens ++ ts } := by
  subst ht
  rw [h]
  constructor
  · intro h
    cases h
    exact ⟨rfl, [], [], rfl, rfl, by simp⟩
  · rintro ⟨rfl, vs, ts, h1, h2, rfl⟩
    cases vs with
    | cons => cases h1
    | nil =>
      cases ts with
      | cons => cases h2
      | nil => simp

/-- Which of the next options lose a value, and to which effect: exactly the first value of each, if each has one. -/
theorem C128_absorb (lim : Option Nat) (o : Opt) (ps taken : List Opt) (hs : Swallowed lim ps taken) (o' : Opt) (k : Nat) :
    absorb lim o ps = .ok (o', k) ↔ k = taken.length ∧ ∃ vs ts, taken.map (·.value.head?) = vs.map some ∧ taken.map (·.originalTokens.head?) = ts.map some ∧
      o' = { o with value := o.value ++ vs, originalTokens := o.originalTokens ++ ts } := by
  induction ps generalizing lim o o' taken k with
  | nil => exact absorb_stop (swallowed_nil hs (.inr (.inl rfl))) (by rw [absorb])
  | cons p ps ih =>
    by_cases h0 : lim = some 0
    · exact absorb_stop (swallowed_nil hs (.inl h0)) (by rw [absorb, if_pos h0])
    · by_cases h1 : p.stringKey ≠ []
      · exact absorb_stop (swallowed_nil hs (.inr (.inr ⟨p, ps, rfl, .inl h1⟩))) (by rw [absorb, if_neg h0, if_pos h1])
      · by_cases h2 : p.positionKey = intMax
        · exact absorb_stop (swallowed_nil hs (.inr (.inr ⟨p, ps, rfl, .inr h2⟩))) (by rw [absorb, if_neg h0, if_neg h1, if_pos h2])
        · have h1' : p.stringKey = [] := by simpa using h1
          obtain ⟨qs, rfl, hq⟩ := swallowed_cons hs h0 h1' h2
          rw [absorb, if_neg h0, if_neg h1, if_neg h2]
          cases hv : p.value with
          | nil =>
            dsimp only
            refine ⟨(fun h => nomatch h), ?_⟩
            rintro ⟨-, vs, ts, e, -⟩
            rw [List.map_cons, hv] at e
            cases vs <;> cases e
          | cons v vr =>
            dsimp only
            cases ht : p.originalTokens with
            | nil =>
              dsimp only
              refine ⟨(fun h => nomatch h), ?_⟩
              rintro ⟨-, vs, ts, -, e, -⟩
              rw [List.map_cons, ht] at e
              cases ts <;> cases e
            | cons t tr =>
              dsimp only
              constructor
              · intro h
                split at h
                · cases h
                · rename_i o2 k2 hr
                  cases h
                  obtain ⟨rfl, vs, ts, e1, e2, rfl⟩ := (ih _ _ _ hq _ _).1 hr
                  refine ⟨rfl, v :: vs, t :: ts, ?_, ?_, ?_⟩
                  · rw [List.map_cons, hv, e1]; rfl
                  · rw [List.map_cons, ht, e2]; rfl
                  · simp
              · rintro ⟨rfl, vs, ts, e1, e2, rfl⟩
                rw [List.map_cons, hv] at e1
                rw [List.map_cons, ht] at e2
                cases vs with
                | nil => cases e1
                | cons v' vs =>
                  cases ts with
                  | nil => cases e2
                  | cons t' ts =>
                    rw [List.map_cons] at e1 e2
                    injection e1 with a1 e1
                    injection e2 with a2 e2
                    cases a1
                    cases a2
                    rw [(ih _ _ _ hq _ qs.length).2 ⟨rfl, vs, ts, e1, e2, rfl⟩]
                    simp

/-- There is always exactly one such run of options. -/
theorem C128_swallowed (lim : Option Nat) (next : List Opt) : ∃ taken, Swallowed lim next taken ∧ ∀ t, Swallowed lim next t → t = taken := by
  induction next generalizing lim with
  | nil => exact ⟨[], ⟨List.prefix_refl _, by simp, by simp, .inr (.inl rfl)⟩, fun t ht => swallowed_nil ht (.inr (.inl rfl))⟩
  | cons p ps ih =>
    by_cases h0 : lim = some 0
    · exact ⟨[], ⟨by simp, by simp, by simp, .inl h0⟩, fun t ht => swallowed_nil ht (.inl h0)⟩
    · by_cases hp : p.stringKey ≠ [] ∨ p.positionKey = 2147483647
      · exact ⟨[], ⟨by simp, by simp, by simp, .inr (.inr ⟨p, ps, rfl, hp⟩)⟩, fun t ht => swallowed_nil ht (.inr (.inr ⟨p, ps, rfl, hp⟩))⟩
      · have h1 : p.stringKey = [] := by
          by_cases h : p.stringKey = []
          · exact h
          · exact absurd (.inl h) hp
        have h2 : p.positionKey ≠ 2147483647 := fun h => hp (.inr h)
        obtain ⟨qs, hq, hu⟩ := ih (lim.map (· - 1))
        refine ⟨p :: qs, ⟨?_, ?_, ?_, ?_⟩, ?_⟩
        · obtain ⟨t, ht⟩ := hq.first
          exact ⟨t, by rw [List.cons_append, ht]⟩
        · intro x hx
          rcases List.mem_cons.1 hx with rfl | hx
          · exact ⟨h1, h2⟩
          · exact hq.nameless x hx
        · intro m hm
          subst hm
          have := hq.room (m - 1) rfl
          have : m ≠ 0 := fun e => h0 (by rw [e])
          rw [List.length_cons]
          omega
        · rcases hq.most with h | h | ⟨x, rest, h, hx⟩
          · left
            cases lim with
            | none => cases h
            | some m =>
              have hm : m ≠ 0 := fun e => h0 (by rw [e])
              have h : m - 1 = qs.length := by simpa using h
              rw [List.length_cons]
              congr 1
              omega
          · exact .inr (.inl (by rw [h]))
          · exact .inr (.inr ⟨x, rest, by rw [List.cons_append, h], hx⟩)
        · intro t ht
          obtain ⟨qs', rfl, hq'⟩ := swallowed_cons ht h0 h1 h2
          rw [hu qs' hq']

/-! ### Names -/

theorem getlines_ne (names : Str) (h : names ≠ []) : getlines ',' names ≠ [] := by
  have gen : ∀ (s cur : Str), s ≠ [] ∨ cur ≠ [] → getlinesAux ',' s cur ≠ [] := by
    intro s
    induction s with
    | nil =>
      intro cur h
      rcases h with h | h
      · exact absurd rfl h
      · rw [getlinesAux, if_neg h]; simp
    | cons c s ih =>
      intro cur _
      rw [getlinesAux]
      split
      · simp
      · exact ih _ (.inr (by simp))
  exact gen names [] (.inl h)

/-- **C128, names.** With names, both do the same; `""` gives an option without a long name. -/
theorem C128_names (d : OptionDesc) (names : Str) :
    (names ≠ [] → d.setNames names = .ok (setNames d names)) ∧ (setNames d []).longNames = [] ∧ (setNames d []).shortName = d.shortName := by
  refine ⟨fun h => ?_, rfl, rfl⟩
  unfold OptionDesc.setNames setNames
  dsimp only
  rw [if_neg (getlines_ne names h)]
  by_cases hl : (getlines ',' names).length > 1
  · rw [if_pos hl, if_pos hl]
    split <;> rename_i hg
    · rw [hg]
    · split
      · rename_i hg'
        exact absurd hg' (hg _)
      · rfl
  · rw [if_neg hl, if_neg hl]

/-- An option without any name is found by no token, and its key is empty. -/
theorem C128_nameless (d : OptionDesc) (h1 : d.longNames = []) (h2 : d.shortName = []) (option : Str) (ho : option ≠ []) (a b c : Bool) :
    d.match option a b c = .noMatch ∧ d.key option = [] := by
  constructor
  · unfold OptionDesc.match
    rw [h1, h2]
    dsimp only [OptionDesc.matchLongs]
    rw [if_neg (by simp), if_neg]
    have : (if b then toLower option else option) ≠ [] := by
      cases b
      · simpa using ho
      · simpa [toLower] using ho
    cases c <;> exact fun e => this (by rw [← e]; rfl)
  · unfold OptionDesc.key
    rw [h1, h2]

/-! ### Examples -/

/-- `add("x", 1).add("y", -1).add("z", -1)`: a failed assertion, and without assertions `z` from the second position on. -/
example : ∃ p, addAll {} [(str% "x", some 1), (str% "y", none), (str% "z", none)] = .ok p ∧ nameForPosition p 0 = str% "x" ∧ nameForPosition p 7 = str% "z" :=
  ⟨_, rfl, rfl, rfl⟩

example : Positional.add { names := [str% "x"], trailing := str% "y" } (str% "z") (-1) = .error (.ub .trailingTwice) := rfl

/-- An entry `HOME` without `=`. -/
example : (parseEnvironment [str% "HOME", str% "A=b"] [] id).options =
    [{ stringKey := str% "HOME", value := [str% "HOME"] }, { stringKey := str% "A", value := [str% "b"] }] := rfl

/-- A nameless option with two values (from an additional style parser) gives one of them to the option before it. -/
example : absorb (some 3) { stringKey := str% "a", value := [str% "1"], originalTokens := [str% "--a"] }
    [{ stringKey := [], positionKey := -1, value := [str% "2", str% "3"], originalTokens := [str% "2,3"] }] =
      .ok ({ stringKey := str% "a", value := [str% "1", str% "2"], originalTokens := [str% "--a", str% "2,3"] }, 1) := rfl

/-- Without a value it is undefined in both. -/
example : absorb (some 3) { stringKey := str% "a" } [{ stringKey := [], positionKey := -1, value := [], originalTokens := [str% "x"] }] =
    .error (.ub .valueNotSingle) := rfl

example : Swallowed (some 1) [{ stringKey := [], value := [str% "1"] }, { stringKey := [], value := [str% "2"] }] [{ stringKey := [], value := [str% "1"] }] :=
  ⟨⟨_, rfl⟩, by simp, by simp, .inl rfl⟩

example : (setNames { shortName := [], longNames := [], description := [], semantic := Test.unt } []).match (str% "a") true false false = .noMatch :=
  (C128_nameless _ rfl rfl (str% "a") (by decide) true false false).1

end PO.Release
