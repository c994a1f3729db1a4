import Verif.Lemmas.Store
import Verif.Lemmas.StoreGrammar
import Verif.Tests.Util
/-
C33, C35, C36, C37, C40, C41: storing parsed options in a variables map.
-/
namespace PO
open Spec

/-! Sample data for the examples. -/
namespace Ex
open Test
def dStr : OptionDesc := od "name,n" (sem vstr)
def dDef : OptionDesc := od "level" (sem { vstr with dflt := some (.scalar (.str (L "low")), L "low") })
def dVec : OptionDesc := od "inc" (sem { vvec with composing := true })
def dReq : OptionDesc := od "need" (sem { vstr with required := true, storeTo := some 3, notifier := some 4 })
def descs : List OptionDesc := [dStr, dDef, dVec]
def o (n : String) (vs : List String) : Opt := { stringKey := L n, value := vs.map L }
def src1 : Parsed := { desc := descs, options := [o "name" ["a"], o "inc" ["x", "y"], o "inc" ["z"]] }
def src2 : Parsed := { desc := descs, options := [o "name" ["b"], o "level" ["high"], o "inc" ["w"]] }
end Ex

/-! ### C33 -/

/-- What is final stays, whatever is stored later and whether or not those stores succeed. -/
theorem storesAny_final (name : Str) (later : List (Parsed × Bool)) (xm : VarMap)
    (hf : name ∈ xm.final) (v : VarValue) (hv : xm.map.get? name = some v) :
    (storesAny xm later).map.get? name = some v := by
  induction later generalizing xm with
  | nil => exact hv
  | cons q rest ih =>
    obtain ⟨p, u⟩ := q
    rw [storesAny]
    cases hs : store p xm u with
    | mk xm' e =>
      cases e with
      | none =>
        obtain ⟨h1, h2⟩ := store_miss hs name (.inr hf)
        rw [hv] at h1
        exact ih xm' (h2.2 hf) h1
      | some f =>
        obtain ⟨h1, _, h3⟩ := store_failed_frame hs
        exact ih xm' (h1 ▸ hf) ((h3 name (.inr hf)).trans hv)

/-- **C33.** A successful store that mentions a non-composing option (not settled by an earlier
source) gives it the value parsed from its occurrences; no later store, successful or not, changes
the entry. -/
theorem C33_first_source_wins (p : Parsed) (xm xm1 : VarMap) (utf8 : Bool)
    (hs : store p xm utf8 = (xm1, none)) (name : Str) (hm : Mentions p.options name)
    (hf : name ∉ xm.final) (d : OptionDesc) (hd : candidates p.desc name = [d])
    (hnc : d.semantic.isComposing = false) (later : List (Parsed × Bool)) :
    ∃ a, parseAll d.semantic utf8 (if (xm.get name).defaulted then none else (xm.get name).v)
        ((occurrences p.options name).map (·.value)) = .ok a ∧
      (storesAny xm1 later).map.get? name =
        some { v := a, defaulted := false, semantic := some d.semantic } := by
  rw [← find_ok_iff] at hd
  obtain ⟨d', a, hd', hp, hg, hn⟩ := store_hit hs name hm hf
  rw [hd] at hd'
  injection hd' with e
  subst e
  exact ⟨a, hp, storesAny_final name later xm1 (hn.2 hnc) _ hg⟩

theorem storesAny_append (m : VarMap) (a b : List (Parsed × Bool)) :
    storesAny m (a ++ b) = storesAny (storesAny m a) b := by
  induction a generalizing m with
  | nil => rfl
  | cons q a ih => obtain ⟨p, u⟩ := q; exact ih _

/-- Names never mentioned are not final and have at most a default value. -/
theorem storesAny_unmentioned (name : Str) (before : List (Parsed × Bool)) (xm : VarMap)
    (hf : name ∉ xm.final) (hd : (if (xm.get name).defaulted then none else (xm.get name).v) = none)
    (h : ∀ q ∈ before, ¬ Mentions q.1.options name) :
    name ∉ (storesAny xm before).final ∧
      (if ((storesAny xm before).get name).defaulted then none else ((storesAny xm before).get name).v) = none := by
  induction before generalizing xm with
  | nil => exact ⟨hf, hd⟩
  | cons q rest ih =>
    obtain ⟨p, u⟩ := q
    have hq := h (p, u) (by simp)
    rw [storesAny]
    cases hs : store p xm u with
    | mk xm' e =>
      have : name ∉ xm'.final ∧ (if (xm'.get name).defaulted then none else (xm'.get name).v) = none := by
        cases e with
        | none =>
          obtain ⟨h1, h2⟩ := store_miss hs name (.inl hq)
          refine ⟨fun hh => hf (h2.1 hh), ?_⟩
          unfold VarMap.get at hd ⊢
          rw [h1]
          cases hx : xm.map.get? name with
          | some v => simpa [hx] using hd
          | none => cases firstDefault p.desc name <;> simp
        | some f =>
          obtain ⟨h1, _, h3⟩ := store_failed_frame hs
          refine ⟨h1 ▸ hf, ?_⟩
          unfold VarMap.get at hd ⊢
          rw [h3 name (.inl hq)]
          exact hd
      exact ih xm' this.1 this.2 fun q hq => h q (by simp [hq])

/-- **C33, over a whole history** starting from an empty map: the first source that mentions a
non-composing option, if its store succeeds, determines the entry for good. -/
theorem C33_history (before after : List (Parsed × Bool)) (p : Parsed) (utf8 : Bool) (name : Str)
    (hb : ∀ q ∈ before, ¬ Mentions q.1.options name) (hm : Mentions p.options name)
    (hs : (store p (storesAny {} before) utf8).2 = none)
    (d : OptionDesc) (hd : candidates p.desc name = [d])
    (hnc : d.semantic.isComposing = false) :
    ∃ a, parseAll d.semantic utf8 none ((occurrences p.options name).map (·.value)) = .ok a ∧
      (storesAny {} (before ++ (p, utf8) :: after)).get name =
        { v := a, defaulted := false, semantic := some d.semantic } := by
  obtain ⟨hf, hv⟩ := storesAny_unmentioned name before {} (by simp) (by simp [VarMap.get, SMap.get?]) hb
  cases hs' : store p (storesAny {} before) utf8 with
  | mk xm1 e =>
    rw [hs'] at hs
    simp only at hs
    subst hs
    obtain ⟨a, ha, hg⟩ := C33_first_source_wins p _ xm1 utf8 hs' name hm hf d hd hnc after
    rw [hv] at ha
    refine ⟨a, ha, ?_⟩
    rw [storesAny_append, storesAny, hs', VarMap.get, hg]
    rfl

example : Mentions Ex.src1.options (Test.L "name") ∧ (store Ex.src1 {} false).2 = none ∧
    (findOrThrow Ex.src1.desc (Test.L "name") false false false).toOption.map (·.semantic.isComposing) = some false ∧
    ((storesAny {} [(Ex.src1, false), (Ex.src2, false)]).get (Test.L "name")).v = some (.scalar (.str (Test.L "a"))) := by
  refine ⟨⟨Ex.o "name" ["a"], by decide, by decide⟩, by decide, by decide, by decide⟩

/-! ### C35 -/

/-- **C35.** After any sequence of successful stores into an empty map: a name mentioned by some
source has an entry that is not flagged as default; a name never mentioned has an entry iff some
source's description declares a default for it, namely the first such default, flagged as default. -/
theorem C35_defaults (srcs : List (Parsed × Bool)) (m : VarMap) (h : Stores {} srcs m) (name : Str) :
    ((∃ q ∈ srcs, Mentions q.1.options name) → ∃ v, m.map.get? name = some v ∧ v.defaulted = false) ∧
    ((∀ q ∈ srcs, ¬ Mentions q.1.options name) →
      m.map.get? name = (firstDefault (srcs.flatMap (·.1.desc)) name).map fun q =>
        { v := q.2, defaulted := true, semantic := some q.1 }) := by
  have hfin : ∀ (srcs : List (Parsed × Bool)) (m0 m : VarMap), Stores m0 srcs m →
      (∀ n ∈ m0.final, ∃ v, m0.map.get? n = some v ∧ v.defaulted = false) →
      ((∃ v, m0.map.get? name = some v ∧ v.defaulted = false) ∨ ∃ q ∈ srcs, Mentions q.1.options name) →
      ∃ v, m.map.get? name = some v ∧ v.defaulted = false := by
    intro srcs m0 m h
    induction h with
    | nil m => intro _ hx; simpa using hx
    | @cons m m1 m2 p u rest hs t ih =>
      intro hinv hx
      have hinv1 : ∀ n ∈ m1.final, ∃ v, m1.map.get? n = some v ∧ v.defaulted = false := by
        intro n hn
        by_cases hc : ¬ Mentions p.options n ∨ n ∈ m.final
        · obtain ⟨h1, h2⟩ := store_miss hs n hc
          obtain ⟨v, hv, hd⟩ := hinv n (h2.1 hn)
          exact ⟨v, by rw [h1, hv], hd⟩
        · rw [not_or, Classical.not_not] at hc
          obtain ⟨d, a, _, _, hg, _⟩ := store_hit hs n hc.1 hc.2
          exact ⟨_, hg, rfl⟩
      refine ih hinv1 ?_
      by_cases hc : ¬ Mentions p.options name ∨ name ∈ m.final
      · obtain ⟨h1, h2⟩ := store_miss hs name hc
        rcases hx with ⟨v, hv, hd⟩ | ⟨q, hq, hqm⟩
        · exact .inl ⟨v, by rw [h1, hv], hd⟩
        · rcases List.mem_cons.1 hq with e | e
          · subst e
            rcases hc with hc | hc
            · exact absurd hqm hc
            · obtain ⟨v, hv, hd⟩ := hinv name hc
              exact .inl ⟨v, by rw [h1, hv], hd⟩
          · exact .inr ⟨q, e, hqm⟩
      · rw [not_or, Classical.not_not] at hc
        obtain ⟨d, a, _, _, hg, _⟩ := store_hit hs name hc.1 hc.2
        exact .inl ⟨_, hg, rfl⟩
  have hdef : ∀ (srcs : List (Parsed × Bool)) (m0 m : VarMap), Stores m0 srcs m →
      (∀ q ∈ srcs, ¬ Mentions q.1.options name) →
      m.map.get? name = match m0.map.get? name with
        | some v => some v
        | none => (firstDefault (srcs.flatMap (·.1.desc)) name).map fun q =>
            { v := q.2, defaulted := true, semantic := some q.1 } := by
    intro srcs m0 m h
    induction h with
    | nil m => intro _; cases m.map.get? name <;> rfl
    | @cons m m1 m2 p u rest hs t ih =>
      intro hq
      obtain ⟨h1, _⟩ := store_miss hs name (.inl (hq (p, u) (by simp)))
      rw [ih fun q hq' => hq q (by simp [hq']), h1]
      cases m.map.get? name with
      | some v => rfl
      | none =>
        simp only [firstDefault, List.flatMap_cons, List.findSome?_append]
        cases List.findSome? _ p.desc <;> rfl
  refine ⟨fun hx => hfin srcs {} m h (by simp) (.inr hx), fun hx => ?_⟩
  exact hdef srcs {} m h hx

/-- **C35, replacement:** a store that mentions a name replaces its default by the explicit value
(parsed as if there had been no value). -/
theorem C35_explicit_replaces_default (p : Parsed) (xm xm1 : VarMap) (utf8 : Bool)
    (hs : store p xm utf8 = (xm1, none)) (name : Str) (hm : Mentions p.options name)
    (hf : name ∉ xm.final) (hd : (xm.get name).defaulted = true) :
    ∃ d a, candidates p.desc name = [d] ∧
      parseAll d.semantic utf8 none ((occurrences p.options name).map (·.value)) = .ok a ∧
      xm1.get name = { v := a, defaulted := false, semantic := some d.semantic } := by
  simp only [← find_ok_iff]
  obtain ⟨d, a, h1, h2, h3, _⟩ := store_hit hs name hm hf
  rw [hd] at h2
  exact ⟨d, a, h1, h2, by rw [VarMap.get, h3]; rfl⟩

example : ∃ m, Stores {} [(Ex.src1, false)] m ∧ (m.get (Test.L "level")).defaulted = true ∧
    (m.get (Test.L "level")).v = some (.scalar (.str (Test.L "low"))) ∧ Test.L "level" ∉ m.final ∧
    (store Ex.src2 m false).2 = none ∧
    ((store Ex.src2 m false).1.get (Test.L "level")).v = some (.scalar (.str (Test.L "high"))) ∧
    ((store Ex.src2 m false).1.get (Test.L "level")).defaulted = false := by
  refine ⟨(store Ex.src1 {} false).1, ?_, by decide, by decide, by decide, by decide, by decide, by decide⟩
  have h2 : (store Ex.src1 {} false).2 = none := by decide
  exact .cons (m1 := (store Ex.src1 {} false).1) (Prod.ext rfl h2) (.nil _)

/-! ### C36 -/

/-- **C36.** A store, successful or not, leaves alone the entry of every name that none of its
options mentions and for which its description declares no default. -/
theorem C36_frame (p : Parsed) (xm : VarMap) (utf8 : Bool) (name : Str)
    (hm : ∀ o ∈ p.options, o.stringKey = name → o.unregistered = true)
    (hd : ∀ d ∈ p.desc, d.own = name → d.semantic.applyDefault = none) :
    (store p xm utf8).1.map.get? name = xm.map.get? name := by
  have hm' : ¬ Mentions p.options name := by
    rintro ⟨o, ho, h1, _, h3⟩
    rw [hm o ho h1] at h3; cases h3
  cases hs : store p xm utf8 with
  | mk xm' e =>
    cases e with
    | some f => exact (store_failed_frame hs).2.2 name (.inl hm')
    | none =>
      obtain ⟨h1, _⟩ := store_miss hs name (.inl hm')
      simp only
      rw [h1]
      have : firstDefault p.desc name = none := by
        unfold firstDefault
        rw [List.findSome?_eq_none_iff]
        intro d hdm
        split
        · rename_i hk; rw [hd d hdm hk.1]; rfl
        · rfl
      rw [this]
      cases xm.map.get? name <;> rfl

/-- **C36, ignored options:** dropping the unregistered and the unnamed options from a source does
not change the effect or the outcome of storing it. -/
theorem C36_ignored (p : Parsed) (xm : VarMap) (utf8 : Bool) :
    store { p with options := p.options.filter fun o => o.stringKey ≠ [] ∧ o.unregistered = false } xm utf8 =
      store p xm utf8 := by
  have : ∀ (os : List Opt) m nf, storeLoop p.desc p.pre utf8 xm.final (os.filter fun o => o.stringKey ≠ [] ∧ o.unregistered = false) m nf =
      storeLoop p.desc p.pre utf8 xm.final os m nf := by
    intro os
    induction os with
    | nil => intros; rfl
    | cons o os ih =>
      intro m nf
      rw [List.filter_cons]
      by_cases hc : o.stringKey ≠ [] ∧ o.unregistered = false
      · rw [if_pos (by simpa using hc), storeLoop, storeLoop]
        generalize storeOne p.desc p.pre utf8 xm.final m nf o = r
        obtain ⟨⟨m', nf'⟩, e⟩ := r
        cases e with
        | none => exact ih m' nf'
        | some f => rfl
      · rw [if_neg (by simpa using hc), ih, storeLoop]
        have : storeOne p.desc p.pre utf8 xm.final m nf o = ((m, nf), none) := by
          unfold storeOne
          simp only
          by_cases h1 : o.stringKey = []
          · rw [if_pos h1]
          · rw [if_neg h1]
            have : o.unregistered = true := by
              cases hu : o.unregistered with
              | true => rfl
              | false => exact absurd ⟨h1, hu⟩ hc
            rw [if_pos this]
        rw [this]
  unfold store
  simp only [this]

example : (∀ o ∈ Ex.src1.options, o.stringKey = Test.L "zz" → o.unregistered = true) ∧
    (∀ d ∈ Ex.src1.desc, d.own = Test.L "name" → d.semantic.applyDefault = none) := by
  constructor
  · decide
  · intro d hd
    simp only [Ex.src1, Ex.descs, List.mem_cons, List.not_mem_nil, or_false] at hd
    rcases hd with rfl | rfl | rfl
    · intro _; rfl
    · intro h; exact absurd h (by decide)
    · intro _; rfl

/-! ### C37 -/

/-- The full claim. -/
def C37_claim : Prop := ∀ (p : Parsed) (xm : VarMap) (utf8 : Bool) (f : Fail),
  (store p xm utf8).2 = some f → ∀ name, ((store p xm utf8).1.map.get? name).map (·.v) = (xm.map.get? name).map (·.v)

/-- **C37 is false in the code.** Storing `name=a name=b` throws `multiple_occurrences`, but the
entry `name=a` stays; moreover a failing first occurrence leaves an *empty* entry behind. -/
theorem C37_negation : ¬ C37_claim := by
  intro h
  have := h { desc := Ex.descs, options := [Ex.o "name" ["a"], Ex.o "name" ["b"]] } {} false
    (errMultipleOccurrences.addContext (Test.L "name") [] 0) (by decide) (Test.L "name")
  revert this
  decide

/-- The empty entry left behind by a failing store hides the default in a later, successful one. -/
theorem C37_lost_default :
    let bad : Parsed := { desc := Ex.descs, options := [Ex.o "level" ["a", "b"]] }
    let good : Parsed := { desc := Ex.descs, options := [] }
    (store bad {} false).2 ≠ none ∧ (store good (store bad {} false).1 false).2 = none ∧
      ((store good {} false).1.get (Test.L "level")).v = some (.scalar (.str (Test.L "low"))) ∧
      ((store good (store bad {} false).1 false).1.get (Test.L "level")).v = none := by
  decide

/-- **C37, part that holds:** a failed store leaves every name alone that it does not mention or
that an earlier source has settled, and does not change which names are settled or required.
Missing: the entries of the mentioned, unsettled names (see `C37_negation`). -/
theorem C37_failed_store_partial (p : Parsed) (xm xm' : VarMap) (utf8 : Bool) (f : Fail)
    (h : store p xm utf8 = (xm', some f)) :
    xm'.final = xm.final ∧ xm'.required = xm.required ∧
      ∀ name, ¬ Mentions p.options name ∨ name ∈ xm.final → xm'.map.get? name = xm.map.get? name :=
  store_failed_frame h

example : (store { desc := Ex.descs, options := [Ex.o "inc" ["a"], Ex.o "name" []] } (store { desc := Ex.descs, options := [Ex.o "level" ["x"]] } {}).1 false).2 ≠ none := by
  decide

/-! ### C40 -/

/-- An explicit value. -/
def Explicit (v : VarValue) : Bool := v.v.isSome && !v.defaulted

/-- **C40.** In a chain of maps the first explicit value wins, else the first (default) value, else
the result is empty. -/
theorem C40_chain (m : VarMap) (chain : List VarMap) (name : Str) :
    match ((m :: chain).map (·.get name)).find? Explicit with
    | some v => m.lookupChain chain name = v
    | none =>
      match ((m :: chain).map (·.get name)).find? (fun v => v.v.isSome) with
      | some v => m.lookupChain chain name = v
      | none => (m.lookupChain chain name).v = none := by
  induction chain generalizing m with
  | nil =>
    simp only [List.map_cons, List.map_nil, List.find?_cons, List.find?_nil, VarMap.lookupChain, Explicit]
    cases hv : (m.get name).v <;> cases hd : (m.get name).defaulted <;> simp
  | cons n ns ih =>
    have ih := ih n
    simp only [VarMap.lookupChain, VarValue.empty, Option.not_isNone]
    rw [List.map_cons, List.find?_cons]
    rw [List.find?_cons (p := fun v : VarValue => v.v.isSome)]
    generalize hr : n.lookupChain ns name = r at ih
    generalize (n :: ns).map (·.get name) = l at ih
    cases hv : (m.get name).v with
    | none =>
      simp only [Explicit, hv, Option.isSome_none, Bool.false_and, Option.isNone_none, if_true]
      exact ih
    | some a =>
      cases hd : (m.get name).defaulted with
      | false => simp [Explicit, hv, hd]
      | true =>
        simp only [Explicit, hv, hd, Option.isSome_some, Bool.not_true, Bool.and_false, Option.isNone_some,
          Bool.false_eq_true, if_false, if_true]
        change match l.find? Explicit with
          | some v => (if (r.v.isSome && !r.defaulted) = true then r else m.get name) = v
          | none => _
        cases hf : l.find? Explicit with
        | some w =>
          rw [hf] at ih
          simp only at ih ⊢
          subst ih
          have := List.find?_some hf
          unfold Explicit at this
          rw [if_pos this]
        | none =>
          rw [hf] at ih
          simp only at ih ⊢
          have hne : ¬ (r.v.isSome && !r.defaulted) = true := by
            intro he
            cases hg : l.find? (fun v => v.v.isSome) with
            | none => rw [hg] at ih; simp only at ih; simp [ih] at he
            | some w =>
              rw [hg] at ih; simp only at ih; subst ih
              have h1 := List.find?_eq_none.1 hf r (List.mem_of_find?_eq_some hg)
              exact h1 he
          rw [if_neg hne]

example :
    let a : VarMap := { map := [(Test.L "x", { v := some (.scalar (.str [])), defaulted := true })] }
    let b : VarMap := { map := [(Test.L "x", { v := some (.scalar (.str (Test.L "v"))) })] }
    (a.lookupChain [{}, b] (Test.L "x")).v = some (.scalar (.str (Test.L "v"))) ∧
    (a.lookupChain [{}, a] (Test.L "x")).v = some (.scalar (.str [])) := by
  decide

/-! ### C41 -/

/-- **C41.** After `clear` every further history of stores gives the same map, so the same lookups
(through any chain) and the same notification, as on a fresh map. -/
theorem C41_clear (m : VarMap) (history : List (Parsed × Bool)) (chain : List VarMap) (name : Str) :
    ((storesAny m.clear history).lookupChain chain name).v = ((storesAny {} history).lookupChain chain name).v ∧
    ((storesAny m.clear history).lookupChain chain name).defaulted = ((storesAny {} history).lookupChain chain name).defaulted ∧
    (storesAny m.clear history).notify = (storesAny {} history).notify := by
  exact ⟨rfl, rfl, rfl⟩

example : ((storesAny (store Ex.src1 {}).1.clear [(Ex.src2, false)]).get (Test.L "name")).v =
    some (.scalar (.str (Test.L "b"))) ∧
    ((storesAny (store Ex.src1 {}).1 [(Ex.src2, false)]).get (Test.L "name")).v =
    some (.scalar (.str (Test.L "a"))) := by decide

end PO
