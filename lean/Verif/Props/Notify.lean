import Verif.Props.Store
import Verif.Lemmas.Str
/-
C38, C39: `notify`.
-/
namespace PO
open Spec

/-! ### C38 -/

/-- A history of stores; the list holds the sources that were stored successfully. Failed stores
(whose exceptions are caught) may come in between. -/
inductive History : VarMap → List (Parsed × Bool) → VarMap → Prop
  | nil (m) : History m [] m
  | ok {m m1 m2 p u rest} (h : store p m u = (m1, none)) (t : History m1 rest m2) : History m ((p, u) :: rest) m2
  | failed {m m1 m2 p u f rest} (h : store p m u = (m1, some f)) (t : History m1 rest m2) : History m rest m2

/-- The displayed names under which the stored descriptions declare `key` as required. -/
def requiredNames (srcs : List (Parsed × Bool)) (key : Str) : List Str :=
  srcs.flatMap fun q => (q.1.desc.filter fun d => d.own = key ∧ key ≠ [] ∧ d.semantic.isRequired = true).map
    (·.canonicalDisplayName q.1.pre)

def longest (init : Str) (names : List Str) : Str :=
  names.foldl (fun old n => if n.length > old.length then n else old) init

theorem longest_spec (init : Str) (names : List Str) :
    (longest init names = init ∨ longest init names ∈ names) ∧ init.length ≤ (longest init names).length ∧
      ∀ n ∈ names, n.length ≤ (longest init names).length := by
  induction names generalizing init with
  | nil => simp [longest]
  | cons n ns ih =>
    obtain ⟨h1, h2, h3⟩ := ih (if n.length > init.length then n else init)
    have : longest init (n :: ns) = longest (if n.length > init.length then n else init) ns := rfl
    rw [this]
    by_cases hc : n.length > init.length
    · simp only [if_pos hc] at h1 h2 h3 ⊢
      refine ⟨by rcases h1 with h1 | h1 <;> simp [h1], by omega, ?_⟩
      intro x hx
      rcases List.mem_cons.1 hx with rfl | hx
      · exact h2
      · exact h3 x hx
    · simp only [if_neg hc] at h1 h2 h3 ⊢
      refine ⟨by rcases h1 with h1 | h1 <;> simp [h1], h2, ?_⟩
      intro x hx
      rcases List.mem_cons.1 hx with rfl | hx
      · omega
      · exact h3 x hx

theorem longest_append (init : Str) (a b : List Str) : longest init (a ++ b) = longest (longest init a) b := by
  simp [longest, List.foldl_append]

/-- What the second loop records for `key`. -/
def recorded (old : Option Str) (names : List Str) : Option Str :=
  if old = none ∧ names = [] then none else some (longest (old.getD []) names)

theorem recorded_append (old : Option Str) (a b : List Str) : recorded old (a ++ b) = recorded (recorded old a) b := by
  unfold recorded
  cases old with
  | some o => simp [longest_append]
  | none =>
    cases a with
    | nil => simp
    | cons x a => simpa using longest_append [] (x :: a) b

theorem applyOne_required (pre : Nat) (m req d) (key : Str) :
    (applyOne pre m req d).2.get? key =
      recorded (req.get? key) (if d.own = key ∧ key ≠ [] ∧ d.semantic.isRequired = true then [d.canonicalDisplayName pre] else []) := by
  have hnil : recorded (req.get? key) [] = req.get? key := by
    unfold recorded
    cases req.get? key <;> simp [longest]
  unfold applyOne
  simp only [key_nil]
  by_cases hk : d.own = []
  · rw [if_pos hk, if_neg, hnil]
    rintro ⟨a, b, _⟩; exact b (a ▸ hk)
  · rw [if_neg hk]
    by_cases hr : d.semantic.isRequired = true
    · simp only [hr, if_true, and_true]
      by_cases he : d.own = key
      · subst he
        simp only [hk, ne_eq, not_false_eq_true, and_self, if_true]
        split <;> rename_i hl <;> rw [SMap.get?_set, if_pos rfl]
        · simp [recorded, longest, hl]
        · simp [recorded, longest, hl]
      · simp only [he, false_and, if_false, hnil]
        split <;> rw [SMap.get?_set, if_neg he]
    · simp only [hr, and_false, if_false, hnil, Bool.false_eq_true]

theorem applyAll_required (pre : Nat) (desc : List OptionDesc) (m req) (key : Str) :
    (applyAll pre desc m req).2.get? key =
      recorded (req.get? key) ((desc.filter fun d => d.own = key ∧ key ≠ [] ∧ d.semantic.isRequired = true).map
        (·.canonicalDisplayName pre)) := by
  induction desc generalizing m req with
  | nil =>
    simp only [applyAll, List.filter_nil, List.map_nil, recorded]
    cases req.get? key <;> simp [longest]
  | cons d ds ih =>
    rw [applyAll]
    have h1 := applyOne_required pre m req d key
    generalize applyOne pre m req d = r at *
    obtain ⟨m1, r1⟩ := r
    simp only at h1 ⊢
    rw [ih, h1, ← recorded_append, List.filter_cons]
    by_cases hc : d.own = key ∧ key ≠ [] ∧ d.semantic.isRequired = true
    · rw [if_pos hc, if_pos (by simpa using hc)]; rfl
    · rw [if_neg hc, if_neg (by simpa using hc)]; rfl

theorem applyAll_required_sorted (pre : Nat) (desc : List OptionDesc) (m req) (h : SMap.Sorted req) :
    SMap.Sorted (applyAll pre desc m req).2 := by
  induction desc generalizing m req with
  | nil => exact h
  | cons d ds ih =>
    rw [applyAll]
    have h1 : SMap.Sorted (applyOne pre m req d).2 := by
      unfold applyOne
      simp only
      split
      · exact h
      · simp only
        split
        · split <;> exact SMap.sorted_set h _ _
        · exact h
    exact ih _ _ h1

theorem history_required (srcs : List (Parsed × Bool)) (m0 m : VarMap) (h : History m0 srcs m)
    (hs : SMap.Sorted m0.required ∧ SMap.Sorted m0.map) :
    (∀ key, m.required.get? key = recorded (m0.required.get? key) (requiredNames srcs key)) ∧
      SMap.Sorted m.required ∧ SMap.Sorted m.map := by
  induction h with
  | nil m =>
    refine ⟨fun key => ?_, hs⟩
    simp only [requiredNames, List.flatMap_nil, recorded]
    cases m.required.get? key <;> simp [longest]
  | @ok m m1 m2 p u rest hst t ih =>
    have hsm := store_sorted p m u hs.2
    obtain ⟨mm, nf, _, he⟩ := store_ok hst
    have hr : SMap.Sorted m1.required := by rw [he]; exact applyAll_required_sorted _ _ _ _ hs.1
    rw [hst] at hsm
    obtain ⟨i1, i2⟩ := ih ⟨hr, hsm⟩
    refine ⟨fun key => ?_, i2⟩
    rw [i1, he]
    simp only [applyAll_required, requiredNames, List.flatMap_cons]
    rw [← recorded_append]
  | @failed m m1 m2 p u f rest hst t ih =>
    have hsm := store_sorted p m u hs.2
    rw [hst] at hsm
    obtain ⟨_, h2, _⟩ := store_failed_frame hst
    obtain ⟨i1, i2⟩ := ih ⟨h2 ▸ hs.1, hsm⟩
    exact ⟨fun key => by rw [i1, h2], i2⟩

theorem missingRequired_none (m : SMap VarValue) (req : SMap Str) :
    VarMap.missingRequired m req = none ↔ ∀ e ∈ req, (((m.get? e.1).getD {}).v).isSome = true := by
  induction req with
  | nil => simp [VarMap.missingRequired]
  | cons e rest ih =>
    obtain ⟨k, disp⟩ := e
    rw [VarMap.missingRequired]
    cases hm : m.get? k with
    | none => simp [hm]
    | some v =>
      cases hv : v.v with
      | none => simp [VarValue.empty, hv, hm]
      | some a => simp [VarValue.empty, hv, hm, ih]

theorem missingRequired_some (m : SMap VarValue) (req : SMap Str) (hs : SMap.Sorted req) (disp : Str)
    (h : VarMap.missingRequired m req = some disp) :
    ∃ k, (k, disp) ∈ req ∧ ((m.get? k).getD {}).v = none ∧
      ∀ e ∈ req, ((m.get? e.1).getD {}).v = none → strLt e.1 k = false := by
  induction req with
  | nil => simp [VarMap.missingRequired] at h
  | cons e rest ih =>
    obtain ⟨k, d⟩ := e
    rw [SMap.Sorted, List.pairwise_cons] at hs
    rw [VarMap.missingRequired] at h
    have hmin : ∀ e ∈ (k, d) :: rest, strLt e.1 k = false := by
      intro e he
      rcases List.mem_cons.1 he with rfl | he
      · exact strLt_irrefl _
      · exact strLt_asymm (hs.1 e he)
    have hrest : (((m.get? k).getD {}).v).isSome = true → VarMap.missingRequired m rest = some disp →
        ∃ k', (k', disp) ∈ (k, d) :: rest ∧ ((m.get? k').getD {}).v = none ∧
          ∀ e ∈ (k, d) :: rest, ((m.get? e.1).getD {}).v = none → strLt e.1 k' = false := by
      intro hv hr
      obtain ⟨k', h1, h2, h3⟩ := ih hs.2 hr
      refine ⟨k', by simp [h1], h2, ?_⟩
      intro e he hev
      rcases List.mem_cons.1 he with rfl | he
      · simp [hev] at hv
      · exact h3 e he hev
    cases hm : m.get? k with
    | none =>
      simp only [hm, Option.some.injEq] at h
      subst h
      exact ⟨k, by simp, by simp [hm], fun e he _ => hmin e he⟩
    | some v =>
      cases hv : v.v with
      | none =>
        simp only [hm, hv, VarValue.empty, Option.isNone_none, if_true, Option.some.injEq] at h
        subst h
        exact ⟨k, by simp, by simp [hm, hv], fun e he _ => hmin e he⟩
      | some a =>
        simp only [hm, VarValue.empty, hv, Option.isNone_some, Bool.false_eq_true, if_false] at h
        exact hrest (by simp [hm, hv]) h

theorem notifyLoop_fail (l : SMap VarValue) (f : Fail) (h : (VarMap.notifyLoop l).2 = some f) :
    ∃ e ∈ l, ∃ s, e.2.semantic = some s ∧ (s.notify e.2.v).2 = some f := by
  induction l with
  | nil => simp [VarMap.notifyLoop] at h
  | cons e rest ih =>
    obtain ⟨k, v⟩ := e
    rw [VarMap.notifyLoop] at h
    cases hs : v.semantic with
    | none =>
      simp only [hs] at h
      obtain ⟨e, he, r⟩ := ih h
      exact ⟨e, by simp [he], r⟩
    | some s =>
      simp only [hs] at h
      cases hn : s.notify v.v with
      | mk es e =>
        rw [hn] at h
        cases e with
        | some f' =>
          simp only [Option.some.injEq] at h
          exact ⟨(k, v), by simp, s, hs, by rw [hn]; simp [h]⟩
        | none =>
          simp only at h
          obtain ⟨e, he, r⟩ := ih h
          exact ⟨e, by simp [he], r⟩

theorem shows_iff (d : OptionDesc) (pre : Nat) (n : Str) : Shows d pre n ↔ d.canonicalDisplayName pre = n := by
  have e1 : Style.allowLong ≠ Style.allowLongDisguise := by decide
  have e2 : Style.allowLong ≠ Style.allowSlashForShort := by decide
  have e3 : Style.allowLong ≠ Style.allowDashForShort := by decide
  have e4 : Style.allowLongDisguise ≠ Style.allowSlashForShort := by decide
  have e5 : Style.allowLongDisguise ≠ Style.allowDashForShort := by decide
  have e6 : Style.allowSlashForShort ≠ Style.allowDashForShort := by decide
  constructor
  · intro h
    unfold OptionDesc.canonicalDisplayName
    cases h with
    | long n h hp => obtain ⟨t, ht⟩ := List.head?_eq_some_iff.1 h; simp only [ht]; rw [if_pos hp]; rfl
    | disguised n h hp => obtain ⟨t, ht⟩ := List.head?_eq_some_iff.1 h; simp only [ht]; rw [if_neg (by rw [hp]; exact e1.symm), if_pos hp]; rfl
    | slash a c h hp =>
      simp only [h]
      cases d.longNames with
      | nil => simp only; rw [if_pos hp]
      | cons x t => simp only; rw [if_neg (by rw [hp]; exact e2.symm), if_neg (by rw [hp]; exact e4.symm), if_pos hp]
    | dash a c h hp =>
      simp only [h]
      cases d.longNames with
      | nil => simp only; rw [if_neg (by rw [hp]; exact e6.symm), if_pos hp]
      | cons x t => simp only; rw [if_neg (by rw [hp]; exact e3.symm), if_neg (by rw [hp]; exact e5.symm), if_neg (by rw [hp]; exact e6.symm), if_pos hp]
    | name n h hl hd hs =>
      obtain ⟨t, ht⟩ := List.head?_eq_some_iff.1 h
      simp only [ht]
      rw [if_neg hl, if_neg hd]
      split
      · rename_i hsn
        obtain ⟨a, b⟩ := hs (by rw [hsn]; rfl)
        rw [if_neg a, if_neg b]
      · rfl
    | short h hs =>
      simp only [h]
      split
      · rename_i hsn
        obtain ⟨a, b⟩ := hs (by rw [hsn]; rfl)
        rw [if_neg a, if_neg b]
      · rfl
  · rintro rfl
    unfold OptionDesc.canonicalDisplayName
    cases hl : d.longNames with
    | nil =>
      simp only
      split
      · rename_i a c hsn
        split
        · rename_i hp; exact .slash a c hsn hp
        · rename_i h1
          split
          · rename_i hp; exact .dash a c hsn hp
          · rename_i h2; exact .short hl fun _ => ⟨h1, h2⟩
      · rename_i hsn
        refine .short hl fun h => ?_
        match hm : d.shortName, h with
        | [a, c], _ => exact absurd hm (hsn a c)
    | cons x t =>
      have hh : d.longNames.head? = some x := by rw [hl]; rfl
      simp only
      split
      · rename_i hp; exact .long x hh hp
      · rename_i h1
        split
        · rename_i hp; exact .disguised x hh hp
        · rename_i h2
          split
          · rename_i a c hsn
            split
            · rename_i hp; exact .slash a c hsn hp
            · rename_i h3
              split
              · rename_i hp; exact .dash a c hsn hp
              · rename_i h4; exact .name x hh h1 h2 fun _ => ⟨h3, h4⟩
          · rename_i hsn
            refine .name x hh h1 h2 fun h => ?_
            match hm : d.shortName, h with
            | [a, c], _ => exact absurd hm (hsn a c)

theorem mem_requiredNames (srcs : List (Parsed × Bool)) (key n : Str) : n ∈ requiredNames srcs key ↔ RequiredAs srcs key n := by
  simp only [requiredNames, RequiredAs, List.mem_flatMap, List.mem_map, List.mem_filter, decide_eq_true_eq, shows_iff]
  constructor
  · rintro ⟨q, hq, d, ⟨hd, hk, h0, hr⟩, rfl⟩
    exact ⟨q, hq, d, hd, h0, hk, hr, rfl⟩
  · rintro ⟨q, hq, d, hd, h0, hk, hr, rfl⟩
    exact ⟨q, hq, d, ⟨hd, hk, h0, hr⟩, rfl⟩

theorem requiredNames_ne (srcs : List (Parsed × Bool)) (key : Str) : requiredNames srcs key ≠ [] ↔ ∃ n, RequiredAs srcs key n := by
  simp only [← mem_requiredNames, List.ne_nil_iff_exists_cons]
  constructor
  · rintro ⟨b, l, h⟩; exact ⟨b, by rw [h]; simp⟩
  · rintro ⟨n, h⟩
    cases hr : requiredNames srcs key with
    | nil => rw [hr] at h; cases h
    | cons b l => exact ⟨b, l, rfl⟩

theorem required_names (srcs : List (Parsed × Bool)) (m : VarMap) (h : History {} srcs m) :
    ((∃ k, requiredNames srcs k ≠ [] ∧ (m.get k).v = none) →
      ∃ k display, requiredNames srcs k ≠ [] ∧ (m.get k).v = none ∧
        (∀ k', requiredNames srcs k' ≠ [] → (m.get k').v = none → strLt k' k = false) ∧
        display ∈ requiredNames srcs k ∧ (∀ n ∈ requiredNames srcs k, n.length ≤ display.length) ∧
        m.notify = ([], some (errRequired display))) ∧
    ((∀ k, requiredNames srcs k ≠ [] → (m.get k).v ≠ none) →
      ∀ f, m.notify.2 = some f → ∃ e ∈ m.map, ∃ s, e.2.semantic = some s ∧ (s.notify e.2.v).2 = some f) := by
  obtain ⟨hreq, hsr, _⟩ := history_required srcs {} m h ⟨by simp, by simp⟩
  have hreq' : ∀ key, m.required.get? key =
      if requiredNames srcs key = [] then none else some (longest [] (requiredNames srcs key)) := by
    intro key
    rw [hreq]
    unfold recorded
    simp [SMap.get?]
  have hmemreq : ∀ k, requiredNames srcs k ≠ [] ↔ ∃ d, (k, d) ∈ m.required := by
    intro k
    constructor
    · intro hk
      exact ⟨_, (SMap.get?_eq_some hsr _ _).1 (by rw [hreq', if_neg hk])⟩
    · rintro ⟨d, hd⟩ hk
      have := (SMap.get?_eq_some hsr _ _).2 hd
      rw [hreq', if_pos hk] at this
      cases this
  constructor
  · rintro ⟨k, hk, hv⟩
    cases hmr : VarMap.missingRequired m.map m.required with
    | none =>
      rw [missingRequired_none] at hmr
      obtain ⟨d, hd⟩ := (hmemreq k).1 hk
      have := hmr _ hd
      simp only [VarMap.get] at hv
      simp [hv] at this
    | some disp =>
      obtain ⟨k', h1, h2, h3⟩ := missingRequired_some _ _ hsr disp hmr
      have hk' := (hmemreq k').2 ⟨disp, h1⟩
      have hdisp := (SMap.get?_eq_some hsr _ _).2 h1
      rw [hreq', if_neg hk'] at hdisp
      injection hdisp with hdisp
      obtain ⟨l1, _, l3⟩ := longest_spec [] (requiredNames srcs k')
      refine ⟨k', disp, hk', h2, ?_, ?_, hdisp ▸ l3, ?_⟩
      · intro k'' hk'' hv''
        obtain ⟨d, hd⟩ := (hmemreq k'').1 hk''
        exact h3 _ hd hv''
      · rw [← hdisp]
        rcases l1 with l1 | l1
        · obtain ⟨n, hn⟩ := List.exists_mem_of_ne_nil _ hk'
          have := l3 n hn
          rw [l1] at this ⊢
          simp only [List.length_nil, Nat.le_zero, List.length_eq_zero_iff] at this
          exact this ▸ hn
        · exact l1
      · unfold VarMap.notify
        rw [hmr]
  · intro hall f hf
    have hmr : VarMap.missingRequired m.map m.required = none := by
      rw [missingRequired_none]
      rintro ⟨k, d⟩ he
      have := hall k ((hmemreq k).2 ⟨d, he⟩)
      simp only [VarMap.get] at this
      cases hh : ((m.map.get? k).getD {}).v with
      | none => exact absurd hh this
      | some a => simp
    unfold VarMap.notify at hf
    rw [hmr] at hf
    exact notifyLoop_fail _ _ hf

/-- **C38.** On a map filled by any history of stores, let a name be *missing* if some stored
description declares it required and it has no value. If a name is missing, `notify` throws
`required_option` for the least missing name, displayed in a form some description gives it, of
maximal length among those; no variable is assigned and no notifier is called. If no name is
missing, an error can only come out of a value's own notification. -/
theorem C38_required (srcs : List (Parsed × Bool)) (m : VarMap) (h : History {} srcs m) :
    ((∃ k n, RequiredAs srcs k n ∧ (m.get k).v = none) →
      ∃ k display, (m.get k).v = none ∧ (∀ k' n, RequiredAs srcs k' n → (m.get k').v = none → ¬ Earlier k' k) ∧
        RequiredAs srcs k display ∧ (∀ n, RequiredAs srcs k n → n.length ≤ display.length) ∧ m.notify = ([], some (missingRequired display))) ∧
    ((∀ k n, RequiredAs srcs k n → (m.get k).v ≠ none) →
      ∀ f, m.notify.2 = some f → ∃ e ∈ m.map, ∃ s, e.2.semantic = some s ∧ (s.notify e.2.v).2 = some f) := by
  obtain ⟨h1, h2⟩ := required_names srcs m h
  simp only [requiredNames_ne, mem_requiredNames] at h1 h2
  refine ⟨fun ⟨k, n, hn, hv⟩ => ?_, fun ha => h2 fun k ⟨n, hn⟩ => ha k n hn⟩
  obtain ⟨k, display, -, hv, hl, hd⟩ := h1 ⟨k, ⟨n, hn⟩, hv⟩
  exact ⟨k, display, hv, fun k' n hn hv' => (strLt_iff_not _ _).1 (hl k' ⟨n, hn⟩ hv'), hd⟩

def Ex.reqSrc : Parsed := { desc := [Ex.dReq, Ex.dStr], options := [Ex.o "name" ["a"]], pre := Style.allowLong }
example : ∃ m, History {} [(Ex.reqSrc, false)] m ∧ RequiredAs [(Ex.reqSrc, false)] (Test.L "need") (Test.L "--need") ∧
    (m.get (Test.L "need")).v = none ∧ m.notify = ([], some (missingRequired (Test.L "--need"))) := by
  have h2 : (store Ex.reqSrc {} false).2 = none := by decide
  exact ⟨_, .ok (m1 := (store Ex.reqSrc {} false).1) (Prod.ext rfl h2) (.nil _), (mem_requiredNames _ _ _).1 (by decide), by decide, by decide⟩

/-! ### C39 -/

/-- What delivering the final value of one stored option means: for a typed value, the value is
written to the bound variable if there is one, and then passed to the notifier if there is one. -/
def Delivers (v : VarValue) (es : List Event) : Prop :=
  (v.semantic = none → es = []) ∧
  (∀ env zero, v.semantic = some (untypedValue env zero) → es = []) ∧
  (∀ env (t : TypedValue), v.semantic = some (t.toSemantic env) →
    (t.storeTo = none ∧ t.notifier = none ∧ es = []) ∨
    ∃ a, v.v = some a ∧ a.type = t.type ∧
      es = (match t.storeTo with | some p => [Event.assign p a] | none => []) ++
           (match t.notifier with | some f => [Event.callback f a] | none => []))

theorem delivers_of_notify (v : VarValue) (es : List Event)
    (h : (match v.semantic with | none => ([], none) | some s => s.notify v.v) = (es, none)) : Delivers v es := by
  refine ⟨fun hn => ?_, fun env zero hn => ?_, fun env t hn => ?_⟩
  · simp only [hn] at h; simp only [Prod.mk.injEq, and_true] at h; exact h.symm
  · simp only [hn, untypedValue] at h; simp only [Prod.mk.injEq, and_true] at h; exact h.symm
  · simp only [hn] at h
    have h' : t.notify v.v = (es, none) := h
    unfold TypedValue.notify at h'
    split at h'
    · rename_i hc
      left
      simp only [Bool.and_eq_true, Option.isNone_iff_eq_none] at hc
      simp only [Prod.mk.injEq, and_true] at h'
      exact ⟨hc.1, hc.2, h'.symm⟩
    · right
      cases hv : v.v with
      | none => simp [hv] at h'
      | some a =>
        rw [hv] at h'
        simp only at h'
        split at h'
        · rename_i ht
          simp only [Prod.mk.injEq, and_true] at h'
          refine ⟨a, rfl, ht, ?_⟩
          rw [← h']
          cases t.storeTo <;> cases t.notifier <;> rfl
        · simp at h'

theorem notifyLoop_ok (l : SMap VarValue) (es : List Event) (h : VarMap.notifyLoop l = (es, none)) :
    ∃ ess : List (List Event), es = ess.flatten ∧ ess.length = l.length ∧
      ∀ (i : Nat) k v, l[i]? = some (k, v) → ∃ e, ess[i]? = some e ∧ Delivers v e := by
  induction l generalizing es with
  | nil =>
    simp only [VarMap.notifyLoop, Prod.mk.injEq, and_true] at h
    exact ⟨[], h.symm, rfl, by simp⟩
  | cons p rest ih =>
    obtain ⟨k, v⟩ := p
    have : ∃ e1 es', (match v.semantic with | none => ([], none) | some s => s.notify v.v) = (e1, none) ∧
        VarMap.notifyLoop rest = (es', none) ∧ es = e1 ++ es' := by
      rw [VarMap.notifyLoop] at h
      cases hs : v.semantic with
      | none => simp only [hs] at h; exact ⟨[], es, rfl, h, rfl⟩
      | some s =>
        simp only [hs] at h
        simp only
        cases hn : s.notify v.v with
        | mk e1 f =>
          rw [hn] at h
          cases f with
          | some f => simp at h
          | none =>
            simp only at h
            cases hr : VarMap.notifyLoop rest with
            | mk es' f =>
              rw [hr] at h
              simp only [Prod.mk.injEq] at h
              exact ⟨e1, es', rfl, by rw [h.2], h.1.symm⟩
    obtain ⟨e1, es', h1, h2, rfl⟩ := this
    obtain ⟨ess, rfl, hl, hall⟩ := ih es' h2
    refine ⟨e1 :: ess, rfl, by simp [hl], ?_⟩
    intro i k' v' hi
    cases i with
    | zero =>
      simp only [List.getElem?_cons_zero, Option.some.injEq, Prod.mk.injEq] at hi ⊢
      obtain ⟨rfl, rfl⟩ := hi
      exact ⟨e1, rfl, delivers_of_notify _ _ h1⟩
    | succ i =>
      simp only [List.getElem?_cons_succ] at hi ⊢
      exact hall i k' v' hi

/-- **C39.** A successful `notify` after any history of stores performs exactly, for each stored
option in strictly increasing name order and once per option, the delivery of that option's final
value. -/
theorem C39_notify_order (srcs : List (Parsed × Bool)) (m : VarMap) (h : History {} srcs m)
    (es : List Event) (hn : m.notify = (es, none)) :
    ∃ (keys : List Str) (ess : List (List Event)),
      keys.Pairwise Earlier ∧ (∀ k, k ∈ keys ↔ (m.map.get? k).isSome = true) ∧
      es = ess.flatten ∧ ess.length = keys.length ∧
      ∀ (i : Nat) k, keys[i]? = some k → ∃ e, ess[i]? = some e ∧ Delivers (m.get k) e := by
  obtain ⟨_, _, hsm⟩ := history_required srcs {} m h ⟨by simp, by simp⟩
  have hl : VarMap.notifyLoop m.map = (es, none) := by
    unfold VarMap.notify at hn
    split at hn
    · simp at hn
    · exact hn
  obtain ⟨ess, h1, h2, h3⟩ := notifyLoop_ok _ _ hl
  refine ⟨m.map.map (·.1), ess, ?_, fun k => (SMap.get?_isSome _ _).symm, h1, by simp [h2], ?_⟩
  · exact List.pairwise_map.2 (hsm.imp (strLt_iff _ _).1)
  · intro i k hk
    simp only [List.getElem?_map, Option.map_eq_some_iff] at hk
    obtain ⟨⟨k', v⟩, hg, rfl⟩ := hk
    obtain ⟨e, he, hd⟩ := h3 i k' v hg
    refine ⟨e, he, ?_⟩
    have : m.map.get? k' = some v := (SMap.get?_eq_some hsm _ _).2 (List.mem_of_getElem? hg)
    simp only [VarMap.get, this, Option.getD_some]
    exact hd

example : ∃ m, History {} [({ Ex.reqSrc with options := [Ex.o "need" ["v"], Ex.o "name" ["a"]] }, false)] m ∧
    m.notify = ([.assign 3 (.scalar (.str (Test.L "v"))), .callback 4 (.scalar (.str (Test.L "v")))], none) := by
  have h2 : (store { Ex.reqSrc with options := [Ex.o "need" ["v"], Ex.o "name" ["a"]] } {} false).2 = none := by decide
  exact ⟨_, .ok (m1 := (store { Ex.reqSrc with options := [Ex.o "need" ["v"], Ex.o "name" ["a"]] } {} false).1)
    (Prod.ext rfl h2) (.nil _), by decide⟩

end PO
