import Verif.Spec.LettersStore
import Verif.Props.Letters
import Verif.Lemmas.Order
/-
C154: to a store no letter is special.
-/
namespace PO

namespace Letters

variable {π : Char → Char} {Q : Any → Any → Prop} {utf8 : Bool} {σ : ValueSemantic → ValueSemantic}

theorem findLoop_typed (hi : ∀ a b, π a = π b → a = b) (hs : π '*' = '*') (n : Str) (ds : List OptionDesc) (found : Option OptionDesc)
    (full apx : List Str) :
    findLoop (ren π n) false false false (ds.map (renTyped π σ)) (found.map (renTyped π σ)) (full.map (ren π)) (apx.map (ren π)) =
      ((findLoop n false false false ds found full apx).1.map (renTyped π σ), (findLoop n false false false ds found full apx).2.1.map (ren π),
        (findLoop n false false false ds found full apx).2.2.map (ren π)) := by
  induction ds generalizing found full apx with
  | nil => rfl
  | cons d ds ih =>
    have hm : (renTyped π σ d).match (ren π n) false false false = d.match n false false false :=
      match_ren hi hs false false (fun h => by simp at h) d n false
    have hk : (renTyped π σ d).key (ren π n) = ren π (d.key n) := key_ren hi hs d n
    rw [List.map_cons, findLoop, findLoop, hm]
    cases d.match n false false false with
    | noMatch => exact ih _ _ _
    | fullMatch =>
      have := ih (some d) (full ++ [d.key n]) apx
      rw [List.map_append, List.map_singleton, ← hk] at this
      exact this
    | approximateMatch =>
      have := ih (if full = [] then some d else found) full (apx ++ [d.key n])
      rw [List.map_append, List.map_singleton, ← hk] at this
      dsimp only
      rw [← this]
      congr 1
      have h0 : full.map (ren π) = [] ↔ full = [] := by simp
      simp only [h0]
      split <;> rfl

theorem findOrThrow_typed (hi : ∀ a b, π a = π b → a = b) (hs : π '*' = '*') (n : Str) (ds : List OptionDesc) :
    findOrThrow (ds.map (renTyped π σ)) (ren π n) false false false = renWith π (renTyped π σ) (findOrThrow ds n false false false) := by
  unfold findOrThrow findNothrow
  have h := findLoop_typed (σ := σ) hi hs n ds none [] []
  rw [show findLoop (ren π n) false false false (ds.map (renTyped π σ)) none [] [] = _ from h]
  obtain ⟨found, full, apx⟩ := findLoop n false false false ds none [] []
  dsimp only
  rw [List.length_map, List.length_map]
  have h0 : full.map (ren π) = [] ↔ full = [] := by simp
  simp only [h0]
  by_cases h1 : full.length > 1
  · rw [if_pos h1, if_pos h1]
    rfl
  rw [if_neg h1, if_neg h1]
  by_cases h2 : full = [] ∧ apx.length > 1
  · rw [if_pos h2, if_pos h2]
    rfl
  rw [if_neg h2, if_neg h2]
  cases found <;> rfl

theorem mem_of_findOrThrow {ds : List OptionDesc} {n : Str} {d : OptionDesc} (h : findOrThrow ds n false false false = .ok d) : d ∈ ds := by
  have aux : ∀ (l : List OptionDesc) (found : Option OptionDesc) (full apx : List Str), (∀ x ∈ l, x ∈ ds) → (∀ x, found = some x → x ∈ ds) →
      ∀ x, (findLoop n false false false l found full apx).1 = some x → x ∈ ds := by
    intro l
    induction l with
    | nil => exact fun _ _ _ _ hf => hf
    | cons y l ih =>
      intro found full apx hl hf
      rw [findLoop]
      have hy : ∀ x, some y = some x → x ∈ ds := by
        intro x hx
        injection hx with hx
        rw [← hx]
        exact hl y (List.mem_cons_self)
      split
      · exact ih _ _ _ (fun x hx => hl x (List.mem_cons_of_mem _ hx)) hf
      · exact ih _ _ _ (fun x hx => hl x (List.mem_cons_of_mem _ hx)) hy
      · refine ih _ _ _ (fun x hx => hl x (List.mem_cons_of_mem _ hx)) ?_
        split
        · exact hy
        · exact hf
  unfold findOrThrow findNothrow at h
  have := aux ds none [] [] (fun _ hx => hx) nofun
  generalize findLoop n false false false ds none [] [] = q at h this
  obtain ⟨found, full, apx⟩ := q
  dsimp only at h this
  by_cases h1 : full.length > 1
  · rw [if_pos h1] at h; cases h
  rw [if_neg h1] at h
  by_cases h2 : full = [] ∧ apx.length > 1
  · rw [if_pos h2] at h; cases h
  rw [if_neg h2] at h
  cases found with
  | none => cases h
  | some x =>
    injection h with h
    exact this d (by rw [h])

/-- The values of two maps are the same in other letters. -/
structure SameVals (π : Char → Char) (Q : Any → Any → Prop) (utf8 : Bool) (m m' : SMap VarValue) : Prop where
  value : ∀ n, Option.Rel (SameValue π Q utf8) (m.get? n) (m'.get? (ren π n))
  noValue : ∀ n', (∀ n, n' ≠ ren π n) → m'.get? n' = none

structure SameSet (π : Char → Char) (m m' : SSet) : Prop where
  final : ∀ n, ren π n ∈ m' ↔ n ∈ m
  noFinal : ∀ n', (∀ n, n' ≠ ren π n) → n' ∉ m'

structure SameNeed (π : Char → Char) (m m' : SMap Str) : Prop where
  required : ∀ n, m'.get? (ren π n) = (m.get? n).map (ren π)
  notRequired : ∀ n', (∀ n, n' ≠ ren π n) → m'.get? n' = none

theorem SameVals.set (hi : ∀ a b, π a = π b → a = b) {m m' : SMap VarValue} (H : SameVals π Q utf8 m m') (n : Str) {v v' : VarValue}
    (hv : SameValue π Q utf8 v v') : SameVals π Q utf8 (m.set n v) (m'.set (ren π n) v') := by
  refine ⟨fun k => ?_, fun k hk => ?_⟩
  · rw [SMap.get?_set, SMap.get?_set]
    by_cases h : n = k
    · subst h
      rw [if_pos rfl, if_pos rfl]
      exact .some hv
    · rw [if_neg h, if_neg (fun e => h (ren_inj hi e))]
      exact H.value k
  · rw [SMap.get?_set, if_neg (fun e => hk n e.symm)]
    exact H.noValue k hk

theorem SameSet.insert (hi : ∀ a b, π a = π b → a = b) {m m' : SSet} (H : SameSet π m m') (n : Str) : SameSet π (m.insert n) (m'.insert (ren π n)) := by
  refine ⟨fun k => ?_, fun k hk => ?_⟩
  · rw [SSet.mem_insert, SSet.mem_insert, H.final, ren_eq_iff hi]
  · rw [SSet.mem_insert]
    rintro (h | h)
    · exact hk n h
    · exact H.noFinal k hk h

theorem SameNeed.set (hi : ∀ a b, π a = π b → a = b) {m m' : SMap Str} (H : SameNeed π m m') (n v : Str) :
    SameNeed π (m.set n v) (m'.set (ren π n) (ren π v)) := by
  refine ⟨fun k => ?_, fun k hk => ?_⟩
  · rw [SMap.get?_set, SMap.get?_set]
    by_cases h : n = k
    · subst h
      rw [if_pos rfl, if_pos rfl]
      rfl
    · rw [if_neg h, if_neg (fun e => h (ren_inj hi e))]
      exact H.required k
  · rw [SMap.get?_set, if_neg (fun e => hk n e.symm)]
    exact H.notRequired k hk

theorem SameVals.getD {m m' : SMap VarValue} (hn : Q none none) (H : SameVals π Q utf8 m m') (n : Str) :
    SameValue π Q utf8 ((m.get? n).getD {}) ((m'.get? (ren π n)).getD {}) := by
  have := H.value n
  generalize m.get? n = a at this
  generalize m'.get? (ren π n) = b at this
  cases this with
  | none => exact ⟨hn, rfl, .none⟩
  | some h => exact h

variable {desc : List OptionDesc} {pre : Nat}

set_option linter.auxLemma false in
theorem storeOne_ren (hi : ∀ a b, π a = π b → a = b) (hs : π '*' = '*') (hn : Q none none)
    (hr : ∀ d ∈ desc, SameReading π Q utf8 d.semantic (σ d.semantic)) {final final' : SSet} (hf : SameSet π final final')
    {m m' : SMap VarValue} (hm : SameVals π Q utf8 m m') {nf nf' : SSet} (hnf : SameSet π nf nf') (o : Opt) :
    SameVals π Q utf8 (storeOne desc pre utf8 final m nf o).1.1 (storeOne (desc.map (renTyped π σ)) pre utf8 final' m' nf' (renOpt π o)).1.1 ∧
    SameSet π (storeOne desc pre utf8 final m nf o).1.2 (storeOne (desc.map (renTyped π σ)) pre utf8 final' m' nf' (renOpt π o)).1.2 ∧
    (storeOne (desc.map (renTyped π σ)) pre utf8 final' m' nf' (renOpt π o)).2 = (storeOne desc pre utf8 final m nf o).2.map (renFail π) := by
  unfold storeOne
  have e1 : (renOpt π o).stringKey = ren π o.stringKey := rfl
  have e2 : (renOpt π o).unregistered = o.unregistered := rfl
  have e3 : (renOpt π o).value = o.value.map (ren π) := rfl
  have e4 : storeOne.match_1 (fun _ => Str) (renOpt π o).originalTokens (fun t _ => t) (fun _ => []) =
      ren π (storeOne.match_1 (fun _ => Str) o.originalTokens (fun t _ => t) (fun _ => [])) := by
    rw [show (renOpt π o).originalTokens = o.originalTokens.map (ren π) from rfl]
    cases o.originalTokens <;> rfl
  dsimp only
  rw [e1, e2, e3, e4]
  generalize storeOne.match_1 (fun _ => Str) o.originalTokens (fun t _ => t) (fun _ => []) = tok
  have h0 : ren π o.stringKey = [] ↔ o.stringKey = [] := by simp
  by_cases h1 : o.stringKey = []
  · rw [if_pos h1, if_pos (h0.2 h1)]
    exact ⟨hm, hnf, rfl⟩
  rw [if_neg h1, if_neg (fun e => h1 (h0.1 e))]
  by_cases h2 : o.unregistered = true
  · rw [if_pos h2, if_pos h2]
    exact ⟨hm, hnf, rfl⟩
  rw [if_neg h2, if_neg h2]
  have hfin : final'.has (ren π o.stringKey) = final.has o.stringKey := by
    rw [Bool.eq_iff_iff, SSet.has_iff, SSet.has_iff]
    exact hf.final _
  rw [hfin]
  by_cases h3 : final.has o.stringKey = true
  · rw [if_pos h3, if_pos h3]
    exact ⟨hm, hnf, rfl⟩
  rw [if_neg h3, if_neg h3, findOrThrow_typed hi hs]
  cases hfind : findOrThrow desc o.stringKey false false false with
  | error f =>
    refine ⟨hm, hnf, ?_⟩
    exact congrArg some (addContext_ren f o.stringKey tok pre)
  | ok d =>
    have R := hr d (mem_of_findOrThrow hfind)
    dsimp only [renWith]
    have hv0 := hm.getD hn o.stringKey
    generalize (m.get? o.stringKey).getD {} = v0 at hv0
    generalize (m'.get? (ren π o.stringKey)).getD {} = v0' at hv0
    have hv : SameValue π Q utf8 (if v0.defaulted = true then {} else v0) (if v0'.defaulted = true then {} else v0') := by
      rw [hv0.defaulted]
      split
      · exact ⟨hn, rfl, .none⟩
      · exact hv0
    generalize (if v0.defaulted = true then ({} : VarValue) else v0) = v at hv
    generalize (if v0'.defaulted = true then ({} : VarValue) else v0') = v' at hv
    have p1 := R.value v.v v'.v o.value hv.value
    have p2 := R.refusal v.v v'.v o.value hv.value
    rw [show (renTyped π σ d).semantic = σ d.semantic from rfl]
    generalize hq : d.semantic.parse v.v o.value utf8 = q at p1 p2
    generalize hq' : (σ d.semantic).parse v'.v (o.value.map (ren π)) utf8 = q' at p1 p2
    obtain ⟨a, f⟩ := q
    obtain ⟨a', f'⟩ := q'
    dsimp only at p1 p2
    rw [p2]
    cases f with
    | some f =>
      refine ⟨hm.set hi _ ⟨p1, hv.defaulted, hv.semantic⟩, hnf, ?_⟩
      exact congrArg some (addContext_ren f o.stringKey tok pre)
    | none =>
      refine ⟨hm.set hi _ ⟨p1, hv.defaulted, .some R⟩, ?_, rfl⟩
      dsimp only [Option.map]
      rw [R.composing]
      split
      · exact hnf
      · exact hnf.insert hi _

theorem storeLoop_ren (hi : ∀ a b, π a = π b → a = b) (hs : π '*' = '*') (hn : Q none none)
    (hr : ∀ d ∈ desc, SameReading π Q utf8 d.semantic (σ d.semantic)) {final final' : SSet} (hf : SameSet π final final') (os : List Opt)
    {m m' : SMap VarValue} (hm : SameVals π Q utf8 m m') {nf nf' : SSet} (hnf : SameSet π nf nf') :
    SameVals π Q utf8 (storeLoop desc pre utf8 final os m nf).1.1 (storeLoop (desc.map (renTyped π σ)) pre utf8 final' (os.map (renOpt π)) m' nf').1.1 ∧
    SameSet π (storeLoop desc pre utf8 final os m nf).1.2 (storeLoop (desc.map (renTyped π σ)) pre utf8 final' (os.map (renOpt π)) m' nf').1.2 ∧
    (storeLoop (desc.map (renTyped π σ)) pre utf8 final' (os.map (renOpt π)) m' nf').2 = (storeLoop desc pre utf8 final os m nf).2.map (renFail π) := by
  induction os generalizing m m' nf nf' with
  | nil => exact ⟨hm, hnf, rfl⟩
  | cons o os ih =>
    have h := storeOne_ren (pre := pre) hi hs hn hr hf hm hnf o
    rw [List.map_cons, storeLoop, storeLoop]
    generalize storeOne desc pre utf8 final m nf o = q at h
    generalize storeOne (desc.map (renTyped π σ)) pre utf8 final' m' nf' (renOpt π o) = q' at h
    obtain ⟨⟨a, b⟩, f⟩ := q
    obtain ⟨⟨a', b'⟩, f'⟩ := q'
    obtain ⟨h1, h2, h3⟩ := h
    dsimp only at h1 h2 h3
    rw [h3]
    cases f with
    | some f => exact ⟨h1, h2, rfl⟩
    | none => exact ih h1 h2

theorem displayName_ren (hd : π '-' = '-') (hl : π '/' = '/') (d : OptionDesc) :
    (renTyped π σ d).canonicalDisplayName pre = ren π (d.canonicalDisplayName pre) := by
  have short : ∀ (s k k' : Str), k' = ren π k →
      (match s.map π with
        | [_, c] => if pre = Style.allowSlashForShort then ['/', c] else if pre = Style.allowDashForShort then ['-', c] else k'
        | _ => k') =
      ren π (match s with
        | [_, c] => if pre = Style.allowSlashForShort then ['/', c] else if pre = Style.allowDashForShort then ['-', c] else k
        | _ => k) := by
    rintro s k _ rfl
    match s with
    | [] => rfl
    | [a] => rfl
    | [a, b] =>
      dsimp only [List.map]
      split
      · show ['/', π b] = [π '/', π b]
        rw [hl]
      · split
        · show ['-', π b] = [π '-', π b]
          rw [hd]
        · rfl
    | a :: b :: c :: s => rfl
  unfold OptionDesc.canonicalDisplayName renTyped renOption
  dsimp only
  cases d.longNames with
  | nil => exact short _ _ _ rfl
  | cons n ns =>
    rw [show (n :: ns).map (ren π) = ren π n :: ns.map (ren π) from rfl]
    dsimp only
    by_cases h1 : pre = Style.allowLong
    · rw [if_pos h1, if_pos h1]
      show '-' :: '-' :: ren π n = π '-' :: π '-' :: ren π n
      rw [hd]
    rw [if_neg h1, if_neg h1]
    by_cases h2 : pre = Style.allowLongDisguise
    · rw [if_pos h2, if_pos h2]
      show '-' :: ren π n = π '-' :: ren π n
      rw [hd]
    rw [if_neg h2, if_neg h2]
    exact short _ _ _ rfl

theorem applyOne_ren (hi : ∀ a b, π a = π b → a = b) (hs : π '*' = '*') (hd : π '-' = '-') (hl : π '/' = '/') {d : OptionDesc}
    (R : SameReading π Q utf8 d.semantic (σ d.semantic)) {m m' : SMap VarValue} (hm : SameVals π Q utf8 m m') {req req' : SMap Str}
    (hq : SameNeed π req req') :
    SameVals π Q utf8 (applyOne pre m req d).1 (applyOne pre m' req' (renTyped π σ d)).1 ∧
    SameNeed π (applyOne pre m req d).2 (applyOne pre m' req' (renTyped π σ d)).2 := by
  unfold applyOne
  dsimp only
  have hk : (renTyped π σ d).key [] = ren π (d.key []) := key_ren hi hs d []
  rw [hk, displayName_ren hd hl, show (renTyped π σ d).semantic = σ d.semantic from rfl, R.required]
  have h0 : ren π (d.key []) = [] ↔ d.key [] = [] := by simp
  generalize d.key [] = k at h0
  by_cases h1 : k = []
  · rw [if_pos h1, if_pos (h0.2 h1)]
    exact ⟨hm, hq⟩
  rw [if_neg h1, if_neg (fun e => h1 (h0.1 e))]
  constructor
  · have hh : SMap.has m' (ren π k) = SMap.has m k := by
      unfold SMap.has
      have := hm.value k
      generalize m.get? k = a at this
      generalize m'.get? (ren π k) = b at this
      cases this <;> rfl
    dsimp only
    rw [hh]
    split
    · exact hm
    · have := R.default
      generalize d.semantic.applyDefault = a at this
      generalize (σ d.semantic).applyDefault = b at this
      cases this with
      | none => exact hm
      | some h => exact hm.set hi _ ⟨h, rfl, .some R⟩
  · dsimp only
    split
    · have e : (req'.get? (ren π k)).getD [] = ren π ((req.get? k).getD []) := by
        rw [hq.required]
        cases req.get? k <;> rfl
      rw [e, List.length_map, List.length_map]
      split
      · exact hq.set hi _ _
      · exact hq.set hi _ _
    · exact hq

theorem applyAll_ren (hi : ∀ a b, π a = π b → a = b) (hs : π '*' = '*') (hd : π '-' = '-') (hl : π '/' = '/') (ds : List OptionDesc)
    (hr : ∀ d ∈ ds, SameReading π Q utf8 d.semantic (σ d.semantic)) {m m' : SMap VarValue} (hm : SameVals π Q utf8 m m') {req req' : SMap Str}
    (hq : SameNeed π req req') :
    SameVals π Q utf8 (applyAll pre ds m req).1 (applyAll pre (ds.map (renTyped π σ)) m' req').1 ∧
    SameNeed π (applyAll pre ds m req).2 (applyAll pre (ds.map (renTyped π σ)) m' req').2 := by
  induction ds generalizing m m' req req' with
  | nil => exact ⟨hm, hq⟩
  | cons d ds ih =>
    have h := applyOne_ren (pre := pre) hi hs hd hl (hr d (List.mem_cons_self)) hm hq
    exact ih (fun x hx => hr x (List.mem_cons_of_mem _ hx)) h.1 h.2

theorem mem_both {nf nf' : SSet} {m m' : SSet} (h : SameSet π m m') (g : SameSet π nf nf') : SameSet π (m.insertAll nf) (m'.insertAll nf') := by
  refine ⟨fun n => ?_, fun n hn => ?_⟩
  · rw [SSet.mem_insertAll, SSet.mem_insertAll, h.final, g.final]
  · rw [SSet.mem_insertAll]
    rintro (e | e)
    · exact h.noFinal n hn e
    · exact g.noFinal n hn e

end Letters

open Letters

/-- A description, options and a map written in other letters: the store leaves the same map, or map and exception, in these letters, if the
value semantics do the same in other letters. -/
theorem C154_store (π : Char → Char) (hi : ∀ a b, π a = π b → a = b) (hs : π '*' = '*') (hd : π '-' = '-') (hl : π '/' = '/')
    (Q : Any → Any → Prop) (hn : Q none none) (utf8 : Bool) (σ : ValueSemantic → ValueSemantic) (p p' : Parsed)
    (hr : ∀ d ∈ p.desc, SameReading π Q utf8 d.semantic (σ d.semantic)) (hdesc : p'.desc = p.desc.map (renTyped π σ))
    (hopts : p'.options = p.options.map (renOpt π)) (hpre : p'.pre = p.pre) (xm xm' : VarMap) (H : SameMap π Q utf8 xm xm') :
    SameMap π Q utf8 (store p xm utf8).1 (store p' xm' utf8).1 ∧ (store p' xm' utf8).2 = (store p xm utf8).2.map (renFail π) := by
  have h := storeLoop_ren (desc := p.desc) (pre := p.pre) (σ := σ) hi hs hn hr ⟨H.final, H.noFinal⟩ p.options ⟨H.value, H.noValue⟩
    (nf := []) (nf' := []) ⟨fun n => by simp, fun n _ => by simp⟩
  unfold store
  rw [hdesc, hopts, hpre]
  generalize storeLoop p.desc p.pre utf8 xm.final p.options xm.map [] = q at h
  generalize storeLoop (p.desc.map (renTyped π σ)) p.pre utf8 xm'.final (p.options.map (renOpt π)) xm'.map [] = q' at h
  obtain ⟨⟨a, b⟩, f⟩ := q
  obtain ⟨⟨a', b'⟩, f'⟩ := q'
  obtain ⟨h1, h2, h3⟩ := h
  dsimp only at h1 h2 h3
  rw [h3]
  cases f with
  | some f => exact ⟨⟨h1.value, h1.noValue, H.final, H.noFinal, H.required, H.notRequired⟩, rfl⟩
  | none =>
    have g := applyAll_ren (pre := p.pre) (σ := σ) hi hs hd hl p.desc hr h1 (req := xm.required) (req' := xm'.required) ⟨H.required, H.notRequired⟩
    have k := mem_both (π := π) ⟨H.final, H.noFinal⟩ h2
    exact ⟨⟨g.1.value, g.1.noValue, k.final, k.noFinal, g.2.required, g.2.notRequired⟩, rfl⟩

namespace Letters

/-- Types made of strings. -/
def Stringy (t : VType) : Prop := t = .scalar .str ∨ t = .vector .str ∨ t = .optional .str

theorem validateScalar_ren (env : Env) (xs : List Str) :
    validateScalar env .str (xs.map (ren π)) = renWith π (renScalar π) (validateScalar env .str xs) := by
  match xs with
  | [] => rfl
  | [x] => rfl
  | x :: y :: xs => rfl

theorem validateVecLoop_ren (env : Env) (acc : List SVal) (xs : List Str) :
    validateVecLoop (validateScalar env .str) .str (acc.map (renScalar π)) (xs.map (ren π)) =
      ((validateVecLoop (validateScalar env .str) .str acc xs).1.map (renScalar π), (validateVecLoop (validateScalar env .str) .str acc xs).2.map (renFail π)) := by
  induction xs generalizing acc with
  | nil => rfl
  | cons x xs ih =>
    have := ih (acc ++ [.str x])
    rw [List.map_append] at this
    exact this

theorem validate_ren (env : Env) (t : VType) (ht : Stringy t) (a : Any) (xs : List Str) :
    validate (validateScalar env) t (renAny π a) (xs.map (ren π)) =
      (renAny π (validate (validateScalar env) t a xs).1, (validate (validateScalar env) t a xs).2.map (renFail π)) := by
  rcases ht with rfl | rfl | rfl
  · match a with
    | some (.scalar v) => rfl
    | some (.vector t v) => rfl
    | some (.optional t v) => rfl
    | none =>
      match xs with
      | [] => rfl
      | [x] => rfl
      | x :: y :: xs => rfl
  · match a with
    | some (.scalar v) => rfl
    | some (.optional t v) => rfl
    | none =>
      have := validateVecLoop_ren (π := π) env [] xs
      unfold validate renAny
      dsimp only
      rw [show validateVecLoop (validateScalar env .str) .str [] (xs.map (ren π)) = _ from this]
    | some (.vector t v) =>
      have := validateVecLoop_ren (π := π) env v xs
      unfold validate renAny
      dsimp only
      by_cases h : t = .str
      · rw [if_pos h, if_pos h, this]
      · rw [if_neg h, if_neg h]
        rfl
  · match a with
    | some (.scalar v) => rfl
    | some (.vector t v) => rfl
    | some (.optional t v) => rfl
    | none =>
      match xs with
      | [] => rfl
      | [x] => rfl
      | x :: y :: xs => rfl

end Letters

/-- Options of strings, of lists of strings and of optional strings do the same in other letters: their values are the strings in other
letters. -/
theorem C154_strings (π : Char → Char) (env : Env) (t : TypedValue) (ht : Stringy t.type) (hw : t.wide = false) (hd : t.dflt = none)
    (him : t.implicit = none) : SameReading π (fun a a' => a' = renAny π a) false (t.toSemantic env) (t.toSemantic env) := by
  have key : ∀ a (vs : List Str), t.parse env a vs false = validate (validateScalar env) t.type a vs := by
    intro a vs
    unfold TypedValue.parse TypedValue.xparse
    rw [hw, him]
    cases vs <;> rfl
  have hty : ∀ v v', renAny π (some v) = some v' → v'.type = v.type := by
    intro v v' h
    cases v <;> cases h
    · exact congrArg VType.scalar (by rename_i v; cases v <;> rfl)
    · rfl
    · rfl
  refine ⟨rfl, rfl, ?_, ?_, ?_, ?_, ?_⟩
  · rintro a _ vs rfl
    show (t.parse env _ _ false).1 = renAny π (t.parse env _ _ false).1
    rw [key, key, validate_ren env _ ht]
  · rintro a _ vs rfl
    show (t.parse env _ _ false).2 = (t.parse env _ _ false).2.map _
    rw [key, key, validate_ren env _ ht]
  · show Option.Rel _ (t.dflt.map _) (t.dflt.map _)
    rw [hd]
    exact .none
  · rintro a _ rfl
    show List.Forall₂ _ (t.notify a).1 (t.notify (renAny π a)).1
    unfold TypedValue.notify
    split
    · exact .nil
    · cases a with
      | none => exact .nil
      | some v =>
        obtain ⟨v', hv⟩ : ∃ v', renAny π (some v) = some v' := by cases v <;> exact ⟨_, rfl⟩
        rw [hv]
        dsimp only
        rw [hty v v' hv]
        split
        · refine List.rel_append ?_ ?_
          · cases t.storeTo with
            | none => exact .nil
            | some x => exact .cons (.assign x hv.symm) .nil
          · cases t.notifier with
            | none => exact .nil
            | some x => exact .cons (.callback x hv.symm) .nil
        · exact .nil
  · rintro a _ rfl
    show (t.notify (renAny π a)).2 = (t.notify a).2.map _
    unfold TypedValue.notify
    split
    · rfl
    · cases a with
      | none => rfl
      | some v =>
        obtain ⟨v', hv⟩ : ∃ v', renAny π (some v) = some v' := by cases v <;> exact ⟨_, rfl⟩
        rw [hv]
        dsimp only
        rw [hty v v' hv]
        split <;> rfl

/-- `bar=ab` and `cab=b` are stored as `abr=ba` and `cba=a` are, with `a` and `b` swapped. -/
example : let desc := [Test.od "bar" (Test.sem Test.vstr), Test.od "cab" (Test.sem Test.vvec)]
    let desc' := [Test.od "abr" (Test.sem Test.vstr), Test.od "cba" (Test.sem Test.vvec)]
    let p : Parsed := { desc, options := [{ stringKey := Test.L "bar", value := [Test.L "ab"] }, { stringKey := Test.L "cab", value := [Test.L "b"] }] }
    let p' : Parsed := { desc := desc', options := [{ stringKey := Test.L "abr", value := [Test.L "ba"] }, { stringKey := Test.L "cba", value := [Test.L "a"] }] }
    SameMap swapped (fun a a' => a' = renAny swapped a) false (store p {}).1 (store p' {}).1 ∧
    (((store p {}).1.map.get? (Test.L "bar")).map (·.v)) = some (some (.scalar (.str (Test.L "ab")))) ∧
    (((store p' {}).1.map.get? (Test.L "abr")).map (·.v)) = some (some (.scalar (.str (Test.L "ba")))) := by
  intro desc desc' p p'
  refine ⟨(C154_store swapped ?_ (by decide) (by decide) (by decide) (fun a a' => a' = renAny swapped a) rfl false id p p' ?_ rfl rfl rfl {} {} ?_).1, rfl, rfl⟩
  · intro a b h
    have := congrArg swapped h
    rwa [swapped_swapped, swapped_swapped] at this
  · intro d hd
    simp only [p, desc, List.mem_cons, List.not_mem_nil, or_false] at hd
    rcases hd with rfl | rfl
    · exact C154_strings swapped Test.env Test.vstr (.inl rfl) rfl rfl rfl
    · exact C154_strings swapped Test.env Test.vvec (.inr (.inl rfl)) rfl rfl rfl
  · exact ⟨fun n => .none, fun _ _ => rfl, fun n => by simp, fun _ _ => by simp, fun n => rfl, fun _ _ => rfl⟩

end PO
