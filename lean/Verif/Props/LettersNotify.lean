import Verif.Spec.LettersNotify
import Verif.Props.LettersStore
import Verif.Props.StoreGrammar
import Mathlib.Data.List.Sort
/-
No letter is special to `notify`, except for their order.
-/
namespace PO
open Spec
namespace Letters
variable {π : Char → Char} {Q : Any → Any → Prop} {utf8 : Bool}

/-- One entry of the one map and one of the other. -/
def Entry (π : Char → Char) {α β : Type} (R : α → β → Prop) (e : Str × α) (e' : Str × β) : Prop := e'.1 = ren π e.1 ∧ R e.2 e'.2

theorem keys_nodup {α : Type} {m : SMap α} (h : m.Sorted) : (m.map (·.1)).Nodup := by
  rw [List.Nodup, List.pairwise_map]
  exact List.Pairwise.imp (fun h => strLt_ne h) h

/-- The entries of the second map are those of the first, in another order. -/
theorem entries {α β : Type} {R : α → β → Prop} (hi : ∀ a b, π a = π b → a = b) {m : SMap α} {m' : SMap β} (hm : m.Sorted) (hm' : m'.Sorted)
    (h : ∀ n, Option.Rel R (m.get? n) (m'.get? (ren π n))) (hno : ∀ n', (∀ n, n' ≠ ren π n) → m'.get? n' = none) :
    ∃ l, l.Perm m ∧ List.Forall₂ (Entry π R) l m' := by
  have hex : ∀ e' ∈ m', ∃ e ∈ m, Entry π R e e' := by
    rintro ⟨k, v'⟩ he
    have hg := (SMap.get?_eq_some hm' k v').2 he
    by_cases hk : ∃ n, k = ren π n
    · obtain ⟨n, rfl⟩ := hk
      have := h n
      rw [hg] at this
      cases hv : m.get? n with
      | none => rw [hv] at this; cases this
      | some v =>
        rw [hv] at this
        cases this with
        | some hr => exact ⟨(n, v), (SMap.get?_eq_some hm n v).1 hv, rfl, hr⟩
    · rw [hno k fun n hn => hk ⟨n, hn⟩] at hg
      cases hg
  obtain ⟨l, hl, hf⟩ : ∃ l, (∀ e ∈ l, e ∈ m) ∧ List.Forall₂ (Entry π R) l m' := by
    clear hm' h hno
    induction m' with
    | nil => exact ⟨[], by simp, .nil⟩
    | cons e' m' ih =>
      obtain ⟨e, he, hr⟩ := hex e' (.head _)
      obtain ⟨l, h1, h2⟩ := ih fun x hx => hex x (.tail _ hx)
      exact ⟨e :: l, fun x hx => (List.mem_cons.1 hx).elim (fun h => h ▸ he) (h1 x), .cons hr h2⟩
  have hkeys : (l.map fun e => ren π e.1) = m'.map (·.1) := by
    clear hl hex hno h hm'
    induction hf with
    | nil => rfl
    | cons h _ ih => rw [List.map_cons, List.map_cons, ih, h.1]
  refine ⟨l, ?_, hf⟩
  have hn : l.Nodup := List.Nodup.of_map (fun e => ren π e.1) (by rw [hkeys]; exact keys_nodup hm')
  have hn' : m.Nodup := List.Nodup.of_map _ (keys_nodup hm)
  rw [List.perm_ext_iff_of_nodup hn hn']
  refine fun e => ⟨hl e, fun he => ?_⟩
  have hk : ren π e.1 ∈ l.map fun e => ren π e.1 := by
    rw [hkeys, ← SMap.get?_isSome]
    have := h e.1
    rw [(SMap.get?_eq_some hm e.1 e.2).2 he] at this
    cases hv : m'.get? (ren π e.1) with
    | none => rw [hv] at this; cases this
    | some v => rfl
  obtain ⟨x, hx, hxe⟩ := List.mem_map.1 hk
  have hx1 : x.1 = e.1 := ren_inj hi hxe
  have h1 := (SMap.get?_eq_some hm x.1 x.2).2 (hl x hx)
  have h2 := (SMap.get?_eq_some hm e.1 e.2).2 he
  rw [hx1, h2] at h1
  have : x = e := Prod.ext hx1 (Option.some.inj h1).symm
  rwa [← this]

theorem ren_lt (ho : KeepsOrder π) {a b : Str} (h : strLt a b = true) : strLt (ren π a) (ren π b) = true := by
  induction a generalizing b with
  | nil =>
    cases b with
    | nil => cases h
    | cons b bs => rfl
  | cons a as ih =>
    cases b with
    | nil => cases h
    | cons b bs =>
      unfold strLt at h
      simp only [ren, List.map_cons]
      unfold strLt
      by_cases h1 : a.toNat < b.toNat
      · rw [if_pos (ho a b h1)]
      · rw [if_neg h1] at h
        by_cases h2 : b.toNat < a.toNat
        · rw [if_pos h2] at h; cases h
        · rw [if_neg h2] at h
          have : a = b := char_eq_of_toNat (by omega)
          subst this
          rw [if_neg (Nat.lt_irrefl _), if_neg (Nat.lt_irrefl _)]
          exact ih h

theorem keeps_inj (ho : KeepsOrder π) : ∀ a b, π a = π b → a = b := by
  intro a b h
  by_contra hab
  rcases Nat.lt_trichotomy a.toNat b.toNat with h1 | h1 | h1
  · have := ho a b h1; rw [h] at this; exact Nat.lt_irrefl _ this
  · exact hab (char_eq_of_toNat h1)
  · have := ho b a h1; rw [h] at this; exact Nat.lt_irrefl _ this

theorem mem_right {α β : Type} {R : α → β → Prop} {l : List α} {l' : List β} (h : List.Forall₂ R l l') {x : α} (hx : x ∈ l) : ∃ y ∈ l', R x y := by
  induction h with
  | nil => cases hx
  | cons h _ ih =>
    rcases List.mem_cons.1 hx with rfl | hx
    · exact ⟨_, .head _, h⟩
    · obtain ⟨y, hy, hr⟩ := ih hx
      exact ⟨y, .tail _ hy, hr⟩

/-- If the letters stay in their order, the entries do. -/
theorem entries_order {α β : Type} {R : α → β → Prop} (ho : KeepsOrder π) {m : SMap α} {m' : SMap β} (hm : m.Sorted) (hm' : m'.Sorted)
    (h : ∀ n, Option.Rel R (m.get? n) (m'.get? (ren π n))) (hno : ∀ n', (∀ n, n' ≠ ren π n) → m'.get? n' = none) :
    List.Forall₂ (Entry π R) m m' := by
  obtain ⟨l, hp, hf⟩ := entries (keeps_inj ho) hm hm' h hno
  have hs : SMap.Sorted l := by
    clear hp h hno
    induction hf with
    | nil => exact List.Pairwise.nil
    | @cons e e' l m' he hf ih =>
      unfold SMap.Sorted at hm' ⊢
      rw [List.pairwise_cons] at hm' ⊢
      refine ⟨fun x hx => ?_, ih hm'.2⟩
      obtain ⟨x', hx', hr⟩ := mem_right hf hx
      have h1 := hm'.1 x' hx'
      rw [he.1, hr.1] at h1
      by_contra hlt
      rw [Bool.not_eq_true] at hlt
      by_cases h2 : strLt x.1 e.1 = true
      · rw [strLt_asymm (ren_lt ho h2)] at h1
        cases h1
      · rw [Bool.not_eq_true] at h2
        rw [strLt_connex hlt h2, strLt_irrefl] at h1
        cases h1
  have : l = m := hp.eq_of_pairwise (le := fun a b => strLt a.1 b.1 = true) (by
    intro a b _ _ h1 h2
    rw [strLt_asymm h1] at h2
    cases h2) hs hm
  rwa [← this]

/-- What is passed on for an entry. -/
def passed (v : VarValue) : List Event × Option Fail :=
  match v.semantic with
  | none => ([], none)
  | some s => s.notify v.v

theorem loop_cons (e : Str × VarValue) (m : SMap VarValue) : VarMap.notifyLoop (e :: m) =
    match (passed e.2).2 with
    | some f => ((passed e.2).1, some f)
    | none => ((passed e.2).1 ++ (VarMap.notifyLoop m).1, (VarMap.notifyLoop m).2) := by
  obtain ⟨k, v⟩ := e
  unfold passed
  conv => lhs; unfold VarMap.notifyLoop
  cases v.semantic with
  | none => rfl
  | some s =>
    dsimp only
    rcases s.notify v.v with ⟨es, _ | f⟩ <;> rfl

theorem loop_ok {m : SMap VarValue} (h : ∀ e ∈ m, (passed e.2).2 = none) : VarMap.notifyLoop m = (m.flatMap fun e => (passed e.2).1, none) := by
  induction m with
  | nil => rfl
  | cons e m ih => rw [loop_cons, h e (.head _), ih fun x hx => h x (.tail _ hx)]; rfl

theorem loop_fails {m : SMap VarValue} (h : ∃ e ∈ m, (passed e.2).2 ≠ none) : ∃ e ∈ m, ∃ f, (passed e.2).2 = some f ∧ (VarMap.notifyLoop m).2 = some f := by
  induction m with
  | nil => obtain ⟨e, he, -⟩ := h; cases he
  | cons x m ih =>
    rw [loop_cons]
    cases hx : (passed x.2).2 with
    | some f => exact ⟨x, .head _, f, hx, rfl⟩
    | none =>
      obtain ⟨e, he, hne⟩ := h
      rcases List.mem_cons.1 he with rfl | he
      · exact absurd hx hne
      · obtain ⟨e, he, f, h1, h2⟩ := ih ⟨e, he, hne⟩
        exact ⟨e, .tail _ he, f, h1, h2⟩

theorem passed_same {v v' : VarValue} (h : SameValue π Q utf8 v v') :
    List.Forall₂ (SameEvent Q) (passed v).1 (passed v').1 ∧ (passed v').2 = (passed v).2.map (renFail π) := by
  obtain ⟨hv, -, hs⟩ := h
  unfold passed
  cases h1 : v.semantic with
  | none =>
    rw [h1] at hs
    cases h2 : v'.semantic with
    | none => exact ⟨.nil, rfl⟩
    | some s => rw [h2] at hs; cases hs
  | some s =>
    rw [h1] at hs
    cases h2 : v'.semantic with
    | none => rw [h2] at hs; cases hs
    | some s' =>
      rw [h2] at hs
      cases hs with
      | some h => exact ⟨h.told _ _ hv, h.untold _ _ hv⟩

theorem loop_same {l m' : SMap VarValue} (h : List.Forall₂ (Entry π (SameValue π Q utf8)) l m') :
    List.Forall₂ (SameEvent Q) (VarMap.notifyLoop l).1 (VarMap.notifyLoop m').1 ∧ (VarMap.notifyLoop m').2 = (VarMap.notifyLoop l).2.map (renFail π) := by
  induction h with
  | nil => exact ⟨.nil, rfl⟩
  | cons he _ ih =>
    obtain ⟨h1, h2⟩ := passed_same he.2
    rw [loop_cons, loop_cons, h2]
    rename_i e e' _ _ _
    cases (passed e.2).2 with
    | some f => exact ⟨h1, rfl⟩
    | none => exact ⟨List.rel_append h1 ih.1, ih.2⟩

def Lacks (m : SMap VarValue) (n : Str) : Prop := ∀ v, m.get? n = some v → v.v = none

theorem lacks_iff (m : VarMap) (n : Str) : Lacks m.map n ↔ (m.get n).v = none := by
  unfold Lacks VarMap.get
  cases m.map.get? n with
  | none => simp
  | some v => simp

theorem missing_cons (m : SMap VarValue) (e : Str × Str) (req : SMap Str) :
    (Lacks m e.1 → VarMap.missingRequired m (e :: req) = some e.2) ∧ (¬ Lacks m e.1 → VarMap.missingRequired m (e :: req) = VarMap.missingRequired m req) := by
  obtain ⟨k, d⟩ := e
  unfold Lacks
  conv => rw [VarMap.missingRequired]
  cases m.get? k with
  | none => simp
  | some v =>
    simp only [VarValue.empty, Option.isNone_iff_eq_none, Option.some.injEq, forall_eq']
    constructor <;> intro h <;> simp [h]

theorem missing_none {m : SMap VarValue} {req : SMap Str} (h : ∀ e ∈ req, ¬ Lacks m e.1) : VarMap.missingRequired m req = none := by
  induction req with
  | nil => rfl
  | cons e req ih => rw [(missing_cons m e req).2 (h e (.head _)), ih fun x hx => h x (.tail _ hx)]

theorem missing_some {m : SMap VarValue} {req : SMap Str} (h : ∃ e ∈ req, Lacks m e.1) : ∃ e ∈ req, Lacks m e.1 ∧ VarMap.missingRequired m req = some e.2 := by
  induction req with
  | nil => obtain ⟨e, he, -⟩ := h; cases he
  | cons x req ih =>
    by_cases hx : Lacks m x.1
    · exact ⟨x, .head _, hx, (missing_cons m x req).1 hx⟩
    · obtain ⟨e, he, hl⟩ := h
      rcases List.mem_cons.1 he with rfl | he
      · exact absurd hl hx
      · rw [(missing_cons m x req).2 hx]
        obtain ⟨e, he, h⟩ := ih ⟨e, he, hl⟩
        exact ⟨e, .tail _ he, h⟩

theorem missing_same {m m' : SMap VarValue} {req req' : SMap Str} (hl : ∀ n, Lacks m' (ren π n) ↔ Lacks m n)
    (h : List.Forall₂ (Entry π fun d d' => d' = ren π d) req req') : VarMap.missingRequired m' req' = (VarMap.missingRequired m req).map (ren π) := by
  induction h with
  | nil => rfl
  | @cons e e' req req' he _ ih =>
    by_cases hx : Lacks m e.1
    · rw [(missing_cons m e req).1 hx, (missing_cons m' e' req').1 (by rw [he.1, hl]; exact hx), he.2]
      rfl
    · rw [(missing_cons m e req).2 hx, (missing_cons m' e' req').2 (by rw [he.1, hl]; exact hx), ih]

theorem lacks_same (hQ : ∀ a a', Q a a' → (a' = none ↔ a = none)) {m m' : VarMap} (H : SameMap π Q utf8 m m') (n : Str) :
    Lacks m'.map (ren π n) ↔ Lacks m.map n := by
  have := H.value n
  unfold Lacks
  cases h : m.map.get? n with
  | none =>
    rw [h] at this
    cases h' : m'.map.get? (ren π n) with
    | none => simp
    | some v => rw [h'] at this; cases this
  | some v =>
    rw [h] at this
    cases h' : m'.map.get? (ren π n) with
    | none => rw [h'] at this; cases this
    | some v' =>
      rw [h'] at this
      cases this with
      | some hv => simpa using hQ _ _ hv.value

theorem required_ren (d : Str) : renFail π (errRequired d) = errRequired (ren π d) := rfl

theorem required_rel {m m' : VarMap} (H : SameMap π Q utf8 m m') (n : Str) :
    Option.Rel (fun d d' => d' = ren π d) (m.required.get? n) (m'.required.get? (ren π n)) := by
  rw [H.required]
  cases m.required.get? n with
  | none => exact .none
  | some d => exact .some rfl

theorem passed_semantic {v : VarValue} {f : Fail} (h : (passed v).2 = some f) : ∃ s, v.semantic = some s ∧ (s.notify v.v).2 = some f := by
  unfold passed at h
  cases hs : v.semantic with
  | none => rw [hs] at h; cases h
  | some s => rw [hs] at h; exact ⟨s, rfl, h⟩

theorem notify_missing {m : VarMap} {d : Str} (h : VarMap.missingRequired m.map m.required = some d) : m.notify = ([], some (errRequired d)) := by
  unfold VarMap.notify
  rw [h]

theorem notify_loop {m : VarMap} (h : VarMap.missingRequired m.map m.required = none) : m.notify = VarMap.notifyLoop m.map := by
  unfold VarMap.notify
  rw [h]

theorem mem_left {α β : Type} {R : α → β → Prop} {l : List α} {l' : List β} (h : List.Forall₂ R l l') {y : β} (hy : y ∈ l') : ∃ x ∈ l, R x y := by
  obtain ⟨x, hx, hr⟩ := mem_right h.flip hy
  exact ⟨x, hx, hr⟩

theorem notify_same (hi : ∀ a b, π a = π b → a = b) (hQ : ∀ a a', Q a a' → (a' = none ↔ a = none)) {m m' : VarMap} (ho : m.Ordered) (ho' : m'.Ordered)
    (H : SameMap π Q utf8 m m') : SameNotice π Q m m' := by
  obtain ⟨l, hp, hl⟩ := entries hi ho.map ho'.map H.value H.noValue
  obtain ⟨r, hrp, hr⟩ := entries hi ho.required ho'.required (required_rel H) H.notRequired
  have hlack := lacks_same hQ H
  by_cases hm : ∃ e ∈ m.required, Lacks m.map e.1
  · have hm' : ∃ e ∈ m'.required, Lacks m'.map e.1 := by
      obtain ⟨e, he, hle⟩ := hm
      obtain ⟨e', he', h1, -⟩ := mem_right hr (hrp.mem_iff.2 he)
      exact ⟨e', he', by rw [h1, hlack]; exact hle⟩
    obtain ⟨e, he, h1, h2⟩ := missing_some hm
    obtain ⟨e', he', h1', h2'⟩ := missing_some hm'
    obtain ⟨x, hx, hx1, hx2⟩ := mem_left hr he'
    have hx := hrp.mem_iff.1 hx
    refine .inr (.inl ⟨e.1, e.2, x.1, x.2, notify_missing h2, (SMap.get?_eq_some ho.required _ _).2 he, (lacks_iff m _).1 h1, ?_,
      (SMap.get?_eq_some ho.required _ _).2 hx, (lacks_iff m _).1 ?_⟩)
    · rw [← hx2]
      exact notify_missing h2'
    · rw [← hlack, ← hx1]
      exact h1'
  · have hn : VarMap.missingRequired m.map m.required = none := missing_none fun e he hle => hm ⟨e, he, hle⟩
    have hn' : VarMap.missingRequired m'.map m'.required = none := missing_none fun e' he' hle => by
      obtain ⟨e, he, h1, -⟩ := mem_left hr he'
      rw [h1, hlack] at hle
      exact hm ⟨e, hrp.mem_iff.1 he, hle⟩
    by_cases hf : ∃ e ∈ m.map, (passed e.2).2 ≠ none
    · have hf' : ∃ e ∈ m'.map, (passed e.2).2 ≠ none := by
        obtain ⟨e, he, hne⟩ := hf
        obtain ⟨e', he', -, h1⟩ := mem_right hl (hp.mem_iff.2 he)
        exact ⟨e', he', by rw [(passed_same h1).2, ne_eq, Option.map_eq_none_iff]; exact hne⟩
      obtain ⟨e, he, f, h1, h2⟩ := loop_fails hf
      obtain ⟨e', he', f', h1', h2'⟩ := loop_fails hf'
      obtain ⟨x, hx, -, hx1⟩ := mem_left hl he'
      rw [(passed_same hx1).2, Option.map_eq_some_iff] at h1'
      obtain ⟨g, hg, rfl⟩ := h1'
      obtain ⟨s, hs1, hs2⟩ := passed_semantic h1
      obtain ⟨t, ht1, ht2⟩ := passed_semantic hg
      refine .inr (.inr ⟨e.1, e.2, s, f, x.1, x.2, t, g, (SMap.get?_eq_some ho.map _ _).2 he, hs1, hs2, ?_,
        (SMap.get?_eq_some ho.map _ _).2 (hp.mem_iff.1 hx), ht1, ht2, ?_⟩)
      · rw [notify_loop hn, h2]
      · rw [notify_loop hn', h2']
    · have hok : ∀ e ∈ m.map, (passed e.2).2 = none := fun e he => by
        by_contra h
        exact hf ⟨e, he, h⟩
      have h1 := loop_ok hok
      have h2 := loop_ok fun e he => hok e (hp.mem_iff.1 he)
      obtain ⟨h3, h4⟩ := loop_same hl
      rw [h2] at h3 h4
      refine .inl ⟨by rw [notify_loop hn, h1], by rw [notify_loop hn', h4]; rfl, l.flatMap fun e => (passed e.2).1, ?_, ?_⟩
      · rw [notify_loop hn, h1]
        exact hp.flatMap_right _
      · rw [notify_loop hn']
        exact h3

theorem notify_order (hk : KeepsOrder π) (hQ : ∀ a a', Q a a' → (a' = none ↔ a = none)) {m m' : VarMap} (ho : m.Ordered) (ho' : m'.Ordered)
    (H : SameMap π Q utf8 m m') : List.Forall₂ (SameEvent Q) m.notify.1 m'.notify.1 ∧ m'.notify.2 = m.notify.2.map (renFail π) := by
  have h1 := missing_same (lacks_same hQ H) (entries_order hk ho.required ho'.required (required_rel H) H.notRequired)
  cases hd : VarMap.missingRequired m.map m.required with
  | some d =>
    rw [hd] at h1
    rw [notify_missing hd, notify_missing h1]
    exact ⟨.nil, rfl⟩
  | none =>
    rw [hd] at h1
    rw [notify_loop hd, notify_loop h1]
    exact loop_same (entries_order hk ho.map ho'.map H.value H.noValue)

theorem same_empty : SameMap π Q utf8 {} {} :=
  ⟨fun n => .none, fun _ _ => rfl, fun n => by simp, fun _ _ => by simp, fun n => rfl, fun _ _ => rfl⟩

end Letters

open Letters

/-- Two maps that are the same in other letters, after any number of stores: `notify` passes on the same values to the same variables and
functions, maybe in another order, or both times a required option is missing. If the letters stay in their order, so do the values, and the
required option that is reported is the same. -/
theorem C159_notify (π : Char → Char) (hi : ∀ a b, π a = π b → a = b) (Q : Any → Any → Prop) (hQ : ∀ a a', Q a a' → (a' = none ↔ a = none)) (utf8 : Bool)
    (srcs srcs' : List (Parsed × Bool)) (H : SameMap π Q utf8 (storesAny {} srcs) (storesAny {} srcs')) :
    SameNotice π Q (storesAny {} srcs) (storesAny {} srcs') ∧
    (KeepsOrder π → List.Forall₂ (SameEvent Q) (storesAny {} srcs).notify.1 (storesAny {} srcs').notify.1 ∧
      (storesAny {} srcs').notify.2 = (storesAny {} srcs).notify.2.map (renFail π)) := by
  have ho : ∀ (s : List (Parsed × Bool)) (m : VarMap), m.Ordered → (storesAny m s).Ordered := by
    intro s
    induction s with
    | nil => exact fun m h => h
    | cons x s ih => exact fun m h => ih _ (ordered_store h x.1 x.2)
  exact ⟨notify_same hi hQ (ho _ _ ordered_empty) (ho _ _ ordered_empty) H, fun hk => notify_order hk hQ (ho _ _ ordered_empty) (ho _ _ ordered_empty) H⟩

/-- A program that reads its command line, stores it and calls `notify`, and the program in other letters with the command line in other letters. -/
theorem C159_program (π : Char → Char) (c c' : Cmdline) (H : Harmless π c.style) (R : Renamed π c c')
    (Q : Any → Any → Prop) (hQ : ∀ a a', Q a a' → (a' = none ↔ a = none)) (hn : Q none none)
    (hr : ∀ d ∈ c.desc, SameReading π Q false d.semantic d.semantic) (args : List Str) :
    (∃ f, c.parse args = .error f ∧ c'.parse (args.map (ren π)) = .error (renFail π f)) ∨
    ∃ p p', c.parse args = .ok p ∧ c'.parse (args.map (ren π)) = .ok p' ∧
      ((∃ f, (store p {}).2 = some f ∧ (store p' {}).2 = some (renFail π f)) ∨
       ∃ m m', store p {} = (m, none) ∧ store p' {} = (m', none) ∧ SameMap π Q false m m' ∧ SameNotice π Q m m' ∧
        (KeepsOrder π → List.Forall₂ (SameEvent Q) m.notify.1 m'.notify.1 ∧ m'.notify.2 = m.notify.2.map (renFail π))) := by
  have hrun := C152_letters π c c' H R args
  unfold Cmdline.parse
  cases h : c.run args with
  | error f =>
    rw [h] at hrun
    rw [hrun]
    exact .inl ⟨f, rfl, rfl⟩
  | ok os =>
    rw [h] at hrun
    rw [hrun]
    refine .inr ⟨_, _, rfl, rfl, ?_⟩
    have hst := C154_store π H.inj H.star H.dash H.slash Q hn false id { desc := c.desc, options := os, pre := c.canonicalPrefix }
      { desc := c'.desc, options := os.map (renOpt π), pre := c'.canonicalPrefix } hr R.desc rfl
      (by unfold Cmdline.canonicalPrefix; rw [R.style]) {} {} same_empty
    generalize ({ desc := c.desc, options := os, pre := c.canonicalPrefix } : Parsed) = p at hst ⊢
    have hp : ∀ q : Parsed, (store q {}).1.Ordered := fun q => ordered_store ordered_empty q false
    have h1 := hp p
    have h2 := hp { desc := c'.desc, options := os.map (renOpt π), pre := c'.canonicalPrefix }
    cases hs : store p {} with
    | mk m e =>
      cases hs' : store { desc := c'.desc, options := os.map (renOpt π), pre := c'.canonicalPrefix } {} with
      | mk m' e' =>
        rw [hs] at hst h1
        rw [hs'] at hst h2
        obtain ⟨hst1, hst2⟩ := hst
        dsimp only at hst2
        rw [hst2]
        cases e with
        | some f => exact .inl ⟨f, rfl, rfl⟩
        | none => exact .inr ⟨m, m', rfl, rfl, hst1, notify_same H.inj hQ h1 h2 hst1, fun hk => notify_order hk hQ h1 h2 hst1⟩

namespace Letters

/-- A string for the variable with this number. -/
def entry (i : Nat) : VarValue := { v := some (.scalar (.str [])), semantic := some (({ type := .scalar .str, storeTo := some i } : TypedValue).toSemantic Test.env) }

theorem entry_same (i : Nat) : SameValue π (fun a a' => a' = renAny π a) false (entry i) (entry i) :=
  ⟨rfl, rfl, .some (C154_strings π Test.env _ (.inl rfl) rfl rfl rfl)⟩

theorem two_same (hi : ∀ a b, π a = π b → a = b) {a b : Char} (hab : a ≠ b) :
    SameMap π (fun a a' => a' = renAny π a) false { map := [([a], entry 0), ([b], entry 1)] } { map := [([π b], entry 1), ([π a], entry 0)] } := by
  refine ⟨fun n => ?_, fun n' hn => ?_, fun n => by simp, fun _ _ => by simp, fun n => rfl, fun _ _ => rfl⟩
  · have e : ∀ x : Char, ([π x] = ren π n) = ([x] = n) := fun x => propext ⟨fun h => ren_inj (s := [x]) hi h, fun h => by rw [← h]; rfl⟩
    show Option.Rel _ (if [a] = n then some _ else if [b] = n then some _ else none) (if [π b] = ren π n then some _ else if [π a] = ren π n then some _ else none)
    simp only [e]
    by_cases h1 : [a] = n
    · have h2 : ¬ [b] = n := by
        rw [← h1]
        intro h
        exact hab (List.cons.inj h).1.symm
      rw [if_pos h1, if_neg h2, if_pos h1]
      exact .some (entry_same 0)
    · rw [if_neg h1, if_neg h1]
      by_cases h2 : [b] = n
      · rw [if_pos h2]
        exact .some (entry_same 1)
      · rw [if_neg h2]
        exact .none
  · show (if [π b] = n' then some _ else if [π a] = n' then some _ else none) = none
    rw [if_neg fun h => hn [b] h.symm, if_neg fun h => hn [a] h.symm]

end Letters

/-- Only replacements that keep the order of the letters keep the order in which values are passed on. -/
theorem C159_order_iff (π : Char → Char) (hi : ∀ a b, π a = π b → a = b) :
    (∀ m m' : VarMap, m.Ordered → m'.Ordered → SameMap π (fun a a' => a' = renAny π a) false m m' →
      List.Forall₂ (SameEvent fun a a' => a' = renAny π a) m.notify.1 m'.notify.1) ↔ KeepsOrder π := by
  constructor
  · intro h a b hab
    by_contra hlt
    have hne : a ≠ b := by
      rintro rfl
      exact Nat.lt_irrefl _ hab
    have hgt : (π b).toNat < (π a).toNat := by
      rcases Nat.lt_trichotomy (π a).toNat (π b).toNat with h1 | h1 | h1
      · exact absurd h1 hlt
      · exact absurd (hi _ _ (char_eq_of_toNat h1)) hne
      · exact h1
    have lt : ∀ x y : Char, x.toNat < y.toNat → strLt [x] [y] = true := by
      intro x y hxy
      unfold strLt
      rw [if_pos hxy]
    have := h _ _ ⟨by simpa [SMap.Sorted] using lt _ _ hab, by simp, by simp⟩ ⟨by simpa [SMap.Sorted] using lt _ _ hgt, by simp, by simp⟩ (two_same hi hne)
    cases this with
    | cons h _ => cases h
  · intro hk m m' ho ho' H
    refine (notify_order hk ?_ ho ho' H).1
    rintro a _ rfl
    rcases a with _ | (_ | _ | _) <;> simp [renAny]

/-- `--a=x --b=y` and, with `a` and `b` swapped, `--b=x --a=y`: the variables are the same, in the other order. -/
example : let sem (i : Nat) := ({ Test.vstr with storeTo := some i } : TypedValue).toSemantic Test.env
    let c : Cmdline := { desc := [Test.od "a" (sem 0), Test.od "b" (sem 1)] }
    let c' : Cmdline := { desc := [Test.od "b" (sem 0), Test.od "a" (sem 1)] }
    ∃ p p' m m', c.parse [Test.L "--a=x", Test.L "--b=y"] = .ok p ∧ c'.parse [Test.L "--b=x", Test.L "--a=y"] = .ok p' ∧
      store p {} = (m, none) ∧ store p' {} = (m', none) ∧ SameNotice swapped (fun a a' => a' = renAny swapped a) m m' ∧
      m.notify.1 = [.assign 0 (.scalar (.str ['x'])), .assign 1 (.scalar (.str ['y']))] ∧
      m'.notify.1 = [.assign 1 (.scalar (.str ['y'])), .assign 0 (.scalar (.str ['x']))] := by
  intro sem c c'
  have H : Harmless swapped c.style := by
    refine ⟨fun a b h => ?_, by decide, by decide, by decide, by decide, fun h => ?_⟩
    · have := congrArg swapped h
      rwa [swapped_swapped, swapped_swapped] at this
    · exfalso
      revert h
      show ¬ (active Style.defaultStyle _ = true ∨ active Style.defaultStyle _ = true)
      decide
  have R : Renamed swapped c c' := ⟨rfl, rfl, rfl, rfl, trivial, trivial⟩
  have parsed : ∀ (c : Cmdline) (args : List Str) (os : List Opt), (c.run args).toOption = some os →
      c.parse args = .ok { desc := c.desc, options := os, pre := c.canonicalPrefix } := by
    intro c args os h
    unfold Cmdline.parse
    cases hr : c.run args with
    | error f => rw [hr] at h; cases h
    | ok os' => rw [hr] at h; cases h; rfl
  have e1 := parsed c [Test.L "--a=x", Test.L "--b=y"] [{ stringKey := ['a'], value := [['x']], originalTokens := [Test.L "--a=x"] },
    { stringKey := ['b'], value := [['y']], originalTokens := [Test.L "--b=y"] }] (by decide +kernel)
  have e2 := parsed c' [Test.L "--b=x", Test.L "--a=y"] [{ stringKey := ['b'], value := [['x']], originalTokens := [Test.L "--b=x"] },
    { stringKey := ['a'], value := [['y']], originalTokens := [Test.L "--a=y"] }] (by decide +kernel)
  rcases C159_program swapped c c' H R (fun a a' => a' = renAny swapped a) (by rintro a _ rfl; rcases a with _ | (_ | _ | _) <;> simp [renAny]) rfl
    (by
      intro d hd
      simp only [c, List.mem_cons, List.not_mem_nil, or_false] at hd
      rcases hd with rfl | rfl
      · exact C154_strings swapped Test.env _ (.inl rfl) rfl rfl rfl
      · exact C154_strings swapped Test.env _ (.inl rfl) rfl rfl rfl) [Test.L "--a=x", Test.L "--b=y"] with
    ⟨f, h, -⟩ | ⟨p, p', h1, h2, ⟨f, h3, -⟩ | ⟨m, m', h3, h4, -, h5, -⟩⟩
  · rw [e1] at h
    cases h
  · cases e1.symm.trans h1
    cases h3
  · refine ⟨p, p', m, m', h1, h2, h3, h4, h5, ?_, ?_⟩
    · cases e1.symm.trans h1
      cases h3
      rfl
    · cases e2.symm.trans h2
      cases h4
      rfl

end PO
