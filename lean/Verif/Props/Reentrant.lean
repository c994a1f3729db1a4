import Verif.Lemmas.Reentrant
import Verif.Model.Notify
import Verif.Lemmas.StoreGrammar
import Verif.Lemmas.Config
import Verif.Tests.Util
/-
C131: notifiers that work on the map being notified.
-/
namespace PO.Reentrant
variable {σ : Type}

/-! ### Order -/

theorem walk_order (P : Program σ) (f : σ → VarMap → Run σ) (n : Nat) (lo : Option Str) (c : Option (Str × VarValue)) (s : σ) (m : VarMap)
    (hc : ∀ k v, c = some (k, v) → Behind lo k) :
    (∀ t ∈ (walk P f n c s m).turns, Behind lo t.name) ∧ (walk P f n c s m).turns.Pairwise fun a b => strLt a.name b.name = true := by
  have hnext : ∀ (m : SMap VarValue) k q v, next m k = some (q, v) → Behind (some k) q := by
    intro m k q v h x hx
    cases hx
    exact List.find?_some (p := fun e : Str × VarValue => strLt k e.1) h
  induction n generalizing lo c s m with
  | zero => cases c <;> exact ⟨fun _ ht => absurd ht List.not_mem_nil, .nil⟩
  | succ n ih =>
    cases c with
    | none => exact ⟨fun _ ht => absurd ht List.not_mem_nil, .nil⟩
    | some q =>
      obtain ⟨k, v⟩ := q
      have hk := hc k v rfl
      have one : ∀ t : Turn σ, t.name = k → (∀ t' ∈ [t], Behind lo t'.name) ∧ [t].Pairwise fun a b => strLt a.name b.name = true := by
        intro t ht
        refine ⟨fun t' ht' => ?_, List.pairwise_singleton _ _⟩
        rw [List.mem_singleton.1 ht', ht]
        exact hk
      simp only [walk]
      cases hs : v.semantic with
      | none =>
        dsimp only
        obtain ⟨h1, h2⟩ := ih (some k) (next m.map k) s m (hnext m.map k)
        exact ⟨fun t ht => behind_trans hk (h1 t ht k rfl), h2⟩
      | some sem =>
        dsimp only
        cases hd : (deliver P f (sem.notify v.v).1 s m).fin with
        | done =>
          dsimp only
          cases hn : (sem.notify v.v).2 with
          | some e => exact one _ rfl
          | none =>
            dsimp only
            by_cases hr : k ∈ (deliver P f (sem.notify v.v).1 s m).removed
            · rw [if_pos hr]; exact one _ rfl
            · rw [if_neg hr]
              obtain ⟨h1, h2⟩ := ih (some k) (next (deliver P f (sem.notify v.v).1 s m).m.map k) (deliver P f (sem.notify v.v).1 s m).s
                (deliver P f (sem.notify v.v).1 s m).m (hnext _ k)
              refine ⟨fun t ht => ?_, List.pairwise_cons.2 ⟨fun t ht => h1 t ht k rfl, h2⟩⟩
              rcases List.mem_cons.1 ht with rfl | ht
              · exact hk
              · exact behind_trans hk (h1 t ht k rfl)
        | threw e => exact one _ rfl
        | dangling => exact one _ rfl
        | unfinished => exact one _ rfl

/-! ### Removing records -/

theorem get_filter (m : SMap VarValue) (n q : Str) : SMap.get? (m.filter fun e => e.1 ≠ n) q = if q = n then none else m.get? q := by
  induction m with
  | nil => split <;> rfl
  | cons e m ih =>
    obtain ⟨k, v⟩ := e
    by_cases hk : k = n
    · subst hk
      rw [List.filter_cons_of_neg (by simp), ih]
      by_cases hq : q = k
      · rw [if_pos hq, if_pos hq]
      · rw [if_neg hq, if_neg hq, SMap.get?, if_neg (Ne.symm hq)]
    · rw [List.filter_cons_of_pos (by simpa using hk), SMap.get?, SMap.get?, ih]
      by_cases hq : q = n
      · subst hq; rw [if_neg hk, if_pos rfl, if_pos rfl]
      · rw [if_neg hq, if_neg hq]

theorem perform_done (f : σ → VarMap → Run σ) (as : List (Act σ)) (h : Act.notify ∉ as) (s : σ) (m : VarMap) : (perform f as s m).fin = .done := by
  induction as generalizing s m with
  | nil => rfl
  | cons a as ih =>
    have h' : Act.notify ∉ as := fun hm => h (List.mem_cons_of_mem _ hm)
    cases a with
    | notify => exact absurd (List.mem_cons_self ..) h
    | _ => exact ih h' _ _

theorem perform_removes (f : σ → VarMap → Run σ) (as : List (Act σ)) (h : Act.notify ∉ as) (s : σ) (m : VarMap) (k : Str) (hk : (m.map.get? k).isSome = true) :
    (perform f as s m).fin = .done ∧ (k ∈ (perform f as s m).removed ↔ Act.clear ∈ as ∨ Act.erase k ∈ as) ∧
      (k ∉ (perform f as s m).removed → ((perform f as s m).m.map.get? k).isSome = true) := by
  refine ⟨perform_done f as h s m, ?_⟩
  induction as generalizing s m with
  | nil => simp [perform, hk]
  | cons a as ih =>
    have h' : Act.notify ∉ as := fun hm => h (List.mem_cons_of_mem _ hm)
    cases a with
    | compute c => simpa [perform] using ih h' (c s) m hk
    | store p u => simpa [perform] using ih h' s _ (store_keeps p m u k hk)
    | clear => simp [perform, (SMap.get?_isSome m.map k).1 hk]
    | erase n =>
      by_cases hn : n = k
      · subst hn
        simp [perform, SMap.has, hk]
      · have := ih h' s { m with map := m.map.filter fun e => e.1 ≠ n } (by dsimp only; rw [get_filter, if_neg (Ne.symm hn)]; exact hk)
        simp only [perform, List.mem_append, List.mem_cons, not_or, reduceCtorEq, false_or, Act.erase.injEq]
        have hk' : k ∉ (if m.map.has n = true then [n] else []) := by split <;> simp [Ne.symm hn]
        simp only [hk', Ne.symm hn, false_or, not_false_eq_true, true_and]
        exact this
    | notify => exact absurd (List.mem_cons_self ..) h

theorem deliver_removes {P : Program σ} (hP : NotAgain P) (f : σ → VarMap → Run σ) (es : List Event) (s : σ) (m : VarMap) (k : Str) (hk : (m.map.get? k).isSome = true) :
    ((deliver P f es s m).fin = .done ∨ ∃ e, (deliver P f es s m).fin = .threw e) ∧
      (k ∈ (deliver P f es s m).removed ↔ Act.clear ∈ (deliver P f es s m).acts ∨ Act.erase k ∈ (deliver P f es s m).acts) := by
  suffices hfin : ∀ (es : List Event) s m, (deliver P f es s m).fin = .done ∨ ∃ e, (deliver P f es s m).fin = .threw e by
    refine ⟨hfin es s m, ?_⟩
    induction es generalizing s m with
    | nil => simp [deliver]
    | cons e es ih =>
      cases e with
      | assign p a => exact ih _ _ hk
      | callback c a =>
        obtain ⟨h1, h2, h3⟩ := perform_removes f _ (hP c a s m) s m k hk
        simp only [deliver]
        rw [h1]
        dsimp only
        cases hc : (P.call c a s m).2 with
        | some e => exact h2
        | none =>
          dsimp only
          simp only [List.mem_append]
          by_cases hr : k ∈ (perform f (P.call c a s m).1 s m).removed
          · rcases h2.1 hr with h | h <;> simp [hr, h]
          · have := ih (perform f (P.call c a s m).1 s m).s (perform f (P.call c a s m).1 s m).m (h3 hr)
            have hno := mt h2.2 hr
            simp only [not_or] at hno
            simp only [hr, hno.1, hno.2, false_or]
            exact this
  intro es
  induction es with
  | nil => intro _ _; exact .inl rfl
  | cons e es ih =>
    intro s m
    cases e with
    | assign p a => exact ih _ _
    | callback c a =>
      have h1 : (perform f (P.call c a s m).1 s m).fin = .done := by
        have := hP c a s m
        generalize (P.call c a s m).1 = as at this
        exact perform_done f as this s m
      simp only [deliver]
      rw [h1]
      dsimp only
      cases hc : (P.call c a s m).2 with
      | some e => exact .inr ⟨e, rfl⟩
      | none => exact ih _ _

theorem walk_dangling {P : Program σ} (hP : NotAgain P) (f : σ → VarMap → Run σ) (n : Nat) (c : Option (Str × VarValue)) (s : σ) (m : VarMap)
    (hc : ∀ k v, c = some (k, v) → (m.map.get? k).isSome = true) :
    ((walk P f n c s m).fin = .dangling ↔ (∃ t ∈ (walk P f n c s m).turns, RemovesOwn t) ∧ ∀ e, (walk P f n c s m).fin ≠ .threw e) := by
  have hnext : ∀ (m : SMap VarValue) k q v, next m k = some (q, v) → (m.get? q).isSome = true := by
    intro m k q v h
    exact (SMap.get?_isSome m q).2 (List.mem_map.2 ⟨(q, v), List.mem_of_find?_eq_some h, rfl⟩)
  induction n generalizing c s m with
  | zero => cases c <;> simp [walk]
  | succ n ih =>
    cases c with
    | none => simp [walk]
    | some q =>
      obtain ⟨k, v⟩ := q
      simp only [walk]
      cases hs : v.semantic with
      | none => exact ih _ s m (hnext m.map k)
      | some sem =>
        dsimp only
        obtain ⟨hd, hr⟩ := deliver_removes hP f (sem.notify v.v).1 s m k (hc k v rfl)
        rcases hd with hd | ⟨e, hd⟩
        · rw [hd]
          dsimp only
          cases hn : (sem.notify v.v).2 with
          | some e => simp
          | none =>
            dsimp only
            by_cases hk : k ∈ (deliver P f (sem.notify v.v).1 s m).removed
            · rw [if_pos hk]
              simp only [List.mem_singleton, exists_eq_left, true_iff]
              exact ⟨hr.1 hk, nofun⟩
            · rw [if_neg hk]
              dsimp only
              refine (ih _ (deliver P f (sem.notify v.v).1 s m).s (deliver P f (sem.notify v.v).1 s m).m (hnext _ k)).trans ?_
              have hno : ¬ RemovesOwn (σ := σ) ⟨k, v, m, (deliver P f (sem.notify v.v).1 s m).acts, (deliver P f (sem.notify v.v).1 s m).m⟩ := mt hr.2 hk
              simp only [List.mem_cons, exists_eq_or_imp, hno, false_or]
        · rw [hd]
          simp

/-! ### Notifiers that leave the map alone -/

/-- What a notifier computes. -/
def computed : List (Act σ) → σ → σ
  | [], s => s
  | .compute g :: as, s => computed as (g s)
  | _ :: as, s => computed as s

/-- The program as C116 sees it, while the map is this one. -/
def hostAt (P : Program σ) (m : VarMap) : Host σ where
  assign := P.assign
  call := fun f a s => (computed (P.call f a s m).1 s, (P.call f a s m).2)

def End.of : Option Fail → End
  | none => .done
  | some f => .threw f

theorem perform_quiet (f : σ → VarMap → Run σ) (as : List (Act σ)) (h : ∀ x ∈ as, ∃ g, x = .compute g) (s : σ) (m : VarMap) :
    perform f as s m = { s := computed as s, m := m } := by
  induction as generalizing s with
  | nil => rfl
  | cons a as ih =>
    obtain ⟨g, rfl⟩ := h a (List.mem_cons_self ..)
    exact ih (fun x hx => h x (List.mem_cons_of_mem _ hx)) _

theorem deliver_quiet {P : Program σ} (hP : ∀ f a s m, ∀ x ∈ (P.call f a s m).1, ∃ g, x = .compute g) (f : σ → VarMap → Run σ) (es : List Event) (s : σ) (m : VarMap) :
    (deliver P f es s m).s = ((hostAt P m).perform es s).1 ∧ (deliver P f es s m).fin = .of ((hostAt P m).perform es s).2 ∧ (deliver P f es s m).m = m ∧
      (deliver P f es s m).removed = [] := by
  induction es generalizing s with
  | nil => exact ⟨rfl, rfl, rfl, rfl⟩
  | cons e es ih =>
    cases e with
    | assign p a => exact ih _
    | callback c a =>
      simp only [deliver, perform_quiet f _ (hP c a s m), Host.perform, hostAt]
      cases hc : (P.call c a s m).2 with
      | some e => exact ⟨rfl, rfl, rfl, rfl⟩
      | none =>
        obtain ⟨h1, h2, h3, h4⟩ := ih (computed (P.call c a s m).1 s)
        exact ⟨h1, h2, h3, h4⟩

theorem next_head {m : VarMap} (hm : SMap.Sorted m.map) {pre rest : SMap VarValue} {k : Str} {v : VarValue} (hsplit : m.map = pre ++ (k, v) :: rest) :
    next m.map k = rest.head? := by
  unfold next
  rw [hsplit] at hm ⊢
  rw [SMap.Sorted, List.pairwise_append] at hm
  obtain ⟨-, h2, h3⟩ := hm
  rw [List.find?_append, List.find?_eq_none.2, Option.none_or, List.find?_cons_of_neg (by simp [strLt_irrefl])]
  · cases rest with
    | nil => rfl
    | cons e rest =>
      rw [List.find?_cons_of_pos (p := fun e : Str × VarValue => strLt k e.1) ((List.pairwise_cons.1 h2).1 e (List.mem_cons_self ..))]
      rfl
  · intro e he
    simp [strLt_asymm (h3 e he (k, v) (List.mem_cons_self ..))]

theorem walk_quiet {P : Program σ} (hP : ∀ f a s m, ∀ x ∈ (P.call f a s m).1, ∃ g, x = .compute g) (f : σ → VarMap → Run σ) (m : VarMap) (hm : SMap.Sorted m.map)
    (pre rest : SMap VarValue) (hsplit : m.map = pre ++ rest) (n : Nat) (hn : rest.length ≤ n) (s : σ) :
    (walk P f n rest.head? s m).s = ((hostAt P m).notifyLoop rest s).1 ∧ (walk P f n rest.head? s m).fin = .of ((hostAt P m).notifyLoop rest s).2 ∧
      (walk P f n rest.head? s m).m = m := by
  induction rest generalizing pre n s with
  | nil => cases n <;> exact ⟨rfl, rfl, rfl⟩
  | cons q rest ih =>
    obtain ⟨k, v⟩ := q
    obtain ⟨n, rfl⟩ : ∃ j, n = j + 1 := ⟨n - 1, by simp at hn; omega⟩
    have hnext := next_head hm hsplit
    have ih := ih (pre ++ [(k, v)]) (by rw [hsplit]; simp) n (by simpa using hn)
    simp only [List.head?_cons, walk, Host.notifyLoop]
    cases hs : v.semantic with
    | none => dsimp only; rw [hnext]; exact ih s
    | some sem =>
      dsimp only
      obtain ⟨d1, d2, d3, d4⟩ := deliver_quiet hP f (sem.notify v.v).1 s m
      generalize (hostAt P m).perform (sem.notify v.v).1 s = hp at *
      obtain ⟨s1, e⟩ := hp
      rw [d2]
      cases e with
      | some e => exact ⟨d1, rfl, d3⟩
      | none =>
        simp only [End.of]
        cases hn : (sem.notify v.v).2 with
        | some e => exact ⟨d1, rfl, d3⟩
        | none =>
          dsimp only
          rw [d4, if_neg (by simp), d3, d1, hnext]
          exact ih s1

/-! ### Coming to an end -/

theorem walk_not_dangling {P : Program σ} (hP : StoresOnly P) (f : σ → VarMap → Run σ) (n : Nat) (c : Option (Str × VarValue)) (s : σ) (m : VarMap) :
    (walk P f n c s m).fin ≠ .dangling := by
  induction n generalizing c s m with
  | zero => cases c <;> exact nofun
  | succ n ih =>
    cases c with
    | none => exact nofun
    | some q =>
      obtain ⟨k, v⟩ := q
      simp only [walk]
      cases hsem : v.semantic with
      | none => exact ih _ s m
      | some sem =>
        dsimp only
        obtain ⟨hd, hr, -⟩ := deliver_harmless hP f (sem.notify v.v).1 s m
        rcases hd with hd | ⟨e, hd⟩
        · rw [hd]
          dsimp only
          cases hnn : (sem.notify v.v).2 with
          | some e => exact nofun
          | none =>
            dsimp only
            rw [if_neg (by rw [hr]; simp)]
            exact ih _ _ _
        · rw [hd]
          exact nofun

theorem store_names (p : Parsed) (m : VarMap) (u : Bool) (q : Str) (h : ((PO.store p m u).1.map.get? q).isSome = true) :
    (m.map.get? q).isSome = true ∨ (∃ o ∈ p.options, o.stringKey = q) ∨ ∃ d ∈ p.desc, d.own = q := by
  by_cases hm : Spec.Mentions p.options q
  · obtain ⟨o, ho, he, -⟩ := hm
    exact .inr (.inl ⟨o, ho, he⟩)
  · cases hs : PO.store p m u with
    | mk m' e =>
      rw [hs] at h
      cases e with
      | some f => exact .inl (by rw [← (store_failed_frame hs).2.2 q (.inl hm)]; exact h)
      | none =>
        have := (store_miss hs q (.inl hm)).1
        dsimp only at h
        rw [this] at h
        cases hg : m.map.get? q with
        | some v => exact .inl rfl
        | none =>
          rw [hg] at h
          dsimp only at h
          cases hd : Spec.firstDefault p.desc q with
          | none => rw [hd] at h; cases h
          | some x =>
            unfold Spec.firstDefault at hd
            obtain ⟨d, hd1, hd2⟩ := List.exists_of_findSome?_eq_some hd
            split at hd2
            · rename_i hown; exact .inr (.inr ⟨d, hd1, hown.1⟩)
            · cases hd2

/-- The names that notifiers may add. -/
def AddsOf (P : Program σ) (names : List Str) : Prop :=
  ∀ f a s m p u, Act.store p u ∈ (P.call f a s m).1 → (∀ o ∈ p.options, o.stringKey ∈ names) ∧ ∀ d ∈ p.desc, d.own ∈ names

theorem mapAfter_names {names : List Str} (as : List (Act σ))
    (h : ∀ p u, Act.store p u ∈ as → (∀ o ∈ p.options, o.stringKey ∈ names) ∧ ∀ d ∈ p.desc, d.own ∈ names) (m : VarMap)
    (hm : ∀ q, (m.map.get? q).isSome = true → q ∈ names) (q : Str) (hq : ((mapAfter as m).map.get? q).isSome = true) : q ∈ names := by
  induction as generalizing m with
  | nil => exact hm q hq
  | cons a as ih =>
    have ih := ih fun p u hp => h p u (List.mem_cons_of_mem _ hp)
    cases a with
    | store p u =>
      refine ih _ (fun x hx => ?_) hq
      obtain ⟨h1, h2⟩ := h p u (List.mem_cons_self ..)
      rcases store_names p m u x hx with hx | ⟨o, ho, rfl⟩ | ⟨d, hd, rfl⟩
      · exact hm x hx
      · exact h1 o ho
      · exact h2 d hd
    | _ => exact ih m hm hq

theorem deliver_names {P : Program σ} (hP : StoresOnly P) {names : List Str} (hN : AddsOf P names) (f : σ → VarMap → Run σ) (es : List Event) (s : σ) (m : VarMap)
    (hm : ∀ q, (m.map.get? q).isSome = true → q ∈ names) (q : Str) (hq : ((deliver P f es s m).m.map.get? q).isSome = true) : q ∈ names := by
  induction es generalizing s m with
  | nil => exact hm q hq
  | cons e es ih =>
    cases e with
    | assign p a => exact ih _ _ hm hq
    | callback c a =>
      obtain ⟨h1, h2, h3⟩ := perform_harmless f _ (hP c a s m) s m
      have hm' : ∀ x, ((perform f (P.call c a s m).1 s m).m.map.get? x).isSome = true → x ∈ names := by
        rw [h3]
        exact mapAfter_names _ (fun p u => hN c a s m p u) m hm
      simp only [deliver] at hq
      rw [h1] at hq
      dsimp only at hq
      cases hc : (P.call c a s m).2 with
      | some e => rw [hc] at hq; exact hm' q hq
      | none => rw [hc] at hq; exact ih _ _ hm' hq

theorem count_lt {l : List Str} {p q : Str → Bool} (h : ∀ x, p x = true → q x = true) {y : Str} (hy : y ∈ l) (hq : q y = true) (hp : p y = false) :
    l.countP p < l.countP q := by
  induction l with
  | nil => cases hy
  | cons x l ih =>
    have hle : l.countP p ≤ l.countP q := List.countP_mono_left fun x _ => h x
    rw [List.countP_cons, List.countP_cons]
    rcases List.mem_cons.1 hy with rfl | hy
    · rw [if_pos hq, if_neg (by simp [hp])]; omega
    · have := ih hy
      by_cases hx : p x = true
      · rw [if_pos hx, if_pos (h x hx)]; omega
      · rw [if_neg hx]; split <;> omega

theorem walk_ends {P : Program σ} (hP : StoresOnly P) {names : List Str} (hN : AddsOf P names) (f : σ → VarMap → Run σ) (n : Nat) (k : Str) (v : VarValue) (s : σ)
    (m : VarMap) (hs : SMap.Sorted m.map) (hm : ∀ q, (m.map.get? q).isSome = true → q ∈ names) (hk : m.map.get? k = some v)
    (hn : names.countP (fun x => !strLt x k) ≤ n) : (walk P f n (some (k, v)) s m).fin ≠ .unfinished := by
  have hkn : k ∈ names := hm k (by rw [hk]; rfl)
  have step : ∀ k', strLt k k' = true → names.countP (fun x => !strLt x k') < names.countP fun x => !strLt x k := by
    intro k' hlt
    refine count_lt (fun x hx => ?_) hkn (by simp [strLt_irrefl]) (by simp [hlt])
    cases h : strLt x k with
    | false => rfl
    | true => rw [strLt_trans h hlt] at hx; cases hx
  induction n generalizing k v s m with
  | zero =>
    have : 0 < names.countP fun x => !strLt x k := List.countP_pos_iff.2 ⟨k, hkn, by simp [strLt_irrefl]⟩
    omega
  | succ n ih =>
    have go : ∀ (s : σ) (m : VarMap), SMap.Sorted m.map → (∀ q, (m.map.get? q).isSome = true → q ∈ names) →
        (walk P f n (next m.map k) s m).fin ≠ .unfinished := by
      intro s m hs hm
      cases hc : next m.map k with
      | none => cases n <;> exact nofun
      | some q =>
        obtain ⟨k', v'⟩ := q
        obtain ⟨h1, h2, -⟩ := next_some hs hc
        have hk' : k' ∈ names := hm k' (by rw [h1]; rfl)
        have hlt := step k' h2
        refine ih k' v' s m hs hm h1 (by omega) hk' fun k'' h'' => ?_
        refine count_lt (fun x hx => ?_) hk' (by simp [strLt_irrefl]) (by simp [h''])
        cases h : strLt x k' with
        | false => rfl
        | true => rw [strLt_trans h h''] at hx; cases hx
    simp only [walk]
    cases hsem : v.semantic with
    | none => exact go s m hs hm
    | some sem =>
      dsimp only
      obtain ⟨hd, hr, hmm⟩ := deliver_harmless hP f (sem.notify v.v).1 s m
      rcases hd with hd | ⟨e, hd⟩
      · rw [hd]
        dsimp only
        cases hnn : (sem.notify v.v).2 with
        | some e => exact nofun
        | none =>
          dsimp only
          rw [if_neg (by rw [hr]; simp)]
          exact go _ _ (by rw [hmm]; exact mapAfter_sorted _ _ hs) (deliver_names hP hN f _ s m hm)
      · rw [hd]
        exact nofun

/-! ### Never coming to an end -/

/-- The events of a record call the notifier `g`. -/
def Calls (g : Nat) (v : VarValue) : Prop := ∃ sem a, v.semantic = some sem ∧ Event.callback g a ∈ (sem.notify v.v).1

theorem deliver_stuck {P : Program σ} {g : Nat} (hg : ∀ a s m, ∃ as, P.call g a s m = (.notify :: as, none))
    (hother : ∀ c a s m, c ≠ g → (P.call c a s m).2 = none ∧ ∀ x ∈ (P.call c a s m).1, ∃ h, x = .compute h)
    (f : σ → VarMap → Run σ) (m : VarMap) (hf : ∀ s, (f s m).fin = .unfinished) (es : List Event) (s : σ) :
    ((∃ a, Event.callback g a ∈ es) ∧ (deliver P f es s m).fin = .unfinished) ∨
      ((¬ ∃ a, Event.callback g a ∈ es) ∧ (deliver P f es s m).fin = .done ∧ (deliver P f es s m).m = m ∧ (deliver P f es s m).removed = []) := by
  induction es generalizing s with
  | nil => exact .inr ⟨by simp, rfl, rfl, rfl⟩
  | cons e es ih =>
    cases e with
    | assign p a => simpa [deliver] using ih (P.assign p a s)
    | callback c a =>
      by_cases hc : c = g
      · subst hc
        obtain ⟨as, has⟩ := hg a s m
        refine .inl ⟨⟨a, by simp⟩, ?_⟩
        simp only [deliver, has, perform, hf]
      · obtain ⟨h1, h2⟩ := hother c a s m hc
        have hd : (deliver P f (.callback c a :: es) s m) = { deliver P f es (computed (P.call c a s m).1 s) m with
            removed := [] ++ (deliver P f es (computed (P.call c a s m).1 s) m).removed,
            acts := (P.call c a s m).1 ++ (deliver P f es (computed (P.call c a s m).1 s) m).acts } := by
          simp only [deliver, perform_quiet f _ h2, h1]
        rw [hd]
        have hmem : (∃ b, Event.callback g b ∈ Event.callback c a :: es) ↔ ∃ b, Event.callback g b ∈ es := by
          simp [Ne.symm hc]
        rw [hmem]
        simpa using ih (computed (P.call c a s m).1 s)

theorem walk_stuck {P : Program σ} {g : Nat} (hg : ∀ a s m, ∃ as, P.call g a s m = (.notify :: as, none))
    (hother : ∀ c a s m, c ≠ g → (P.call c a s m).2 = none ∧ ∀ x ∈ (P.call c a s m).1, ∃ h, x = .compute h)
    (f : σ → VarMap → Run σ) (m : VarMap) (hf : ∀ s, (f s m).fin = .unfinished) (hm : SMap.Sorted m.map)
    (hnull : ∀ e ∈ m.map, ∀ sem, e.2.semantic = some sem → (sem.notify e.2.v).2 = none)
    (pre rest : SMap VarValue) (hsplit : m.map = pre ++ rest) (hin : ∃ e ∈ rest, Calls g e.2) (n : Nat) (s : σ) :
    (walk P f n rest.head? s m).fin = .unfinished := by
  induction rest generalizing pre n s with
  | nil => obtain ⟨e, he, -⟩ := hin; cases he
  | cons q rest ih =>
    obtain ⟨k, v⟩ := q
    cases n with
    | zero => rfl
    | succ n =>
      have ih := ih (pre ++ [(k, v)]) (by rw [hsplit]; simp)
      have hnext := next_head hm hsplit
      simp only [List.head?_cons, walk]
      cases hs : v.semantic with
      | none =>
        dsimp only
        rw [hnext]
        refine ih ?_ n s
        obtain ⟨e, he, hc⟩ := hin
        rcases List.mem_cons.1 he with rfl | he
        · obtain ⟨sem, a, h1, -⟩ := hc
          rw [hs] at h1; cases h1
        · exact ⟨e, he, hc⟩
      | some sem =>
        dsimp only
        rcases deliver_stuck hg hother f m hf (sem.notify v.v).1 s with ⟨-, hd⟩ | ⟨hno, hd, hdm, hdr⟩
        · rw [hd]
        · rw [hd]
          dsimp only
          rw [hnull (k, v) (by rw [hsplit]; simp) sem hs]
          dsimp only
          rw [hdr, if_neg (by simp), hdm, hnext]
          refine ih ?_ n _
          obtain ⟨e, he, hc⟩ := hin
          rcases List.mem_cons.1 he with rfl | he
          · obtain ⟨sem', a, h1, h2⟩ := hc
            rw [hs] at h1; cases h1
            exact absurd ⟨a, h2⟩ hno
          · exact ⟨e, he, hc⟩

/-! ### A program that reads a configuration file in a notifier -/

namespace Ex

/-- An option with a notifier, one without, and a family. -/
def config : OptionDesc := Test.od "config" (Test.sem { Test.vstr with notifier := some 0 })
def alpha : OptionDesc := Test.od "alpha" (Test.sem { Test.vstr with storeTo := some 1 })
def zeta : OptionDesc := Test.od "zeta" (Test.sem { Test.vstr with storeTo := some 2 })
def desc : List OptionDesc := [config, alpha, zeta]

/-- The notifier of `config` stores what the file says. -/
def program (file : List Opt) : Program (List (Nat × AVal)) where
  assign := fun p a s => s ++ [(p, a)]
  call := fun _ _ _ _ => ([.store { desc := desc, options := file } false], none)

/-- The map after the command line `--config=x`. -/
def start : VarMap := (PO.store { desc := desc, options := [{ stringKey := str% "config", value := [str% "x"] }] } {} false).1

def opt (name value : Str) : Opt := { stringKey := name, value := [value] }

theorem start_sorted : SMap.Sorted start.map := store_sorted _ _ _ .nil

/-- `alpha` comes before `config`: it is in the map at the end, but was not told; its variable is not assigned. -/
theorem late : (notify (program [opt (str% "alpha") (str% "1")]) 3 [] start).fin = .done ∧
    (notify (program [opt (str% "alpha") (str% "1")]) 3 [] start).turns.map (·.name) = [str% "config"] ∧
    (notify (program [opt (str% "alpha") (str% "1")]) 3 [] start).m.map.map (·.1) = [str% "alpha", str% "config"] ∧
    (notify (program [opt (str% "alpha") (str% "1")]) 3 [] start).s = [] := ⟨rfl, rfl, rfl, rfl⟩

/-- `zeta` comes after it, and is told. -/
theorem early : (notify (program [opt (str% "zeta") (str% "1")]) 4 [] start).fin = .done ∧
    (notify (program [opt (str% "zeta") (str% "1")]) 4 [] start).turns.map (·.name) = [str% "config", str% "zeta"] ∧
    (notify (program [opt (str% "zeta") (str% "1")]) 4 [] start).s = [(2, .scalar (.str (str% "1")))] := ⟨rfl, rfl, rfl⟩

end Ex

theorem Ex.program_stores (file : List Opt) : StoresOnly (Ex.program file) := by
  intro f a s m x hx
  rw [List.mem_singleton.1 (show x ∈ [_] from hx)]
  trivial

namespace Ex

/-- The notifier of `config` empties the map. -/
def clearing : Program Unit where
  assign := fun _ _ s => s
  call := fun _ _ _ _ => ([.clear], none)

/-- The notifier of `config` stores the file and calls `notify`, as one might to make up for what `C131_not` shows. -/
def again : Program Unit where
  assign := fun _ _ s => s
  call := fun c _ _ _ => if c = 0 then ([.notify, .store { desc := desc, options := [] } false], none) else ([], none)

/-! A family, and a notifier that always adds a longer name. -/

def family : OptionDesc := Test.od "a*" (Test.sem { Test.vstr with notifier := some 0 })

/-- `aa…a`, with one letter more than `n`. -/
def name (n : Nat) : Str := List.replicate (n + 1) 'a'

def source (n : Nat) : Parsed := { desc := [family], options := [opt (name n) (str% "x")] }

def growing : Program Nat where
  assign := fun _ _ s => s
  call := fun _ _ s _ => ([.compute (· + 1), .store (source (s + 1)) false], none)

def record : VarValue := { v := some (.scalar (.str (str% "x"))), semantic := some family.semantic }

theorem name_lt (n : Nat) : strLt (name n) (name (n + 1)) = true := by
  refine prefix_lt ⟨['a'], ?_⟩ ?_
  · unfold name; rw [← List.replicate_succ' (n := n + 1)]
  · intro h
    have := congrArg List.length h
    simp [name] at this

theorem find_family (n : Nat) : findOrThrow [family] (name n) false false false = .ok family := by
  refine (find_ok_iff _ _ _).2 ?_
  have hne : ¬ Spec.Exact family (name n) false false := by
    rintro (⟨x, hx, -, h⟩ | h)
    · rw [List.mem_singleton.1 (show x ∈ [str% "a*"] from hx)] at h
      simp only [Spec.fold, Bool.false_eq_true, if_false] at h
      have : '*' ∈ name n := by rw [← h]; decide
      have := List.eq_of_mem_replicate this
      cases this
    · cases h
  have ha : Spec.Approximate family (name n) false false :=
    ⟨str% "a*", List.mem_singleton.2 rfl, by decide, .inr ⟨['a'], rfl, by
      simp only [Spec.fold, Bool.false_eq_true, if_false]
      exact ⟨List.replicate n 'a', by rw [name, List.replicate_succ]; rfl⟩⟩⟩
  have h1 : Spec.exacts [family] (name n) false false = [] := by simp [Spec.exacts, hne]
  have h2 : Spec.approximates [family] (name n) false false false = [family] := by simp [Spec.approximates, hne, ha]
  unfold Spec.candidates
  rw [h1, h2, if_neg (by simp)]

theorem store_source (n : Nat) (m : VarMap) (hm : m.map.get? (name n) = none) (hf : name n ∉ m.final) :
    (PO.store (source n) m false).1.map = m.map.set (name n) record ∧ (PO.store (source n) m false).1.final = m.final.insertAll [name n] := by
  have h0 : name n ≠ [] := by simp [name]
  have h1 : storeOne [family] 0 false m.final m.map [] (opt (name n) (str% "x")) = ((m.map.set (name n) record, [name n]), none) := by
    unfold storeOne
    dsimp only
    rw [if_neg (show (opt (name n) (str% "x")).stringKey ≠ [] from h0), if_neg (show ¬ (opt (name n) (str% "x")).unregistered = true from nofun),
      if_neg (show ¬ m.final.has (opt (name n) (str% "x")).stringKey = true by rw [SSet.has_iff]; exact hf)]
    rw [show (opt (name n) (str% "x")).stringKey = name n from rfl, find_family, hm]
    rfl
  unfold PO.store source
  simp only [storeLoop, h1]
  refine ⟨?_, ?_⟩ <;> first | rfl | trivial

/-- The loop has come to the last of the names. -/
structure Last (n : Nat) (m : VarMap) : Prop where
  sorted : SMap.Sorted m.map
  names : ∀ q v, m.map.get? q = some v → strLt (name n) q = false
  final : ∀ q ∈ m.final, strLt (name n) q = false

theorem growing_forever (f : Nat → VarMap → Run Nat) (fuel n : Nat) (m : VarMap) (h : Last n m) : (walk growing f fuel (some (name n, record)) n m).fin = .unfinished := by
  induction fuel generalizing n m with
  | zero => rfl
  | succ fuel ih =>
    have hlt := name_lt n
    have h1 : m.map.get? (name (n + 1)) = none := by
      cases hg : m.map.get? (name (n + 1)) with
      | none => rfl
      | some v => rw [h.names _ _ hg] at hlt; cases hlt
    have h2 : name (n + 1) ∉ m.final := fun hm => by rw [h.final _ hm] at hlt; cases hlt
    obtain ⟨e1, e2⟩ := store_source (n + 1) m h1 h2
    have hd : deliver growing f (family.semantic.notify record.v).1 n m =
        ⟨n + 1, (PO.store (source (n + 1)) m false).1, [], (growing.call 0 (.scalar (.str (str% "x"))) n m).1, [], .done⟩ := rfl
    have hsort : SMap.Sorted (PO.store (source (n + 1)) m false).1.map := store_sorted _ _ _ h.sorted
    have hother : ∀ q v, (PO.store (source (n + 1)) m false).1.map.get? q = some v → strLt (name n) q = true → q = name (n + 1) := by
      intro q v hq hlt'
      rw [e1, SMap.get?_set] at hq
      by_cases he : name (n + 1) = q
      · exact he.symm
      · rw [if_neg he] at hq
        rw [h.names _ _ hq] at hlt'
        cases hlt'
    have hget : (PO.store (source (n + 1)) m false).1.map.get? (name (n + 1)) = some record := by rw [e1, SMap.get?_set, if_pos rfl]
    have hnext : next (PO.store (source (n + 1)) m false).1.map (name n) = some (name (n + 1), record) := by
      cases hc : next (PO.store (source (n + 1)) m false).1.map (name n) with
      | none => have := next_none hsort hc _ _ hget; rw [hlt] at this; cases this
      | some c =>
        obtain ⟨q, v⟩ := c
        obtain ⟨g1, g2, -⟩ := next_some hsort hc
        have := hother q v g1 g2
        subst this
        rw [hget] at g1
        cases g1
        rfl
    have hs : record.semantic = some family.semantic := rfl
    have hn : (family.semantic.notify record.v).2 = none := rfl
    simp only [walk, hs, hd, hn]
    rw [if_neg (by simp)]
    dsimp only
    rw [hnext]
    refine ih (n + 1) _ ⟨hsort, ?_, ?_⟩
    · intro q v hq
      rw [e1, SMap.get?_set] at hq
      by_cases he : name (n + 1) = q
      · rw [← he]; exact strLt_irrefl _
      · rw [if_neg he] at hq
        cases hc : strLt (name (n + 1)) q with
        | false => rfl
        | true => have := h.names _ _ hq; rw [strLt_trans hlt hc] at this; cases this
    · intro q hq
      rw [e2, SSet.mem_insertAll] at hq
      rcases hq with hq | hq
      · cases hc : strLt (name (n + 1)) q with
        | false => rfl
        | true => have := h.final _ hq; rw [strLt_trans hlt hc] at this; cases this
      · rw [List.mem_singleton.1 hq]; exact strLt_irrefl _

end Ex

end PO.Reentrant

namespace PO
open Reentrant
variable {σ : Type}

/-! ### The claims -/

/-- **C131, order.** Whatever notifiers do to the map, each option is told at most once, in the order of the names. -/
theorem C131_order (P : Program σ) (s : σ) (m : VarMap) (r : Run σ) (h : Ends P s m r) : r.turns.Pairwise fun a b => Spec.Earlier a.name b.name := by
  obtain ⟨n, rfl, hf⟩ := h
  cases n with
  | zero => exact absurd rfl hf
  | succ n =>
    simp only [notify]
    split
    · exact .nil
    · exact (walk_order P _ n none _ s m fun k v _ x hx => nomatch hx).2.imp (strLt_iff _ _).1

/-- **C131, agreement.** If the notifiers leave the map alone, `notify` is that of C116. -/
theorem C131_same (P : Program σ) (hP : ∀ f a s m, ∀ x ∈ (P.call f a s m).1, ∃ g, x = Act.compute g) (s : σ) (m : VarMap) (hm : SMap.Sorted m.map) :
    ∃ r, Ends P s m r ∧ r.m = m ∧ r.s = ((hostAt P m).notify m s).1 ∧ r.fin = .of ((hostAt P m).notify m s).2 := by
  refine ⟨_, ⟨m.map.length + 1, rfl, ?_⟩, ?_⟩ <;> simp only [notify, Host.notify]
  · cases VarMap.missingRequired m.map m.required with
    | some d => nofun
    | none =>
      dsimp only
      rw [(walk_quiet hP _ m hm [] m.map rfl _ (Nat.le_refl _) s).2.1]
      generalize (hostAt P m).notifyLoop m.map s = r
      obtain ⟨s', _ | e⟩ := r <;> nofun
  · cases VarMap.missingRequired m.map m.required with
    | some d => exact ⟨rfl, rfl, rfl⟩
    | none =>
      obtain ⟨h1, h2, h3⟩ := walk_quiet hP (notify P m.map.length) m hm [] m.map rfl _ (Nat.le_refl _) s
      exact ⟨h3, h1, h2⟩

/-- **C131, undefined behaviour.** If notifiers do not call `notify` again: an iterator is used whose record is gone exactly if the notifier of some
option removes the record of that option (by `clear`, or by `erase` with its name) and does not throw. So notifiers that only store cause none. -/
theorem C131_dangling_iff (P : Program σ) (hP : NotAgain P) (s : σ) (m : VarMap) (r : Run σ) (h : Ends P s m r) :
    r.fin = .dangling ↔ (∃ t ∈ r.turns, RemovesOwn t) ∧ ∀ e, r.fin ≠ .threw e := by
  obtain ⟨n, rfl, hf⟩ := h
  cases n with
  | zero => exact absurd rfl hf
  | succ n =>
    simp only [notify]
    cases VarMap.missingRequired m.map m.required with
    | some d => simp
    | none =>
      refine walk_dangling hP _ n _ s m fun k v hk => ?_
      exact (SMap.get?_isSome m.map k).2 (List.mem_map.2 ⟨(k, v), List.mem_of_mem_head? hk, rfl⟩)

/-- **C131, exactly when.** If notifiers compute and store, and the stores succeed: `notify` has told every option the value it has at the end exactly
if no notifier has changed the value of an option told already, nor added an option whose name comes before that of its own option. -/
theorem C131_iff (P : Program σ) (hP : StoresOnly P) (s : σ) (m : VarMap) (hm : SMap.Sorted m.map) (r : Run σ) (h : Ends P s m r)
    (hr : r.fin = .done) (ha : ∀ t ∈ r.turns, Succeed t.acts t.before) :
    AllTold r ↔ (∀ t ∈ r.turns, r.m.map.get? t.name = some t.record) ∧
      ∀ t ∈ r.turns, ∀ q, Spec.Earlier q t.name → (∃ v, Has r.m q v) → ∃ v, Has t.before q v := by
  simp only [← strLt_iff]
  obtain ⟨f, hro⟩ := notify_rounds hP hm h hr
  constructor
  · intro hall
    refine ⟨fun t ht => ?_, fun t ht q hq ⟨v, hv⟩ => ?_⟩
    · obtain ⟨v, hv⟩ := rounds_final_has hP ha hro t.name t ht ⟨_, rounds_record hro t ht⟩
      obtain ⟨t', ht', h1, h2⟩ := hall _ _ hv
      rw [rounds_unique hro t t' ht ht' h1.symm, h2, h1]
      exact hv.1
    · obtain ⟨t', ht', h1, h2⟩ := hall _ _ hv
      exact rounds_later_has hP ha hro q t t' ht ht' (h1 ▸ hq) ⟨_, h1 ▸ rounds_record hro t' ht'⟩
  · rintro ⟨h1, h2⟩ q v hv
    rcases rounds_passed hro q v hv (fun x hx => nomatch hx) with ⟨t, ht, rfl⟩ | ⟨t, ht, hlt, hno⟩
    · have := h1 t ht
      rw [hv.1] at this
      exact ⟨t, ht, rfl, (Option.some.inj this).symm⟩
    · exact absurd (h2 t ht q hlt ⟨v, hv⟩) hno

/-- **C131, what holds:** if notifiers compute and store, and each leaves the records of the options up to its own as they are, `notify` tells every
option the value it has at the end, those that were added meanwhile too. -/
theorem C131_partial (P : Program σ) (hP : StoresOnly P) (s : σ) (m : VarMap) (hm : SMap.Sorted m.map) (r : Run σ) (h : Ends P s m r)
    (hr : r.fin = .done) (hfw : ∀ t ∈ r.turns, ∀ q, ¬ Spec.Earlier t.name q → t.after.map.get? q = t.before.map.get? q) : AllTold r := by
  simp only [← strLt_iff_not] at hfw
  obtain ⟨f, hro⟩ := notify_rounds hP hm h hr
  have hu := (rounds_untouched hro hfw).2
  intro q v hv
  rcases rounds_passed hro q v hv (fun x hx => nomatch hx) with ⟨t, ht, rfl⟩ | ⟨t, ht, hlt, hno⟩
  · have h1 := hu t ht t.name (strLt_irrefl _)
    rw [hv.1, (rounds_record hro t ht).1] at h1
    exact ⟨t, ht, rfl, (Option.some.inj h1).symm⟩
  · have h1 := hu t ht q (strLt_asymm hlt)
    exact absurd ⟨v, h1 ▸ hv.1, hv.2⟩ hno

/-- **C131, options that come too late.** If notifiers compute and store: an option that is not there when an option with a greater name is told is not
told at all, even if it is added then. -/
theorem C131_late (P : Program σ) (hP : StoresOnly P) (s : σ) (m : VarMap) (hm : SMap.Sorted m.map) (r : Run σ) (h : Ends P s m r)
    (hr : r.fin = .done) (t : Turn σ) (ht : t ∈ r.turns) (q : Str) (hq : Spec.Earlier q t.name) (hno : t.before.map.get? q = none) : ∀ t' ∈ r.turns, t'.name ≠ q := by
  obtain ⟨f, hro⟩ := notify_rounds hP hm h hr
  rintro t' ht' rfl
  have := rounds_later hP hro t'.name t t' ht ht' ((strLt_iff _ _).2 hq) (by rw [(rounds_record hro t' ht').1]; rfl)
  rw [hno] at this
  cases this

/-- **C131, end.** If notifiers compute and store, and the names they add come from a finite set (they are names of declared options, without
families), `notify` ends: normally, or with an exception. -/
theorem C131_ends (P : Program σ) (hP : StoresOnly P) (names : List Str) (hN : AddsOf P names) (s : σ) (m : VarMap) (hm : SMap.Sorted m.map) :
    ∃ r, Ends P s m r ∧ (r.fin = .done ∨ ∃ e, r.fin = .threw e) := by
  have hN' : AddsOf P (m.map.map (·.1) ++ names) := by
    intro f a s' m' p u hp
    obtain ⟨h1, h2⟩ := hN f a s' m' p u hp
    exact ⟨fun o ho => List.mem_append_right _ (h1 o ho), fun d hd => List.mem_append_right _ (h2 d hd)⟩
  have hends : ∃ r, Ends P s m r := by
    refine ⟨_, (m.map.map (·.1) ++ names).length + 1, rfl, ?_⟩
    simp only [notify]
    cases VarMap.missingRequired m.map m.required with
    | some d => exact nofun
    | none =>
      dsimp only
      cases hh : m.map.head? with
      | none => simp [walk]
      | some q =>
        obtain ⟨k, v⟩ := q
        exact walk_ends hP hN' _ _ k v s m hm (fun q hq => List.mem_append_left _ ((SMap.get?_isSome m.map q).1 hq)) ((at_head hm).some_ k v hh).1
          List.countP_le_length
  obtain ⟨r, hr⟩ := hends
  refine ⟨r, hr, ?_⟩
  cases hfin : r.fin with
  | done => exact .inl rfl
  | threw e => exact .inr ⟨e, rfl⟩
  | unfinished => obtain ⟨n, -, h⟩ := hr; exact absurd hfin h
  | dangling =>
    exfalso
    obtain ⟨n, rfl, -⟩ := hr
    cases n with
    | zero => cases hfin
    | succ n =>
      simp only [notify] at hfin
      cases hmr : VarMap.missingRequired m.map m.required with
      | some d => rw [hmr] at hfin; cases hfin
      | none => rw [hmr] at hfin; exact walk_not_dangling hP _ _ _ _ _ hfin

/-- **C131, recursion.** A notifier that calls `notify` on its own map never returns: if the map has an option with such a notifier, and the other
notifiers do nothing to the map, `notify` does not end (in C++ the stack is used up). -/
theorem C131_recursion (P : Program σ) (g : Nat) (hg : ∀ a s m, ∃ as, P.call g a s m = (.notify :: as, none))
    (hother : ∀ c a s m, c ≠ g → (P.call c a s m).2 = none ∧ ∀ x ∈ (P.call c a s m).1, ∃ h, x = .compute h)
    (m : VarMap) (hm : SMap.Sorted m.map) (hreq : VarMap.missingRequired m.map m.required = none)
    (hnull : ∀ e ∈ m.map, ∀ sem, e.2.semantic = some sem → (sem.notify e.2.v).2 = none)
    (hin : ∃ e ∈ m.map, Calls g e.2) (s : σ) : Forever P s m := by
  intro n
  induction n generalizing s with
  | zero => rfl
  | succ n ih =>
    simp only [notify, hreq]
    exact walk_stuck hg hother _ m ih hm hnull [] m.map rfl hin n s

/-- The claim for all programs whose notifiers compute and store. -/
def C131_claim : Prop := ∀ (σ : Type) (P : Program σ) (s : σ) (m : VarMap) (r : Run σ), StoresOnly P → SMap.Sorted m.map → Ends P s m r → r.fin = .done → AllTold r

/-- **C131 is violated:** a notifier for `config` stores a configuration file that sets `alpha`; `notify` returns, but the variable of `alpha` has not
been assigned. -/
theorem C131_not : ¬ C131_claim := by
  intro h
  obtain ⟨h1, h2, h3, -⟩ := Ex.late
  have := h _ _ _ _ _ (Ex.program_stores _) Ex.start_sorted ⟨3, rfl, by rw [h1]; nofun⟩ h1 (str% "alpha")
    { v := some (.scalar (.str (str% "1"))), semantic := some Ex.alpha.semantic } ⟨rfl, rfl⟩
  obtain ⟨t, ht, hn, -⟩ := this
  have hmem := List.mem_map_of_mem (f := (·.name)) ht
  rw [h2, hn] at hmem
  exact absurd hmem (by decide)

/-- With `zeta` instead all is well, by `C131_partial`. -/
example : AllTold (notify (Ex.program [Ex.opt (str% "zeta") (str% "1")]) 4 [] Ex.start) := by
  obtain ⟨h1, h2, -⟩ := Ex.early
  refine C131_partial _ (Ex.program_stores _) [] Ex.start Ex.start_sorted _ ⟨4, rfl, by rw [h1]; nofun⟩ h1 ?_
  intro t ht q hq
  have ht' : t ∈ [_, _] := ht
  simp only [List.mem_cons, List.not_mem_nil, or_false] at ht'
  rcases ht' with rfl | rfl
  · have h3 : strLt (str% "config") q = false := (strLt_iff_not _ _).2 hq
    show (if str% "config" = q then _ else if str% "zeta" = q then _ else none) = (if str% "config" = q then _ else none)
    by_cases h : str% "config" = q
    · rw [if_pos h, if_pos h]
    · rw [if_neg h, if_neg h, if_neg]
      rintro rfl
      exact absurd h3 (by decide)
  · rfl

/-- Whatever the file says, `notify` ends. -/
example (file : List Opt) (m : VarMap) (hm : SMap.Sorted m.map) : ∃ r, Ends (Ex.program file) [] m r ∧ (r.fin = .done ∨ ∃ e, r.fin = .threw e) := by
  refine C131_ends _ (Ex.program_stores _) (file.map (·.stringKey) ++ Ex.desc.map (·.own)) ?_ [] m hm
  intro f a s m p u hp
  cases List.mem_singleton.1 (show Act.store p u ∈ [_] from hp)
  exact ⟨fun o ho => List.mem_append_left _ (List.mem_map_of_mem ho), fun d hd => List.mem_append_right _ (List.mem_map_of_mem hd)⟩

/-- The first run, by `C131_iff`: `alpha` was added behind the loop. -/
example : ¬ AllTold (notify (Ex.program [Ex.opt (str% "alpha") (str% "1")]) 3 [] Ex.start) := by
  obtain ⟨h1, h2, -⟩ := Ex.late
  rw [C131_iff _ (Ex.program_stores _) [] Ex.start Ex.start_sorted _ ⟨3, rfl, by rw [h1]; nofun⟩ h1 (by
    intro t ht
    rw [List.mem_singleton.1 (show t ∈ [_] from ht)]
    exact ⟨rfl, trivial⟩)]
  rintro ⟨-, h⟩
  obtain ⟨v, hv, -⟩ := h _ (List.mem_singleton.2 rfl) (str% "alpha") ((strLt_iff _ _).1 (by decide)) ⟨_, rfl, rfl⟩
  cases (show (none : Option VarValue) = some v from hv)

/-- Then the loop of `notify` goes on from a record that is gone. -/
example : (notify Ex.clearing 3 () Ex.start).fin = .dangling ∧ (notify Ex.clearing 3 () Ex.start).m.map = [] := ⟨rfl, rfl⟩

/-- Removing another option does no harm: it is not told. -/
example : (notify { assign := fun _ _ s => s, call := fun _ _ _ _ => ([.erase (str% "zeta")], none) } 4 ()
      (PO.store { desc := Ex.desc, options := [Ex.opt (str% "zeta") (str% "1")] } Ex.start false).1).fin = .done ∧
    (notify { assign := fun _ _ s => s, call := fun _ _ _ _ => ([.erase (str% "zeta")], none) } 4 ()
      (PO.store { desc := Ex.desc, options := [Ex.opt (str% "zeta") (str% "1")] } Ex.start false).1).turns.map (·.name) = [str% "config"] := ⟨rfl, rfl⟩

example : Forever Ex.again () Ex.start := by
  refine C131_recursion Ex.again 0 (fun a s m => ⟨_, rfl⟩) (fun c a s m hc => ?_) Ex.start Ex.start_sorted rfl ?_ ?_ ()
  · have : Ex.again.call c a s m = ([], none) := if_neg hc
    rw [this]
    exact ⟨rfl, nofun⟩
  · intro e he sem hs
    rw [List.mem_singleton.1 (show e ∈ [_] from he)] at hs ⊢
    cases hs
    rfl
  · exact ⟨_, List.mem_singleton.2 rfl, _, _, rfl, List.mem_singleton.2 rfl⟩

/-- **C131, no end.** Families have no end: if the notifier of `a*` stores one more name each time it is called, `notify` does not end. -/
theorem C131_endless : Forever Ex.growing 0 (PO.store (Ex.source 0) {} false).1 := by
  intro n
  cases n with
  | zero => rfl
  | succ n =>
    refine Ex.growing_forever _ n 0 _ ⟨store_sorted _ _ _ .nil, ?_, ?_⟩
    · intro q v hq
      have hq' : (if str% "a" = q then some Ex.record else none) = some v := hq
      by_cases h : str% "a" = q
      · rw [← h]; rfl
      · rw [if_neg h] at hq'; cases hq'
    · intro q hq
      rw [List.mem_singleton.1 (show q ∈ [str% "a"] from hq)]
      rfl

end PO
