import Verif.Spec.Reentrant
import Verif.Lemmas.Store
/-
Lemmas on `notify` with notifiers that work on the map (C131).
-/
namespace PO.Reentrant
variable {σ : Type}

/-! ### More steps do not matter -/

/-- What `f` finishes, `g` finishes in the same way. -/
def Le (f g : σ → VarMap → Run σ) : Prop := ∀ s m, (f s m).fin ≠ .unfinished → g s m = f s m

theorem perform_le {f g : σ → VarMap → Run σ} (h : Le f g) (as : List (Act σ)) (s : σ) (m : VarMap)
    (hf : (perform f as s m).fin ≠ .unfinished) : perform g as s m = perform f as s m := by
  induction as generalizing s m with
  | nil => rfl
  | cons a as ih =>
    cases a with
    | compute c => exact ih _ _ hf
    | store p u => exact ih _ _ hf
    | clear => simp only [perform] at hf ⊢; rw [ih _ _ hf]
    | erase n => simp only [perform] at hf ⊢; rw [ih _ _ hf]
    | notify =>
      simp only [perform] at hf ⊢
      cases he : (f s m).fin with
      | unfinished => rw [he] at hf; exact absurd rfl hf
      | done =>
        rw [he] at hf
        rw [h s m (by simp [he]), he]
        dsimp only at hf ⊢
        rw [ih _ _ hf]
      | threw e => rw [h s m (by simp [he]), he]
      | dangling => rw [h s m (by simp [he]), he]

theorem deliver_le {P : Program σ} {f g : σ → VarMap → Run σ} (h : Le f g) (es : List Event) (s : σ) (m : VarMap)
    (hf : (deliver P f es s m).fin ≠ .unfinished) : deliver P g es s m = deliver P f es s m := by
  induction es generalizing s m with
  | nil => rfl
  | cons e es ih =>
    cases e with
    | assign p a => exact ih _ _ hf
    | callback c a =>
      simp only [deliver] at hf ⊢
      have hp := perform_le h (P.call c a s m).1 s m
      cases he : (perform f (P.call c a s m).1 s m).fin with
      | unfinished => simp [he] at hf
      | done =>
        rw [hp (by simp [he]), he]
        rw [he] at hf
        cases hc : (P.call c a s m).2 with
        | some e => rfl
        | none =>
          rw [hc] at hf
          dsimp only at hf ⊢
          rw [ih _ _ hf]
      | threw e => rw [hp (by simp [he]), he]
      | dangling => rw [hp (by simp [he]), he]

theorem walk_le {P : Program σ} {f g : σ → VarMap → Run σ} (h : Le f g) {n n' : Nat} (hn : n ≤ n') (c : Option (Str × VarValue)) (s : σ) (m : VarMap)
    (hf : (walk P f n c s m).fin ≠ .unfinished) : walk P g n' c s m = walk P f n c s m := by
  induction n generalizing n' c s m with
  | zero =>
    cases c with
    | none => simp [walk]
    | some q => simp [walk] at hf
  | succ n ih =>
    obtain ⟨n', rfl⟩ : ∃ k, n' = k + 1 := ⟨n' - 1, by omega⟩
    cases c with
    | none => simp [walk]
    | some q =>
      obtain ⟨k, v⟩ := q
      simp only [walk] at hf ⊢
      cases hs : v.semantic with
      | none => rw [hs] at hf; exact ih (by omega) _ _ _ hf
      | some sem =>
        rw [hs] at hf
        dsimp only at hf ⊢
        have hd := deliver_le (P := P) h (sem.notify v.v).1 s m
        cases he : (deliver P f (sem.notify v.v).1 s m).fin with
        | unfinished => simp [he] at hf
        | done =>
          rw [hd (by simp [he]), he]
          rw [he] at hf
          cases h2 : (sem.notify v.v).2 with
          | some e => rfl
          | none =>
            rw [h2] at hf
            dsimp only at hf ⊢
            by_cases hk : k ∈ (deliver P f (sem.notify v.v).1 s m).removed
            · rw [if_pos hk, if_pos hk]
            · rw [if_neg hk] at hf
              rw [if_neg hk, if_neg hk, ih (by omega) _ _ _ hf]
        | threw e => rw [hd (by simp [he]), he]
        | dangling => rw [hd (by simp [he]), he]

theorem notify_le (P : Program σ) {n n' : Nat} (hn : n ≤ n') : Le (notify P n) (notify P n') := by
  induction n generalizing n' with
  | zero => intro s m hf; simp [notify] at hf
  | succ n ih =>
    obtain ⟨n', rfl⟩ : ∃ k, n' = k + 1 := ⟨n' - 1, by omega⟩
    intro s m hf
    simp only [notify] at hf ⊢
    cases hm : VarMap.missingRequired m.map m.required with
    | some d => rfl
    | none =>
      rw [hm] at hf
      exact walk_le (ih (by omega)) (by omega) _ _ _ hf

theorem ends_unique {P : Program σ} {s : σ} {m : VarMap} {r r' : Run σ} (h : Ends P s m r) (h' : Ends P s m r') : r = r' := by
  obtain ⟨n, rfl, hf⟩ := h
  obtain ⟨n', rfl, hf'⟩ := h'
  rcases Nat.le_total n n' with hl | hl
  · exact (notify_le P hl s m hf).symm
  · exact notify_le P hl s m hf'

/-! ### Names and their order -/

theorem next_some {m : SMap VarValue} (hm : m.Sorted) {k q : Str} {v : VarValue} (h : next m k = some (q, v)) :
    m.get? q = some v ∧ strLt k q = true ∧ ∀ x w, m.get? x = some w → strLt k x = true → strLt x q = false := by
  unfold next at h
  obtain ⟨h1, pre, post, h2, h3⟩ := List.find?_eq_some_iff_append.1 h
  have hmem : (q, v) ∈ m := by rw [h2]; simp
  refine ⟨(SMap.get?_eq_some hm q v).2 hmem, h1, ?_⟩
  intro x w hx hk
  have hx' := (SMap.get?_eq_some hm x w).1 hx
  rw [h2] at hx' hm
  rw [SMap.Sorted, List.pairwise_append] at hm
  rcases List.mem_append.1 hx' with hx' | hx'
  · have := h3 _ hx'
    simp [hk] at this
  · rcases List.mem_cons.1 hx' with hx' | hx'
    · cases hx'; exact strLt_irrefl _
    · exact strLt_asymm ((List.pairwise_cons.1 hm.2.1).1 _ hx')

theorem next_none {m : SMap VarValue} (hm : m.Sorted) {k : Str} (h : next m k = none) (x : Str) (w : VarValue) (hx : m.get? x = some w) : strLt k x = false := by
  unfold next at h
  have := List.find?_eq_none.1 h _ ((SMap.get?_eq_some hm x w).1 hx)
  simpa using this

/-- The name is behind the place where the loop is; at its beginning every name is. -/
def Behind (lo : Option Str) (q : Str) : Prop := ∀ k, lo = some k → strLt k q = true

/-- Where the iterator is. -/
structure At (lo : Option Str) (m : SMap VarValue) (c : Option (Str × VarValue)) : Prop where
  some_ : ∀ k v, c = some (k, v) → m.get? k = some v ∧ Behind lo k ∧ ∀ x w, m.get? x = some w → Behind lo x → strLt x k = false
  none_ : c = none → ∀ x w, m.get? x = some w → ¬ Behind lo x

theorem at_head {m : SMap VarValue} (hm : m.Sorted) : At none m m.head? := by
  constructor
  · rintro k v h
    cases m with
    | nil => cases h
    | cons e m =>
      cases h
      refine ⟨(SMap.get?_eq_some hm k v).2 (by simp), nofun, ?_⟩
      intro x w hx _
      rcases List.mem_cons.1 ((SMap.get?_eq_some hm x w).1 hx) with hx | hx
      · cases hx; exact strLt_irrefl _
      · exact strLt_asymm ((List.pairwise_cons.1 hm).1 _ hx)
  · intro h x w hx
    cases m with
    | nil => cases hx
    | cons e m => cases h

theorem at_next {m : SMap VarValue} (hm : m.Sorted) (k : Str) : At (some k) m (next m k) := by
  constructor
  · rintro q v h
    obtain ⟨h1, h2, h3⟩ := next_some hm h
    refine ⟨h1, fun _ e => by cases e; exact h2, fun x w hx hb => h3 x w hx (hb k rfl)⟩
  · intro h x w hx hb
    have := next_none hm h x w hx
    rw [hb k rfl] at this
    cases this

/-! ### Notifiers that only store -/

theorem storeOne_keeps (desc pre utf8 final m nf o) (q : Str) (h : (SMap.get? m q).isSome = true) :
    ((storeOne desc pre utf8 final m nf o).1.1.get? q).isSome = true := by
  have hset : ∀ k (v : VarValue), ((m.set k v).get? q).isSome = true := by
    intro k v
    rw [SMap.get?_set]
    split <;> first | rfl | exact h
  unfold storeOne
  dsimp only
  repeat' split
  all_goals first | exact h | exact hset _ _

theorem storeLoop_keeps (desc pre utf8 final) (os : List Opt) (m nf) (q : Str) (h : (SMap.get? m q).isSome = true) :
    ((storeLoop desc pre utf8 final os m nf).1.1.get? q).isSome = true := by
  induction os generalizing m nf with
  | nil => exact h
  | cons o os ih =>
    have h1 := storeOne_keeps desc pre utf8 final m nf o q h
    rw [storeLoop]
    generalize storeOne desc pre utf8 final m nf o = r at *
    obtain ⟨⟨m', nf'⟩, e⟩ := r
    cases e with
    | some f => exact h1
    | none => exact ih _ _ h1

theorem store_keeps (p : Parsed) (m : VarMap) (u : Bool) (q : Str) (h : (m.map.get? q).isSome = true) : ((PO.store p m u).1.map.get? q).isSome = true := by
  have hl := storeLoop_keeps p.desc p.pre u m.final p.options m.map [] q h
  unfold PO.store
  generalize storeLoop p.desc p.pre u m.final p.options m.map [] = r at *
  obtain ⟨⟨m', nf⟩, e⟩ := r
  cases e with
  | some f => exact hl
  | none =>
    have := applyAll_get p.pre p.desc m' m.required q
    dsimp only at hl ⊢
    obtain ⟨v, hv⟩ := Option.isSome_iff_exists.1 hl
    rw [hv] at this
    generalize applyAll p.pre p.desc m' m.required = r at *
    obtain ⟨a, b⟩ := r
    dsimp only at this ⊢
    rw [this]; rfl

theorem mapAfter_sorted (as : List (Act σ)) (m : VarMap) (hm : SMap.Sorted m.map) : SMap.Sorted (mapAfter as m).map := by
  induction as generalizing m with
  | nil => exact hm
  | cons a as ih => cases a <;> first | exact ih _ hm | exact ih _ (store_sorted _ _ _ hm)

theorem mapAfter_keeps (as : List (Act σ)) (m : VarMap) (q : Str) (h : (m.map.get? q).isSome = true) : ((mapAfter as m).map.get? q).isSome = true := by
  induction as generalizing m with
  | nil => exact h
  | cons a as ih => cases a <;> first | exact ih _ h | exact ih _ (store_keeps _ _ _ _ h)

theorem mapAfter_append (as bs : List (Act σ)) (m : VarMap) : mapAfter (as ++ bs) m = mapAfter bs (mapAfter as m) := by
  induction as generalizing m with
  | nil => rfl
  | cons a as ih => cases a <;> exact ih _

theorem perform_harmless (f : σ → VarMap → Run σ) (as : List (Act σ)) (h : ∀ x ∈ as, x.Harmless) (s : σ) (m : VarMap) :
    (perform f as s m).fin = .done ∧ (perform f as s m).removed = [] ∧ (perform f as s m).m = mapAfter as m := by
  induction as generalizing s m with
  | nil => exact ⟨rfl, rfl, rfl⟩
  | cons a as ih =>
    have ih := ih fun x hx => h x (List.mem_cons_of_mem _ hx)
    have ha := h a (List.mem_cons_self ..)
    cases a with
    | compute c => exact ih _ _
    | store p u => exact ih _ _
    | clear => cases ha
    | erase n => cases ha
    | notify => cases ha

theorem deliver_harmless {P : Program σ} (hP : StoresOnly P) (f : σ → VarMap → Run σ) (es : List Event) (s : σ) (m : VarMap) :
    ((deliver P f es s m).fin = .done ∨ ∃ e, (deliver P f es s m).fin = .threw e) ∧ (deliver P f es s m).removed = [] ∧
      (deliver P f es s m).m = mapAfter (deliver P f es s m).acts m := by
  induction es generalizing s m with
  | nil => exact ⟨.inl rfl, rfl, rfl⟩
  | cons e es ih =>
    cases e with
    | assign p a => exact ih _ _
    | callback c a =>
      obtain ⟨h1, h2, h3⟩ := perform_harmless f _ (hP c a s m) s m
      simp only [deliver]
      rw [h1]
      dsimp only
      cases hc : (P.call c a s m).2 with
      | some e => exact ⟨.inr ⟨e, rfl⟩, h2, h3⟩
      | none =>
        obtain ⟨i1, i2, i3⟩ := ih (perform f (P.call c a s m).1 s m).s (perform f (P.call c a s m).1 s m).m
        exact ⟨i1, by rw [h2, i2]; rfl, by rw [mapAfter_append, ← h3]; exact i3⟩

/-- A successful store leaves a record of the library where there was one. -/
theorem store_has {p : Parsed} {m m' : VarMap} {u : Bool} (h : PO.store p m u = (m', none)) (q : Str) (v : VarValue) (hv : Has m q v) : ∃ w, Has m' q w := by
  by_cases hq : Spec.Mentions p.options q ∧ q ∉ m.final
  · obtain ⟨d, a, -, -, hg, -⟩ := store_hit h q hq.1 hq.2
    exact ⟨_, hg, rfl⟩
  · have hm : ¬ Spec.Mentions p.options q ∨ q ∈ m.final := by
      by_cases h1 : Spec.Mentions p.options q
      · exact .inr (Classical.byContradiction fun h2 => hq ⟨h1, h2⟩)
      · exact .inl h1
    have := (store_miss h q hm).1
    rw [hv.1] at this
    exact ⟨v, this, hv.2⟩

theorem mapAfter_has (as : List (Act σ)) (m : VarMap) (hs : Succeed as m) (q : Str) (h : ∃ v, Has m q v) : ∃ v, Has (mapAfter as m) q v := by
  induction as generalizing m with
  | nil => exact h
  | cons x as ih =>
    cases x with
    | store p u =>
      obtain ⟨v, hv⟩ := h
      exact ih _ hs.2 (store_has (show PO.store p m u = ((PO.store p m u).1, none) from Prod.ext rfl hs.1) q v hv)
    | _ => exact ih m hs h

/-- The rounds of the loop, when it comes to its end: the next is always the first record of the library behind the last one. -/
inductive Rounds (P : Program σ) (f : σ → VarMap → Run σ) : Option Str → σ → VarMap → List (Turn σ) → σ → VarMap → Prop
  | stop {lo s m} (h : ∀ q v, Has m q v → ¬ Behind lo q) : Rounds P f lo s m [] s m
  | turn {lo s m k v sem ts s' m'} (hk : m.map.get? k = some v) (hs : v.semantic = some sem) (hb : Behind lo k)
      (hfirst : ∀ q w, Has m q w → Behind lo q → strLt q k = false)
      (hr : (deliver P f (sem.notify v.v).1 s m).fin = .done) (hn : (sem.notify v.v).2 = none)
      (ht : Rounds P f (some k) (deliver P f (sem.notify v.v).1 s m).s (deliver P f (sem.notify v.v).1 s m).m ts s' m') :
      Rounds P f lo s m (⟨k, v, m, (deliver P f (sem.notify v.v).1 s m).acts, (deliver P f (sem.notify v.v).1 s m).m⟩ :: ts) s' m'

theorem behind_trans {lo : Option Str} {k q : Str} (h : Behind lo k) (hq : strLt k q = true) : Behind lo q := fun x hx => strLt_trans (h x hx) hq

theorem rounds_skip {P : Program σ} {f : σ → VarMap → Run σ} {lo : Option Str} {k : Str} {v : VarValue} {s : σ} {m : VarMap} {ts s' m'}
    (hk : m.map.get? k = some v) (hv : v.semantic = none) (hb : Behind lo k) (hfirst : ∀ q w, m.map.get? q = some w → Behind lo q → strLt q k = false)
    (h : Rounds P f (some k) s m ts s' m') : Rounds P f lo s m ts s' m' := by
  have hbeyond : ∀ q w, Has m q w → Behind lo q → Behind (some k) q := by
    intro q w hq hlo x hx
    cases hx
    have h1 := hfirst q w hq.1 hlo
    cases h2 : strLt k q with
    | true => rfl
    | false =>
      have := strLt_connex h2 h1
      subst this
      obtain ⟨e, h3⟩ := hq
      rw [hk] at e
      cases e
      rw [hv] at h3
      cases h3
  cases h with
  | stop h => exact .stop fun q w hq hlo => h q w hq (hbeyond q w hq hlo)
  | turn hk' hs' hb' hfirst' hr hn ht =>
    exact .turn hk' hs' (behind_trans hb (hb' k rfl)) (fun q w hq hlo => hfirst' q w hq (hbeyond q w hq hlo)) hr hn ht

theorem walk_rounds {P : Program σ} (hP : StoresOnly P) (f : σ → VarMap → Run σ) (n : Nat) (lo : Option Str) (c : Option (Str × VarValue)) (s : σ) (m : VarMap)
    (hm : SMap.Sorted m.map) (hc : At lo m.map c) (hf : (walk P f n c s m).fin = .done) :
    Rounds P f lo s m (walk P f n c s m).turns (walk P f n c s m).s (walk P f n c s m).m := by
  induction n generalizing lo c s m with
  | zero =>
    cases c with
    | none => exact .stop fun q v hq => hc.none_ rfl q v hq.1
    | some q => simp [walk] at hf
  | succ n ih =>
    cases c with
    | none => exact .stop fun q v hq => hc.none_ rfl q v hq.1
    | some q =>
      obtain ⟨k, v⟩ := q
      obtain ⟨h1, h2, h3⟩ := hc.some_ k v rfl
      simp only [walk] at hf ⊢
      cases hs : v.semantic with
      | none =>
        rw [hs] at hf
        exact rounds_skip h1 hs h2 h3 (ih (some k) _ _ _ hm (at_next hm k) hf)
      | some sem =>
        rw [hs] at hf
        dsimp only at hf ⊢
        obtain ⟨hd, hr, hmm⟩ := deliver_harmless hP f (sem.notify v.v).1 s m
        rcases hd with hd | ⟨e, hd⟩
        · rw [hd] at hf ⊢
          cases hn : (sem.notify v.v).2 with
          | some e => rw [hn] at hf; cases hf
          | none =>
            rw [hn] at hf
            dsimp only at hf ⊢
            rw [if_neg (by rw [hr]; simp)] at hf ⊢
            have hsort : SMap.Sorted (deliver P f (sem.notify v.v).1 s m).m.map := by rw [hmm]; exact mapAfter_sorted _ _ hm
            exact .turn h1 hs h2 (fun q w hq => h3 q w hq.1) hd hn (ih (some k) _ _ _ hsort (at_next hsort k) hf)
        · rw [hd] at hf; cases hf

theorem notify_rounds {P : Program σ} (hP : StoresOnly P) {s : σ} {m : VarMap} {r : Run σ} (hm : SMap.Sorted m.map) (h : Ends P s m r) (hr : r.fin = .done) :
    ∃ f, Rounds P f none s m r.turns r.s r.m := by
  obtain ⟨n, rfl, -⟩ := h
  cases n with
  | zero => cases hr
  | succ n =>
    simp only [notify] at hr ⊢
    cases hmr : VarMap.missingRequired m.map m.required with
    | some d => rw [hmr] at hr; cases hr
    | none =>
      rw [hmr] at hr
      exact ⟨_, walk_rounds hP _ _ _ _ _ _ hm (at_head hm) hr⟩

section
variable {P : Program σ} {f : σ → VarMap → Run σ} {lo : Option Str} {s s' : σ} {m m' : VarMap} {ts : List (Turn σ)}

theorem rounds_behind (h : Rounds P f lo s m ts s' m') : (∀ t ∈ ts, Behind lo t.name) ∧ ts.Pairwise fun a b => strLt a.name b.name = true := by
  induction h with
  | stop => exact ⟨fun _ ht => absurd ht List.not_mem_nil, .nil⟩
  | @turn lo s m k v sem ts s' m' hk hs hb _ _ _ _ ih =>
    refine ⟨fun t ht => ?_, List.pairwise_cons.2 ⟨fun t ht => ih.1 t ht k rfl, ih.2⟩⟩
    rcases List.mem_cons.1 ht with rfl | ht
    · exact hb
    · exact behind_trans hb (ih.1 t ht k rfl)

theorem rounds_record (h : Rounds P f lo s m ts s' m') : ∀ t ∈ ts, Has t.before t.name t.record := by
  induction h with
  | stop => exact fun _ ht => absurd ht List.not_mem_nil
  | @turn lo s m k v sem ts s' m' hk hs hb _ _ _ _ ih =>
    intro t ht
    rcases List.mem_cons.1 ht with rfl | ht
    · exact ⟨hk, by simp [hs]⟩
    · exact ih t ht

theorem rounds_names (hP : StoresOnly P) (h : Rounds P f lo s m ts s' m') (q : Str) (hq : (m.map.get? q).isSome = true) :
    (m'.map.get? q).isSome = true ∧ ∀ t ∈ ts, (t.before.map.get? q).isSome = true := by
  induction h with
  | stop => exact ⟨hq, fun _ ht => absurd ht List.not_mem_nil⟩
  | @turn lo s m k v sem ts s' m' hk hs hb _ _ _ _ ih =>
    have := ih (by rw [(deliver_harmless hP f _ s m).2.2]; exact mapAfter_keeps _ _ _ hq)
    refine ⟨this.1, fun t ht => ?_⟩
    rcases List.mem_cons.1 ht with rfl | ht
    · exact hq
    · exact this.2 t ht

theorem rounds_after (hP : StoresOnly P) (h : Rounds P f lo s m ts s' m') : ∀ t ∈ ts, t.after = mapAfter t.acts t.before := by
  induction h with
  | stop => exact fun _ ht => absurd ht List.not_mem_nil
  | @turn lo s m k v sem ts s' m' hk hs hb _ _ _ _ ih =>
    intro t ht
    rcases List.mem_cons.1 ht with rfl | ht
    · exact (deliver_harmless hP f _ s m).2.2
    · exact ih t ht

theorem rounds_has (ha : ∀ t ∈ ts, Succeed t.acts t.before) (hP : StoresOnly P) (h : Rounds P f lo s m ts s' m') (q : Str) (hq : ∃ v, Has m q v) :
    (∃ v, Has m' q v) ∧ ∀ t ∈ ts, ∃ v, Has t.before q v := by
  induction h with
  | stop => exact ⟨hq, fun _ ht => absurd ht List.not_mem_nil⟩
  | @turn lo s m k v sem ts s' m' hk hs hb _ _ _ _ ih =>
    have := ih (fun t ht => ha t (List.mem_cons_of_mem _ ht)) (by
      rw [(deliver_harmless hP f _ s m).2.2]
      exact mapAfter_has _ _ (ha _ (List.mem_cons_self ..)) q hq)
    refine ⟨this.1, fun t ht => ?_⟩
    rcases List.mem_cons.1 ht with rfl | ht
    · exact hq
    · exact this.2 t ht

/-- A later round finds what an earlier one found. -/
theorem rounds_later (hP : StoresOnly P) (h : Rounds P f lo s m ts s' m') (q : Str) (t t' : Turn σ) (ht : t ∈ ts) (ht' : t' ∈ ts)
    (hlt : strLt t'.name t.name = true) (hq : (t'.before.map.get? q).isSome = true) : (t.before.map.get? q).isSome = true := by
  induction h with
  | stop => cases ht
  | @turn lo s m k v sem ts s' m' hk hs hb hf hr hn hrest ih =>
    have hall := rounds_names hP (.turn hk hs hb hf hr hn hrest) q
    rcases List.mem_cons.1 ht' with rfl | ht'
    · exact (hall hq).2 t ht
    · rcases List.mem_cons.1 ht with rfl | ht
      · have := (rounds_behind hrest).1 t' ht' k rfl
        rw [strLt_asymm this] at hlt
        cases hlt
      · exact ih ht ht'

theorem rounds_later_has (hP : StoresOnly P) (ha : ∀ t ∈ ts, Succeed t.acts t.before) (h : Rounds P f lo s m ts s' m') (q : Str) (t t' : Turn σ) (ht : t ∈ ts) (ht' : t' ∈ ts)
    (hlt : strLt t'.name t.name = true) (hq : ∃ v, Has t'.before q v) : ∃ v, Has t.before q v := by
  induction h with
  | stop => cases ht
  | @turn lo s m k v sem ts s' m' hk hs hb hf hr hn hrest ih =>
    have hall := rounds_has ha hP (.turn hk hs hb hf hr hn hrest) q
    rcases List.mem_cons.1 ht' with rfl | ht'
    · exact (hall hq).2 t ht
    · rcases List.mem_cons.1 ht with rfl | ht
      · have := (rounds_behind hrest).1 t' ht' k rfl
        rw [strLt_asymm this] at hlt
        cases hlt
      · exact ih (fun t ht => ha t (List.mem_cons_of_mem _ ht)) ht ht'

/-- The final map has what each round found, or more. -/
theorem rounds_final_has (hP : StoresOnly P) (ha : ∀ t ∈ ts, Succeed t.acts t.before) (h : Rounds P f lo s m ts s' m') (q : Str) (t : Turn σ) (ht : t ∈ ts) (hq : ∃ v, Has t.before q v) :
    ∃ v, Has m' q v := by
  induction h with
  | stop => cases ht
  | @turn lo s m k v sem ts s' m' hk hs hb hf hr hn hrest ih =>
    rcases List.mem_cons.1 ht with rfl | ht
    · exact (rounds_has ha hP (.turn hk hs hb hf hr hn hrest) q hq).1
    · exact ih (fun t ht => ha t (List.mem_cons_of_mem _ ht)) ht

theorem rounds_unique (h : Rounds P f lo s m ts s' m') (t t' : Turn σ) (ht : t ∈ ts) (ht' : t' ∈ ts) (he : t.name = t'.name) : t = t' := by
  have hp := (rounds_behind h).2
  clear h
  induction ts with
  | nil => cases ht
  | cons a ts ih =>
    obtain ⟨h1, h2⟩ := List.pairwise_cons.1 hp
    rcases List.mem_cons.1 ht with rfl | ht
    · rcases List.mem_cons.1 ht' with rfl | ht'
      · rfl
      · have := h1 t' ht'; rw [he, strLt_irrefl] at this; cases this
    · rcases List.mem_cons.1 ht' with rfl | ht'
      · have := h1 t (by assumption); rw [he, strLt_irrefl] at this; cases this
      · exact ih ht ht' h2

/-- What is in the map at the end has been told, or it was not there when the loop came by. -/
theorem rounds_passed (h : Rounds P f lo s m ts s' m') (q : Str) (v : VarValue) (hq : Has m' q v) (hb : Behind lo q) :
    (∃ t ∈ ts, t.name = q) ∨ ∃ t ∈ ts, strLt q t.name = true ∧ ¬ ∃ w, Has t.before q w := by
  induction h with
  | stop h => exact absurd hb (h q v hq)
  | @turn lo s m k w sem ts s' m' hk hs hbk hf hr hn hrest ih =>
    by_cases he : k = q
    · exact .inl ⟨_, List.mem_cons_self .., he⟩
    · cases hlt : strLt k q with
      | true =>
        rcases ih hq (fun x hx => by cases hx; exact hlt) with ⟨t, ht, h1⟩ | ⟨t, ht, h1⟩
        · exact .inl ⟨t, List.mem_cons_of_mem _ ht, h1⟩
        · exact .inr ⟨t, List.mem_cons_of_mem _ ht, h1⟩
      | false =>
        have hqk : strLt q k = true := by
          cases h' : strLt q k with
          | true => rfl
          | false => exact absurd (strLt_connex hlt h') he
        refine .inr ⟨_, List.mem_cons_self .., hqk, ?_⟩
        rintro ⟨w', hw'⟩
        have := hf q w' hw' hb
        rw [hqk] at this
        cases this

/-- If no round touches what is up to its name, neither do they all. -/
theorem rounds_untouched (h : Rounds P f lo s m ts s' m') (hfw : ∀ t ∈ ts, ∀ q, strLt t.name q = false → t.after.map.get? q = t.before.map.get? q) :
    (∀ q, (∀ t ∈ ts, strLt t.name q = false) → m'.map.get? q = m.map.get? q) ∧
      ∀ t ∈ ts, ∀ q, strLt t.name q = false → m'.map.get? q = t.before.map.get? q := by
  induction h with
  | stop => exact ⟨fun _ _ => rfl, fun _ ht => absurd ht List.not_mem_nil⟩
  | @turn lo s m k w sem ts s' m' hk hs hbk hf hr hn hrest ih =>
    obtain ⟨i1, i2⟩ := ih fun t ht => hfw t (List.mem_cons_of_mem _ ht)
    have hhead := hfw _ (List.mem_cons_self ..)
    dsimp only at hhead
    have hall := (rounds_behind hrest).1
    have hk : ∀ q, strLt k q = false → m'.map.get? q = m.map.get? q := by
      intro q hq
      rw [← hhead q hq]
      refine i1 q fun t ht => ?_
      cases h' : strLt t.name q with
      | false => rfl
      | true => rw [strLt_trans (hall t ht k rfl) h'] at hq; cases hq
    refine ⟨fun q hq => hk q (hq _ (List.mem_cons_self ..)), fun t ht q hq => ?_⟩
    rcases List.mem_cons.1 ht with rfl | ht
    · exact hk q hq
    · exact i2 t ht q hq
end

end PO.Reentrant
