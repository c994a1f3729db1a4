import Verif.Lemmas.StoreGrammar
import Verif.Props.Notify
/-
C65-C68: what a `store` does, exactly; independence of the order of options and sources.
-/
namespace PO
open Spec

/-! ### C65 -/

/-- **C65.** A source is stored without exception iff every name in it that is not final yet stands for exactly one option, which
accepts all its occurrences in order. -/
theorem C65_succeeds (p : Parsed) (xm : VarMap) (utf8 : Bool) : (store p xm utf8).2 = none ↔ AllYield p.desc xm utf8 p.options := by
  rw [store_snd]; exact storeLoop_none_iff _ _ _ _ _

/-- The exception is that of the first option that cannot be stored, with its name and token added. -/
theorem C65_fails (p : Parsed) (xm : VarMap) (utf8 : Bool) (f : Fail) :
    (store p xm utf8).2 = some f ↔ ∃ before o after e, FirstFault p xm utf8 before o after e ∧
      f = e.addContext o.stringKey (o.originalTokens.headD []) p.pre := by
  rw [store_snd]
  constructor
  · intro h
    cases hl : storeLoop p.desc p.pre utf8 xm.final p.options xm.map [] with
    | mk s g =>
      rw [hl] at h; simp only at h; subst h
      obtain ⟨before, o, after, m, nf, e, h1, h2, h3, h4, h5, h6, h7, -⟩ := storeLoop_some _ _ _ _ _ _ _ hl
      exact ⟨before, o, after, e, ⟨h1, h2, h3, h4, storeLoop_yield h5, h6⟩, h7⟩
  · rintro ⟨before, o, after, e, h, rfl⟩
    rw [h.split, storeLoop_append']
    have hb := (storeLoop_none_iff p.desc p.pre utf8 xm before).2 h.fine
    cases hl : storeLoop p.desc p.pre utf8 xm.final before xm.map [] with
    | mk s g =>
      rw [hl] at hb; simp only at hb; subst hb
      obtain ⟨s', hs⟩ := (storeOne_objects (m := s.1) (nf := s.2) hl o h.named h.registered h.open_ _).2 ⟨e, h.fault, rfl⟩
      simp only
      rw [storeLoop, hs]

/-- What is added: the name (unless the exception never names its option), the token and the style; nothing else changes, and an exception that is not about an
option stays as it is. -/
theorem C65_told (p : Parsed) (xm : VarMap) (utf8 : Bool) (f : Fail) (h : (store p xm utf8).2 = some f) :
    ∃ before o after e, FirstFault p xm utf8 before o after e ∧ ToldWhere e o.stringKey (o.originalTokens.headD []) p.pre f := by
  obtain ⟨before, o, after, e, hf, rfl⟩ := (C65_fails p xm utf8 f).1 h
  refine ⟨before, o, after, e, hf, ?_, ?_⟩
  · intro hn
    cases e <;> first | rfl | exact absurd rfl (hn _)
  · rintro x rfl
    refine ⟨_, rfl, ?_, rfl, ?_, ?_, ?_⟩
    · unfold OptErr.addContext OptErr.setSubst
      dsimp only
      split <;> rfl
    · exact (SMap.get?_set _ _ _ _).trans (by simp)
    · have : str% "option" ≠ str% "original_token" := by decide
      unfold OptErr.addContext OptErr.setSubst
      dsimp only
      rw [SMap.get?_set, if_neg this.symm]
      cases x.cls <;> first | rfl | exact (SMap.get?_set _ _ _ _).trans (by simp)
    · intro k h1 h2
      unfold OptErr.addContext OptErr.setSubst
      dsimp only
      rw [SMap.get?_set, if_neg h1.symm]
      split
      · rfl
      · exact (SMap.get?_set _ _ _ _).trans (if_neg h2.symm)

/-- After a success each name has the value its occurrences give it; a name without occurrences, or final already, keeps its
value or gets the first default. Names given a value become final unless their option is composing. -/
theorem C65_result (p : Parsed) (xm xm' : VarMap) (utf8 : Bool) (h : store p xm utf8 = (xm', none)) (name : Str) :
    (Mentions p.options name → name ∉ xm.final → ∃ d a, Yields p.desc xm utf8 p.options name d a ∧
      xm'.map.get? name = some { v := a, defaulted := false, semantic := some d.semantic } ∧
      (name ∈ xm'.final ↔ d.semantic.isComposing = false)) ∧
    (¬ Mentions p.options name ∨ name ∈ xm.final →
      xm'.map.get? name =
        (match xm.map.get? name with
         | some v => some v
         | none => (firstDefault p.desc name).map fun q => { v := q.2, defaulted := true, semantic := some q.1 }) ∧
      (name ∈ xm'.final ↔ name ∈ xm.final)) := by
  constructor
  · intro hm hf
    obtain ⟨d, a, h1, h2, h3, h4⟩ := store_hit h name hm hf
    rw [← given_eq] at h2
    exact ⟨d, a, ⟨(find_ok_iff _ _ _).1 h1, h2⟩, h3, h4⟩
  · exact store_miss h name

/-- The record a name has had so far, a default counting as nothing. -/
def soFar (p : Parsed) (xm : VarMap) (utf8 : Bool) (before : List Opt) (name : Str) (r : Option VarValue) : Prop :=
  (Mentions before name → name ∉ xm.final → ∃ d a, Yields p.desc xm utf8 before name d a ∧
    r = some { v := a, defaulted := false, semantic := some d.semantic }) ∧
  (¬ Mentions before name ∨ name ∈ xm.final → r = xm.map.get? name)

/-- After a failure the options before the faulty one have been stored, no default has been applied and nothing has become final
or required; the faulty option's record is replaced by what its value semantic left behind. -/
theorem C65_failed_state (p : Parsed) (xm xm' : VarMap) (utf8 : Bool) (f : Fail) (h : store p xm utf8 = (xm', some f)) :
    ∃ before o after e, FirstFault p xm utf8 before o after e ∧ xm'.final = xm.final ∧ xm'.required = xm.required ∧
      (∀ name, name ≠ o.stringKey → soFar p xm utf8 before name (xm'.map.get? name)) ∧
      ((candidates p.desc o.stringKey).length ≠ 1 → soFar p xm utf8 before o.stringKey (xm'.map.get? o.stringKey)) ∧
      (∀ d, candidates p.desc o.stringKey = [d] → ∃ r a, soFar p xm utf8 before o.stringKey r ∧ Yields p.desc xm utf8 before o.stringKey d a ∧
        (d.semantic.parse a o.value utf8).2 = some e ∧
        xm'.map.get? o.stringKey = some
          { v := (d.semantic.parse a o.value utf8).1, defaulted := false
            semantic := match r with | some v => if v.defaulted = true then none else v.semantic | none => none }) := by
  obtain ⟨m', nf', hl, rfl⟩ := store_failed h
  obtain ⟨before, o, after, m, nf, e, h1, h2, h3, h4, h5, h6, h7, h8⟩ := storeLoop_some _ _ _ _ _ _ _ hl
  refine ⟨before, o, after, e, ⟨h1, h2, h3, h4, storeLoop_yield h5, h6⟩, rfl, rfl, ?_⟩
  have hso : ∀ name, soFar p xm utf8 before name (m.get? name) := by
    intro name
    constructor
    · intro hm hf
      obtain ⟨d, a, hy⟩ := storeLoop_yield h5 name hm hf
      obtain ⟨a', e1, -, e2, -⟩ := storeLoop_given h5 name hf d hy.1
      rw [hy.2] at e1; cases e1
      exact ⟨d, a, hy, e2 hm⟩
    · intro hm
      have := (storeLoop_frame p.desc p.pre utf8 xm.final name before xm.map [] hm).1
      rw [h5] at this; exact this
  rw [storeOne_open _ _ _ _ _ _ _ h2 h3 h4] at h8
  dsimp only
  cases hfind : findOrThrow p.desc o.stringKey false false false with
  | error g =>
    rw [hfind] at h8
    simp only [Prod.mk.injEq, Option.some.injEq] at h8
    obtain ⟨⟨rfl, -⟩, -⟩ := h8
    refine ⟨fun name _ => hso name, fun _ => hso _, fun d hd => ?_⟩
    rw [(find_ok_iff _ _ _).2 hd] at hfind; cases hfind
  | ok d =>
    have hc := (find_ok_iff _ _ _).1 hfind
    obtain ⟨a, ha, hv, -⟩ := storeLoop_given h5 o.stringKey h4 d hc
    have hv' : (if ((m.get? o.stringKey).getD {}).defaulted = true then ({} : VarValue) else (m.get? o.stringKey).getD {}).v = a := by
      rw [← hv]; split <;> rfl
    rw [hfind] at h8
    simp only [hv'] at h8
    cases hp : d.semantic.parse a o.value utf8 with
    | mk b e' =>
      rw [hp] at h8
      cases e' with
      | none => cases h8
      | some e' =>
        simp only [Prod.mk.injEq, Option.some.injEq] at h8
        obtain ⟨⟨rfl, -⟩, he⟩ := h8
        have hee : e' = e := by
          cases h6 with
          | unknown h => rw [hc] at h; cases h
          | ambiguous h => rw [hc] at h; simp at h
          | value d' a' h he' =>
            rw [h.1] at hc; cases hc
            rw [h.2] at ha; cases ha
            rw [hp] at he'; simpa using he'
        subst hee
        refine ⟨fun name hn => ?_, fun hn => ?_, fun d' hd' => ?_⟩
        · rw [SMap.get?_set, if_neg (Ne.symm hn)]; exact hso name
        · rw [hc] at hn; exact absurd rfl hn
        · rw [hc] at hd'; cases hd'
          refine ⟨m.get? o.stringKey, a, hso _, ⟨hc, ha⟩, by rw [hp], ?_⟩
          rw [SMap.get?_set, if_pos rfl, hp]
          cases m.get? o.stringKey with
          | none => rfl
          | some v =>
            simp only [Option.getD_some]
            cases hdf : v.defaulted <;> simp [hdf]

/-! ### Well-formed maps -/

/-- The containers of a map are ordered. -/
structure VarMap.Ordered (m : VarMap) : Prop where
  map : SMap.Sorted m.map
  final : SSet.Sorted m.final
  required : SMap.Sorted m.required

theorem ordered_empty : VarMap.Ordered {} := ⟨by simp, by simp, by simp⟩

theorem ordered_store {xm : VarMap} (h : xm.Ordered) (p : Parsed) (utf8 : Bool) : (store p xm utf8).1.Ordered := by
  have hm := store_sorted p xm utf8 h.map
  cases hs : store p xm utf8 with
  | mk xm' f =>
    rw [hs] at hm
    cases f with
    | some f =>
      obtain ⟨e1, e2, -⟩ := store_failed_frame hs
      exact ⟨hm, by rw [e1]; exact h.final, by rw [e2]; exact h.required⟩
    | none =>
      obtain ⟨m, nf, -, rfl⟩ := store_ok hs
      exact ⟨hm, SSet.sorted_insertAll h.final _, applyAll_required_sorted _ _ _ _ h.required⟩

theorem smap_ext {α : Type} {a b : SMap α} (ha : a.Sorted) (hb : b.Sorted) (h : ∀ k, a.get? k = b.get? k) : a = b := by
  have hnd : ∀ {m : SMap α}, m.Sorted → m.Nodup := by
    intro m hm
    refine List.Pairwise.imp ?_ hm
    rintro x y hxy rfl
    rw [strLt_irrefl] at hxy; cases hxy
  have hp : a.Perm b := by
    refine (List.perm_ext_iff_of_nodup (hnd ha) (hnd hb)).2 ?_
    rintro ⟨k, v⟩
    rw [← SMap.get?_eq_some ha, ← SMap.get?_eq_some hb, h]
  refine hp.eq_of_pairwise ?_ ha hb
  intro x y _ _ h1 h2
  rw [strLt_asymm h1] at h2; cases h2

theorem ordered_ext {a b : VarMap} (ha : a.Ordered) (hb : b.Ordered) (h1 : ∀ k, a.map.get? k = b.map.get? k)
    (h2 : ∀ k, k ∈ a.final ↔ k ∈ b.final) (h3 : ∀ k, a.required.get? k = b.required.get? k) : a = b := by
  cases a; cases b
  congr
  · exact smap_ext ha.map hb.map h1
  · exact SSet.ext ha.final hb.final h2
  · exact smap_ext ha.required hb.required h3

theorem store_required {p : Parsed} {xm xm' : VarMap} {utf8 : Bool} (h : store p xm utf8 = (xm', none)) (key : Str) :
    xm'.required.get? key = recorded (xm.required.get? key)
      ((p.desc.filter fun d => d.own = key ∧ key ≠ [] ∧ d.semantic.isRequired = true).map (·.canonicalDisplayName p.pre)) := by
  obtain ⟨m, nf, -, rfl⟩ := store_ok h
  exact applyAll_required _ _ _ _ _

/-! ### C66 -/

theorem mentions_occurrences {a b : List Opt} {name : Str} (h : occurrences a name = occurrences b name) : Mentions a name ↔ Mentions b name := by
  rw [mentions_iff, mentions_iff, h]

theorem allYield_congr {desc : List OptionDesc} {xm : VarMap} {utf8 : Bool} {a b : List Opt} (h : ∀ name, occurrences a name = occurrences b name)
    (ha : AllYield desc xm utf8 a) : AllYield desc xm utf8 b := by
  intro name hm hf
  obtain ⟨d, v, h1, h2⟩ := ha name ((mentions_occurrences (h name)).2 hm) hf
  exact ⟨d, v, h1, by rw [← h name]; exact h2⟩

/-- **C66.** Only the order of the occurrences of each single name matters: two sources with the same occurrences of every name
have the same effect. -/
theorem C66_order_irrelevant (p p' : Parsed) (hd : p'.desc = p.desc) (hp : p'.pre = p.pre)
    (ho : ∀ name, occurrences p'.options name = occurrences p.options name) (xm : VarMap) (hx : xm.Ordered) (utf8 : Bool) (m : VarMap) :
    store p xm utf8 = (m, none) ↔ store p' xm utf8 = (m, none) := by
  have key : ∀ (p p' : Parsed) (_ : p'.desc = p.desc) (_ : p'.pre = p.pre)
      (_ : ∀ name, occurrences p'.options name = occurrences p.options name), store p xm utf8 = (m, none) → store p' xm utf8 = (m, none) := by
    intro p p' hd hp ho h
    have h2 : (store p' xm utf8).2 = none := by
      rw [C65_succeeds, hd]
      refine allYield_congr (fun n => (ho n).symm) ((C65_succeeds p xm utf8).1 (by rw [h]))
    have e' : store p' xm utf8 = ((store p' xm utf8).1, none) := Prod.ext rfl h2
    have e1 : (store p' xm utf8).1 = m := by
      have om := ordered_store hx p utf8
      rw [h] at om
      refine ordered_ext (ordered_store hx p' utf8) om (fun k => ?_) (fun k => ?_) (fun k => ?_)
      · obtain ⟨r1, r2⟩ := C65_result p' xm _ utf8 e' k
        obtain ⟨s1, s2⟩ := C65_result p xm _ utf8 h k
        by_cases hc : Mentions p.options k ∧ k ∉ xm.final
        · obtain ⟨d, a, ⟨y1, y2⟩, y3, -⟩ := s1 hc.1 hc.2
          obtain ⟨d', a', ⟨z1, z2⟩, z3, -⟩ := r1 ((mentions_occurrences (ho k)).2 hc.1) hc.2
          rw [hd, y1] at z1; cases z1
          rw [ho k, y2] at z2; cases z2
          rw [y3, z3]
        · have hc' : ¬ Mentions p.options k ∨ k ∈ xm.final := by
            by_cases hm : Mentions p.options k
            · exact .inr (Decidable.byContradiction fun hn => hc ⟨hm, hn⟩)
            · exact .inl hm
          rw [(s2 hc').1, (r2 (by rw [mentions_occurrences (ho k)]; exact hc')).1, hd]
      · obtain ⟨r1, r2⟩ := C65_result p' xm _ utf8 e' k
        obtain ⟨s1, s2⟩ := C65_result p xm _ utf8 h k
        by_cases hc : Mentions p.options k ∧ k ∉ xm.final
        · obtain ⟨d, a, ⟨y1, -⟩, -, y3⟩ := s1 hc.1 hc.2
          obtain ⟨d', a', ⟨z1, -⟩, -, z3⟩ := r1 ((mentions_occurrences (ho k)).2 hc.1) hc.2
          rw [hd, y1] at z1; cases z1
          rw [y3, z3]
        · have hc' : ¬ Mentions p.options k ∨ k ∈ xm.final := by
            by_cases hm : Mentions p.options k
            · exact .inr (Decidable.byContradiction fun hn => hc ⟨hm, hn⟩)
            · exact .inl hm
          rw [(s2 hc').2, (r2 (by rw [mentions_occurrences (ho k)]; exact hc')).2]
      · rw [store_required e', store_required h, hd, hp]
    rw [e', e1]
  exact ⟨key p p' hd hp ho, key p' p hd.symm hp.symm fun n => (ho n).symm⟩

/-! ### C67 -/

theorem given_congr {a b : VarMap} {name : Str} (h : a.map.get? name = b.map.get? name) : given a name = given b name := by
  unfold given; rw [h]

/-- A store leaves the explicit value of a name it does not mention as it is. -/
theorem given_miss {p : Parsed} {xm xm' : VarMap} {utf8 : Bool} (h : store p xm utf8 = (xm', none)) (name : Str)
    (hm : ¬ Mentions p.options name) : given xm' name = given xm name := by
  have := ((C65_result p xm xm' utf8 h name).2 (.inl hm)).1
  unfold given
  rw [this]
  cases xm.map.get? name with
  | some v => rfl
  | none => cases firstDefault p.desc name <;> rfl

theorem yields_miss {p : Parsed} {xm xm' : VarMap} {utf8 : Bool} (h : store p xm utf8 = (xm', none)) {q : List Opt} {desc : List OptionDesc} {u : Bool}
    {name : Str} (hm : ¬ Mentions p.options name) (d : OptionDesc) (a : Any) :
    Yields desc xm' u q name d a ↔ Yields desc xm u q name d a := by
  unfold Yields; rw [given_miss h name hm]

theorem commute_aux (p q : Parsed) (hd : q.desc = p.desc) (hdis : ∀ name, Mentions p.options name → ¬ Mentions q.options name)
    (xm m1 m2 : VarMap) (hx : xm.Ordered) (u v : Bool) (h1 : store p xm u = (m1, none)) (h2 : store q m1 v = (m2, none)) :
    ∃ m1' m2', store q xm v = (m1', none) ∧ store p m1' u = (m2', none) ∧ m2'.map = m2.map ∧ m2'.final = m2.final ∧
      (q.pre = p.pre → m2' = m2) := by
  have f1 := C65_result p xm m1 u h1
  have f2 := C65_result q m1 m2 v h2
  -- `q` first
  have a1 : (store q xm v).2 = none := by
    rw [C65_succeeds]
    intro name hm hf
    have hnp : ¬ Mentions p.options name := fun hh => hdis name hh hm
    obtain ⟨d, a, hy⟩ := (C65_succeeds q m1 v).1 (by rw [h2]) name hm (by rw [((f1 name).2 (.inl hnp)).2]; exact hf)
    exact ⟨d, a, (yields_miss h1 hnp d a).1 hy⟩
  have e1 : store q xm v = ((store q xm v).1, none) := Prod.ext rfl a1
  have g1 := C65_result q xm _ v e1
  have a2 : (store p (store q xm v).1 u).2 = none := by
    rw [C65_succeeds]
    intro name hm hf
    have hnq := hdis name hm
    obtain ⟨d, a, hy⟩ := (C65_succeeds p xm u).1 (by rw [h1]) name hm (by rw [← ((g1 name).2 (.inl hnq)).2]; exact hf)
    exact ⟨d, a, (yields_miss e1 hnq d a).2 hy⟩
  have e2 : store p (store q xm v).1 u = ((store p (store q xm v).1 u).1, none) := Prod.ext rfl a2
  have g2 := C65_result p _ _ u e2
  have o1 := ordered_store hx p u
  rw [h1] at o1
  have o2 := ordered_store o1 q v
  rw [h2] at o2
  have both : ∀ k, (store p (store q xm v).1 u).1.map.get? k = m2.map.get? k ∧
      (k ∈ (store p (store q xm v).1 u).1.final ↔ k ∈ m2.final) := by
    intro k
    by_cases hf : k ∈ xm.final
    · have b1 := (f1 k).2 (.inr hf)
      have b2 := (f2 k).2 (.inr (b1.2.2 hf))
      have c1 := (g1 k).2 (.inr hf)
      have c2 := (g2 k).2 (.inr (c1.2.2 hf))
      rw [b2.1, b1.1, c2.1, c1.1, b2.2, b1.2, c2.2, c1.2, hd]
      exact ⟨rfl, Iff.rfl⟩
    · by_cases hmp : Mentions p.options k
      · have hnq := hdis k hmp
        obtain ⟨d, a, b0, b1, b2⟩ := (f1 k).1 hmp hf
        have b3 := (f2 k).2 (.inl hnq)
        have c1 := (g1 k).2 (.inl hnq)
        obtain ⟨d', a', c2, c3, c4⟩ := (g2 k).1 hmp (by rw [c1.2]; exact hf)
        have c2 := (yields_miss e1 hnq d' a').1 c2
        obtain ⟨b01, b02⟩ := b0
        obtain ⟨c21, c22⟩ := c2
        rw [b01] at c21; cases c21
        rw [b02] at c22; cases c22
        rw [b3.1, b1, c3, b3.2, b2, c4]
        exact ⟨rfl, Iff.rfl⟩
      · by_cases hmq : Mentions q.options k
        · have b1 := (f1 k).2 (.inl hmp)
          obtain ⟨d, a, b2, b3, b4⟩ := (f2 k).1 hmq (by rw [b1.2]; exact hf)
          have b2 := (yields_miss h1 hmp d a).1 b2
          obtain ⟨d', a', c2, c3, c4⟩ := (g1 k).1 hmq hf
          have c5 := (g2 k).2 (.inl hmp)
          obtain ⟨b01, b02⟩ := b2
          obtain ⟨c21, c22⟩ := c2
          rw [b01] at c21; cases c21
          rw [b02] at c22; cases c22
          rw [b3, c5.1, c3, b4, c5.2, c4]
          exact ⟨rfl, Iff.rfl⟩
        · have b1 := (f1 k).2 (.inl hmp)
          have b2 := (f2 k).2 (.inl hmq)
          have c1 := (g1 k).2 (.inl hmq)
          have c2 := (g2 k).2 (.inl hmp)
          rw [b2.1, b1.1, c2.1, c1.1, b2.2, b1.2, c2.2, c1.2, hd]
          exact ⟨rfl, Iff.rfl⟩
  have o3 := ordered_store (ordered_store hx q v) p u
  refine ⟨_, _, e1, e2, smap_ext o3.map o2.map fun k => (both k).1, SSet.ext o3.final o2.final fun k => (both k).2, fun hpre => ?_⟩
  refine ordered_ext o3 o2 (fun k => (both k).1) (fun k => (both k).2) (fun k => ?_)
  rw [store_required e2, store_required e1, store_required h2, store_required h1, hd, hpre]

/-- **C67.** Two sources that share no name, read with the same descriptions, may be stored in either order: values and final names
are the same in the end, and so is the whole map if option names are displayed alike. -/
theorem C67_disjoint_sources_commute (p q : Parsed) (hd : q.desc = p.desc)
    (hdis : ∀ name, ¬ (Mentions p.options name ∧ Mentions q.options name)) (xm m1 m2 : VarMap) (hx : xm.Ordered) (u v : Bool)
    (h1 : store p xm u = (m1, none)) (h2 : store q m1 v = (m2, none)) :
    ∃ m1' m2', store q xm v = (m1', none) ∧ store p m1' u = (m2', none) ∧ m2'.map = m2.map ∧ m2'.final = m2.final ∧
      (q.pre = p.pre → m2' = m2) :=
  commute_aux p q hd (fun n a b => hdis n ⟨a, b⟩) xm m1 m2 hx u v h1 h2

/-- The full claim without the condition on the displayed names is false: of two display names of equal length the first one is
kept. -/
theorem C67_display_differs : ∃ (p q : Parsed) (m m' m1 m1' : VarMap), q.desc = p.desc ∧ p.options = [] ∧ q.options = [] ∧
    store p {} = (m1, none) ∧ store q m1 = (m, none) ∧ store q {} = (m1', none) ∧ store p m1' = (m', none) ∧ m'.notify ≠ m.notify := by
  refine ⟨{ desc := [Test.od "need,n" (Test.sem { Test.vstr with required := true })], options := [], pre := Style.allowDashForShort },
    { desc := [Test.od "need,n" (Test.sem { Test.vstr with required := true })], options := [], pre := Style.allowSlashForShort },
    _, _, _, _, rfl, rfl, rfl, rfl, rfl, rfl, rfl, ?_⟩
  decide

/-! ### C68 -/

theorem longest_again (init : Str) (names : List Str) (h : ∀ n ∈ names, n.length ≤ init.length) : longest init names = init := by
  induction names with
  | nil => rfl
  | cons n ns ih =>
    have : longest init (n :: ns) = longest (if n.length > init.length then n else init) ns := rfl
    rw [this, if_neg (by have := h n (by simp); omega)]
    exact ih fun x hx => h x (by simp [hx])

theorem recorded_again (old : Option Str) (names : List Str) : recorded (recorded old names) names = recorded old names := by
  unfold recorded
  by_cases h : old = none ∧ names = []
  · simp [h]
  · rw [if_neg h, if_neg (by simp), Option.getD_some, longest_again _ _ (longest_spec _ _).2.2]

/-- **C68.** Storing the same source again changes nothing, if no composing option has a value in it. -/
theorem C68_store_again (p : Parsed) (xm m : VarMap) (hx : xm.Ordered) (u : Bool) (h : store p xm u = (m, none))
    (hc : ∀ name d, Mentions p.options name → candidates p.desc name = [d] → d.semantic.isComposing = false) (v : Bool) :
    store p m v = (m, none) := by
  have f1 := C65_result p xm m u h
  have hfin : ∀ name, Mentions p.options name → name ∈ m.final := by
    intro name hm
    by_cases hf : name ∈ xm.final
    · exact ((f1 name).2 (.inr hf)).2.2 hf
    · obtain ⟨d, a, hy, -, h3⟩ := (f1 name).1 hm hf
      exact h3.2 (hc name d hm hy.1)
  have a1 : (store p m v).2 = none := by
    rw [C65_succeeds]
    intro name hm hf
    exact absurd (hfin name hm) hf
  have e1 : store p m v = ((store p m v).1, none) := Prod.ext rfl a1
  have om := ordered_store hx p u
  rw [h] at om
  have g1 := C65_result p m _ v e1
  have all : ∀ k, ¬ Mentions p.options k ∨ k ∈ m.final := by
    intro k
    by_cases hm : Mentions p.options k
    · exact .inr (hfin k hm)
    · exact .inl hm
  rw [e1]
  congr 1
  refine ordered_ext (ordered_store om p v) om (fun k => ?_) (fun k => ((g1 k).2 (all k)).2) (fun k => ?_)
  · rw [((g1 k).2 (all k)).1]
    cases hk : m.map.get? k with
    | some w => rfl
    | none =>
      by_cases hcase : Mentions p.options k ∧ k ∉ xm.final
      · obtain ⟨d, a, -, h2, -⟩ := (f1 k).1 hcase.1 hcase.2
        rw [h2] at hk; cases hk
      · have hc' : ¬ Mentions p.options k ∨ k ∈ xm.final := by
          by_cases hm : Mentions p.options k
          · exact .inr (Decidable.byContradiction fun hn => hcase ⟨hm, hn⟩)
          · exact .inl hm
        have := ((f1 k).2 hc').1
        rw [hk] at this
        cases hx' : xm.map.get? k with
        | some w => rw [hx'] at this; cases this
        | none => rw [hx'] at this; exact this.symm
  · rw [store_required e1, store_required h, recorded_again]

/-! ### Examples -/

/-- `name` and `inc` may change places, the two occurrences of `inc` may not. -/
def Ex.src1' : Parsed := { Ex.src1 with options := [Ex.o "inc" ["x", "y"], Ex.o "name" ["a"], Ex.o "inc" ["z"]] }

example : store Ex.src1' {} = store Ex.src1 {} := by
  have h : (store Ex.src1 {}).2 = none := by decide
  have e : store Ex.src1 {} = ((store Ex.src1 {}).1, none) := Prod.ext rfl h
  rw [e]
  refine (C66_order_irrelevant Ex.src1 Ex.src1' rfl rfl (fun name => ?_) {} ordered_empty false _).1 e
  show occurrences [Ex.o "inc" ["x", "y"], Ex.o "name" ["a"], Ex.o "inc" ["z"]] name =
    occurrences [Ex.o "name" ["a"], Ex.o "inc" ["x", "y"], Ex.o "inc" ["z"]] name
  simp only [occurrences_cons]
  by_cases h1 : (Ex.o "inc" ["x", "y"]).stringKey = name
  · have : (Ex.o "name" ["a"]).stringKey ≠ name := by rw [← h1]; decide
    simp [this]
  · simp [h1]

example : ((store Ex.src1 {}).1.get (Test.L "inc")).v ≠
    ((store { Ex.src1 with options := [Ex.o "inc" ["z"], Ex.o "inc" ["x", "y"]] } {}).1.get (Test.L "inc")).v := by decide

/-- The first fault in `name=a level=x level=y name=b` is the third option. -/
example : ∃ before o after e, FirstFault { desc := Ex.descs, options := [Ex.o "name" ["a"], Ex.o "level" ["x"], Ex.o "level" ["y"], Ex.o "name" ["b"]] }
      {} false before o after e ∧
    errMultipleOccurrences.addContext (Test.L "level") [] 0 = e.addContext o.stringKey (o.originalTokens.headD []) 0 :=
  (C65_fails { desc := Ex.descs, options := [Ex.o "name" ["a"], Ex.o "level" ["x"], Ex.o "level" ["y"], Ex.o "name" ["b"]] } {} false _).1 rfl

/-- A command line with `name` and a file with `level`. -/
example : ∃ m m', store { desc := Ex.descs, options := [Ex.o "name" ["a"]], pre := 17 } {} = (m, none) ∧
    store { desc := Ex.descs, options := [Ex.o "level" ["b"], Ex.o "inc" ["i"]] } m = (m', none) ∧
    (m'.get (Test.L "name")).v = some (.scalar (.str (Test.L "a"))) ∧ (m'.get (Test.L "level")).v = some (.scalar (.str (Test.L "b"))) :=
  ⟨_, _, rfl, rfl, rfl, rfl⟩

/-- A composing option does change. -/
example : ((store Ex.src1 {}).1.get (Test.L "inc")).v ≠ ((store Ex.src1 (store Ex.src1 {}).1).1.get (Test.L "inc")).v := by decide

example : ∃ m, store { desc := Ex.descs, options := [Ex.o "name" ["a"]] } {} = (m, none) ∧
    store { desc := Ex.descs, options := [Ex.o "name" ["a"]] } m = (m, none) :=
  ⟨_, rfl, C68_store_again _ _ _ ordered_empty false rfl (by
    rintro name d ⟨o, ho, rfl, -⟩ hd
    simp only [List.mem_singleton] at ho
    subst ho
    have : d = Ex.dStr := by
      have e : candidates Ex.descs (Test.L "name") = [Ex.dStr] := rfl
      have hd' : candidates Ex.descs (Test.L "name") = [d] := hd
      rw [e] at hd'; cases hd'; rfl
    subst this; rfl) false⟩

end PO
