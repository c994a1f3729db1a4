import Verif.Spec.NormalForm
import Verif.Props.RoundTrip
import Verif.Props.Stored
import Verif.Props.Parse
import Verif.Props.Tokens
/-
C96: every command line can be written as settings `--name=value`.
-/
namespace PO
open Spec

/-- Stores agree if, for each name, the option it stands for makes the same of the occurrences. -/
theorem store_congr (p p' : Parsed) (hd : p'.desc = p.desc) (hp : p'.pre = p.pre) (xm : VarMap) (hx : xm.Ordered) (utf8 : Bool)
    (hm : ∀ name, Mentions p'.options name ↔ Mentions p.options name)
    (ho : ∀ name d, candidates p.desc name = [d] → ∀ prev r,
      parseAll d.semantic utf8 prev ((occurrences p'.options name).map (·.value)) = .ok r ↔
        parseAll d.semantic utf8 prev ((occurrences p.options name).map (·.value)) = .ok r) (m : VarMap) :
    store p xm utf8 = (m, none) ↔ store p' xm utf8 = (m, none) := by
  have key : ∀ (p p' : Parsed) (_ : p'.desc = p.desc) (_ : p'.pre = p.pre) (_ : ∀ name, Mentions p'.options name ↔ Mentions p.options name)
      (_ : ∀ name d, candidates p.desc name = [d] → ∀ prev r,
      parseAll d.semantic utf8 prev ((occurrences p'.options name).map (·.value)) = .ok r ↔
        parseAll d.semantic utf8 prev ((occurrences p.options name).map (·.value)) = .ok r),
      store p xm utf8 = (m, none) → store p' xm utf8 = (m, none) := by
    intro p p' hd hp hm ho h
    have hs : (store p xm utf8).2 = none := by rw [h]
    have hs' : (store p' xm utf8).2 = none := by
      rw [C65_succeeds] at hs ⊢
      intro name hmn hf
      obtain ⟨d, v, h1, h2⟩ := hs name ((hm name).1 hmn) hf
      exact ⟨d, v, by rw [hd]; exact h1, (ho name d h1 _ _).2 h2⟩
    obtain ⟨m', h'⟩ : ∃ m', store p' xm utf8 = (m', none) := ⟨(store p' xm utf8).1, by rw [← hs']⟩
    have om := ordered_store hx p utf8
    have om' := ordered_store hx p' utf8
    rw [h] at om
    rw [h'] at om'
    rw [h']
    congr 1
    refine ordered_ext om' om (fun k => ?_) (fun k => ?_) (fun k => ?_)
    · obtain ⟨r1, r2⟩ := C65_result p' xm _ utf8 h' k
      obtain ⟨s1, s2⟩ := C65_result p xm _ utf8 h k
      by_cases hc : Mentions p.options k ∧ k ∉ xm.final
      · obtain ⟨d, a, ⟨y1, y2⟩, y3, y4⟩ := s1 hc.1 hc.2
        obtain ⟨d', a', ⟨z1, z2⟩, z3, z4⟩ := r1 ((hm k).2 hc.1) hc.2
        rw [hd, y1] at z1; cases z1
        have z2 := (ho k d y1 _ _).1 z2
        rw [y2] at z2; cases z2
        exact z3.trans y3.symm
      · have hc' : ¬ Mentions p.options k ∨ k ∈ xm.final := by
          by_cases hmk : Mentions p.options k
          · exact .inr (Decidable.byContradiction fun hn => hc ⟨hmk, hn⟩)
          · exact .inl hmk
        have a1 := s2 hc'
        have a2 := r2 (by rw [hm k]; exact hc')
        rw [hd] at a2
        exact a2.1.trans a1.1.symm
    · obtain ⟨r1, r2⟩ := C65_result p' xm _ utf8 h' k
      obtain ⟨s1, s2⟩ := C65_result p xm _ utf8 h k
      by_cases hc : Mentions p.options k ∧ k ∉ xm.final
      · obtain ⟨d, a, ⟨y1, y2⟩, y3, y4⟩ := s1 hc.1 hc.2
        obtain ⟨d', a', ⟨z1, z2⟩, z3, z4⟩ := r1 ((hm k).2 hc.1) hc.2
        rw [hd, y1] at z1; cases z1
        exact z4.trans y4.symm
      · have hc' : ¬ Mentions p.options k ∨ k ∈ xm.final := by
          by_cases hmk : Mentions p.options k
          · exact .inr (Decidable.byContradiction fun hn => hc ⟨hmk, hn⟩)
          · exact .inl hmk
        have a1 := s2 hc'
        have a2 := r2 (by rw [hm k]; exact hc')
        exact a2.2.trans a1.2.symm
    · rw [store_required h', store_required h, hd, hp]
  exact ⟨key p p' hd hp hm ho, key p' p hd.symm hp.symm (fun n => (hm n).symm) fun n d hn prev r => (ho n d (hd ▸ hn) prev r).symm⟩

/-! ### Several values at once, or one after the other -/

theorem takes_many {env : Env} {t : TypedValue} {v : Any} {x y : Word} {ys : List Word} {a : AVal} (h : Takes env t v (x :: y :: ys) a) :
    ∃ st w a', t.type = .vector st ∧ a' = .vector st w ∧ Takes env t v [x] a' ∧ Takes env t (some a') (y :: ys) a := by
  cases h with
  | vector st _ vs ws h hp hi hc =>
  cases hc with
  | cons h1 h2 =>
  rename_i w ws
  refine ⟨st, _, _, h, rfl, .vector st [x] vs [w] h hp nofun (.cons h1 .nil), ?_⟩
  have := Takes.vector (env := env) (t := t) (prev := some (.vector st (vs ++ [w]))) st (y :: ys) (vs ++ [w]) ws h (.some _) nofun h2
  rwa [List.append_assoc] at this

theorem takes_twice {env : Env} {t : TypedValue} {v : Any} {x y : Word} {ys : List Word} {a b : AVal} (h : Takes env t v [x] a)
    (h' : Takes env t (some a) (y :: ys) b) : Takes env t v (x :: y :: ys) b := by
  cases h' with
  | scalar _ _ _ _ hp => cases hp
  | optional _ _ _ _ hp => cases hp
  | vector st _ vs' ws' ht' hp' hi' hc' =>
  cases h with
  | scalar _ _ _ ht => rw [ht'] at ht; cases ht
  | optional _ _ _ ht => rw [ht'] at ht; cases ht
  | vector st _ vs ws ht hp hi hc =>
  rw [ht'] at ht; cases ht
  cases hp'
  cases hc with
  | cons h1 h2 =>
  cases h2
  rename_i w
  have := Takes.vector (env := env) (t := t) (prev := v) st (x :: y :: ys) vs (w :: ws') ht' hp nofun (.cons h1 hc')
  rwa [show vs ++ w :: ws' = vs ++ [w] ++ ws' by simp] at this

/-- Several values of one occurrence are like one value for each of several occurrences. For options that keep a single value, neither
is accepted. -/
theorem gets_split {env : Env} {t : TypedValue} (xs : List Word) (rest : List (List Word)) (r : Any) :
    ∀ v, xs ≠ [] → (Gets env t v (xs :: rest) r ↔ Gets env t v (xs.map ([·]) ++ rest) r) := by
  induction xs with
  | nil => intro v h; exact absurd rfl h
  | cons x xs ih =>
    intro v _
    rw [List.map_cons, List.cons_append]
    cases xs with
    | nil => rfl
    | cons y ys =>
      constructor
      · intro h
        cases h with
        | more _ _ _ a _ htk hr =>
        obtain ⟨st, w, a', -, -, h1, h2⟩ := takes_many htk
        exact .more _ _ _ _ _ h1 ((ih _ nofun).1 (.more _ _ _ _ _ h2 hr))
      · intro h
        cases h with
        | more _ _ _ a _ htk hr =>
        have hr := (ih _ nofun).2 hr
        generalize hl : y :: ys = l at hr
        cases hr with
        | more _ _ _ b _ htk' hr' =>
        subst hl
        exact .more _ _ _ _ _ (takes_twice htk htk') hr'

theorem forall₂_singles {α β : Type} {R : α → β → Prop} {xs : List α} : ∀ {yss : List (List β)},
    List.Forall₂ (List.Forall₂ R) (xs.map ([·])) yss ↔ ∃ ys, yss = ys.map ([·]) ∧ List.Forall₂ R xs ys := by
  induction xs with
  | nil =>
    intro yss
    constructor
    · intro h; cases h; exact ⟨[], rfl, .nil⟩
    · rintro ⟨ys, rfl, h⟩; cases h; exact .nil
  | cons x xs ih =>
    intro yss
    constructor
    · intro h
      rw [List.map_cons] at h
      cases h with
      | cons h1 h2 =>
      cases h1 with
      | cons h1 h1' =>
      cases h1'
      obtain ⟨ys, rfl, h3⟩ := ih.1 h2
      exact ⟨_ :: ys, rfl, .cons h1 h3⟩
    · rintro ⟨ys, rfl, h⟩
      cases h with
      | cons h1 h2 => exact .cons (.cons h1 .nil) (ih.2 ⟨_, rfl, h2⟩)

theorem forall₂_append_left {α β : Type} {R : α → β → Prop} {a b : List α} : ∀ {c : List β}, List.Forall₂ R (a ++ b) c ↔ ∃ c1 c2, c = c1 ++ c2 ∧ List.Forall₂ R a c1 ∧ List.Forall₂ R b c2 := by
  induction a with
  | nil =>
    intro c
    constructor
    · intro h; exact ⟨[], c, rfl, .nil, h⟩
    · rintro ⟨c1, c2, rfl, h1, h2⟩; cases h1; exact h2
  | cons x a ih =>
    intro c
    constructor
    · intro h
      rw [List.cons_append] at h
      cases h with
      | cons h1 h2 =>
      obtain ⟨c1, c2, rfl, h3, h4⟩ := ih.1 h2
      exact ⟨_ :: c1, c2, rfl, .cons h1 h3, h4⟩
    · rintro ⟨c1, c2, rfl, h1, h2⟩
      cases h1 with
      | cons h1 h1' => exact .cons h1 (ih.2 ⟨_, _, rfl, h1', h2⟩)

/-- The values of an option for settings one by one. -/
def singly (vs : List Str) : List (List Str) := if vs = [] then [[]] else vs.map ([·])

theorem parseAll_singly_one {env : Env} {t : TypedValue} (utf8 : Bool) (vs : List Str) (rest : List (List Str)) (prev r : Any) :
    parseAll (t.toSemantic env) utf8 prev (vs :: rest) = .ok r ↔ parseAll (t.toSemantic env) utf8 prev (singly vs ++ rest) = .ok r := by
  unfold singly
  split
  · rename_i h; subst h; rfl
  · rename_i hne
    rw [parseAll_gets, parseAll_gets]
    constructor
    · rintro ⟨texts, h1, h2⟩
      cases h1 with
      | cons h1 h1' =>
      rename_i xs txts
      refine ⟨xs.map ([·]) ++ txts, forall₂_append_left.2 ⟨_, _, rfl, forall₂_singles.2 ⟨_, rfl, h1⟩, h1'⟩, (gets_split _ _ _ _ ?_).1 h2⟩
      rintro rfl; cases h1; exact hne rfl
    · rintro ⟨texts, h1, h2⟩
      obtain ⟨c1, c2, rfl, h3, h4⟩ := forall₂_append_left.1 h1
      obtain ⟨xs, rfl, h5⟩ := forall₂_singles.1 h3
      refine ⟨xs :: c2, .cons h5 h4, (gets_split _ _ _ _ ?_).2 h2⟩
      rintro rfl; cases h5; exact hne rfl

theorem parseAll_step {s : ValueSemantic} {utf8 : Bool} {a : List Str} {b c : List (List Str)} (h : ∀ prev r, parseAll s utf8 prev b = .ok r ↔ parseAll s utf8 prev c = .ok r)
    (prev r : Any) : parseAll s utf8 prev (a :: b) = .ok r ↔ parseAll s utf8 prev (a :: c) = .ok r := by
  rw [parseAll, parseAll]
  cases h1 : s.parse prev a utf8 with
  | mk v f =>
    cases f with
    | some f => simp
    | none => exact h v r

theorem parseAll_prefix {s : ValueSemantic} {utf8 : Bool} {a b c : List (List Str)} (h : ∀ prev r, parseAll s utf8 prev b = .ok r ↔ parseAll s utf8 prev c = .ok r)
    (prev r : Any) : parseAll s utf8 prev (a ++ b) = .ok r ↔ parseAll s utf8 prev (a ++ c) = .ok r := by
  induction a generalizing prev r with
  | nil => exact h prev r
  | cons x a ih => exact parseAll_step ih prev r

theorem untyped_takes {env : Env} {z utf8 : Bool} {prev left : Any} {toks : List Str} (h : (untypedValue env z).parse prev toks utf8 = (left, none)) :
    prev = none ∧ left ≠ none ∧ toks.length ≤ 1 := by
  rcases (C82_untyped env z prev toks utf8 _ _).1 h with ⟨-, -, h⟩ | ⟨xs, hxs, ⟨-, -, h⟩ | ⟨h, rfl, h', -⟩ | ⟨_, h, rfl, h', -⟩ | ⟨-, -, -, h⟩⟩
  · cases h
  · cases h
  · exact ⟨h, by rw [h']; nofun, by rw [hxs.length_eq]; simp⟩
  · exact ⟨h, by rw [h']; nofun, by rw [hxs.length_eq]; simp⟩
  · cases h

theorem parseAll_untyped {env : Env} {z utf8 : Bool} {prev r : Any} {vs : List Str} {rest : List (List Str)}
    (h : parseAll (untypedValue env z) utf8 prev (vs :: rest) = .ok r) :
    prev = none ∧ vs.length ≤ 1 ∧ ∃ v, v ≠ none ∧ parseAll (untypedValue env z) utf8 v rest = .ok r := by
  rw [parseAll] at h
  cases h1 : (untypedValue env z).parse prev vs utf8 with
  | mk v f =>
    rw [h1] at h
    cases f with
    | some f => cases h
    | none => exact ⟨(untyped_takes h1).1, (untyped_takes h1).2.2, v, (untyped_takes h1).2.1, h⟩

theorem parseAll_singly_library {s : ValueSemantic} (hs : LibraryValue s) (utf8 : Bool) (vs : List Str) (rest : List (List Str)) (prev r : Any) :
    parseAll s utf8 prev (vs :: rest) = .ok r ↔ parseAll s utf8 prev (singly vs ++ rest) = .ok r := by
  cases hs with
  | typed env t => exact parseAll_singly_one utf8 vs rest prev r
  | untyped env z =>
    match vs with
    | [] => rfl
    | [v] => rfl
    | a :: b :: vs =>
      constructor
      · intro h; exact absurd (parseAll_untyped h).2.1 (by simp)
      · intro h
        obtain ⟨-, -, v, hv, h⟩ := parseAll_untyped (vs := [a]) (rest := ([b] :: vs.map ([·])) ++ rest) (by simpa [singly] using h)
        exact absurd (parseAll_untyped h).1 hv

theorem parseAll_singly {s : ValueSemantic} (hs : LibraryValue s) (utf8 : Bool) (vss : List (List Str)) (prev r : Any) :
    parseAll s utf8 prev (vss.flatMap singly) = .ok r ↔ parseAll s utf8 prev vss = .ok r := by
  induction vss generalizing prev r with
  | nil => rfl
  | cons vs vss ih =>
    rw [List.flatMap_cons, parseAll_prefix ih]
    exact (parseAll_singly_library hs utf8 vs vss prev r).symm

theorem singly_single {vs : List Str} (h : vs.length ≤ 1) : singly vs = [vs] := by
  match vs with
  | [] => rfl
  | [v] => rfl
  | _ :: _ :: _ => simp at h

/-! ### The normal form -/

theorem occurrences_settings (c : Cmdline) (os : List Opt) (name : Str) :
    (occurrences ((os.flatMap settingsOf).map (settingOption c)) name).map (·.value) = ((occurrences os name).map (·.value)).flatMap singly := by
  induction os with
  | nil => rfl
  | cons o os ih =>
    have hone : (occurrences ((settingsOf o).map (settingOption c)) name).map (·.value) = ((occurrences [o] name).map (·.value)).flatMap singly := by
      unfold settingsOf occurrences
      by_cases h1 : o.stringKey = [] ∨ o.unregistered = true
      · rw [if_pos h1, List.filter_cons_of_neg]
        · rfl
        · rcases h1 with h1 | h1
          · simp only [h1, decide_eq_true_eq]
            rintro ⟨rfl, h, -⟩; exact h rfl
          · simp [h1]
      · rw [if_neg h1]
        have h1' : o.unregistered = false := by
          cases h : o.unregistered with
          | false => rfl
          | true => exact absurd (.inr h) h1
        by_cases h2 : o.stringKey = name ∧ name ≠ []
        · obtain ⟨rfl, h2⟩ := h2
          rw [List.filter_cons_of_pos (by simp [h1', h2])]
          by_cases h3 : o.value = []
          · rw [if_pos h3]
            simp [singly, h3, settingOption, h2]
          · rw [if_neg h3]
            simp only [List.filter_nil, List.map_cons, List.map_nil, List.flatMap_cons, List.flatMap_nil, List.append_nil, singly, if_neg h3]
            rw [List.filter_eq_self.2]
            · rw [List.map_map, List.map_map]; rfl
            · intro q hq
              rw [List.map_map] at hq
              obtain ⟨v, -, rfl⟩ := List.mem_map.1 hq
              simp [settingOption, h2]
        · rw [List.filter_cons_of_neg (by simp only [decide_eq_true_eq]; exact fun h => h2 ⟨h.1, h.2.1⟩)]
          rw [List.filter_eq_nil_iff.2]
          · rfl
          · intro q hq
            have : q.stringKey = o.stringKey := by
              split at hq
              · simp at hq; rw [hq]; rfl
              · rw [List.map_map] at hq
                obtain ⟨v, -, rfl⟩ := List.mem_map.1 hq
                rfl
            simp only [decide_eq_true_eq, this]
            exact fun h => h2 ⟨h.1, h.2.1⟩
    have happ : ∀ a b, occurrences (a ++ b) name = occurrences a name ++ occurrences b name := fun a b => List.filter_append ..
    rw [List.flatMap_cons, List.map_append, happ, List.map_append, hone, ih, show o :: os = [o] ++ os from rfl, happ, List.map_append, List.flatMap_append]

theorem mentions_settings (c : Cmdline) (os : List Opt) (name : Str) : Mentions ((os.flatMap settingsOf).map (settingOption c)) name ↔ Mentions os name := by
  have h := congrArg List.length (occurrences_settings c os name)
  have hs : ∀ vs, 0 < (singly vs).length := by
    intro vs; unfold singly; split
    · simp
    · rw [List.length_map]; exact List.length_pos_iff.2 (by assumption)
  rw [mentions_iff, mentions_iff, ← List.length_pos_iff, ← List.length_pos_iff]
  rw [List.length_map] at h
  rw [h]
  cases occurrences os name with
  | nil => simp
  | cons o os =>
    have := hs o.value
    simp only [List.map_cons, List.flatMap_cons, List.length_append, List.length_cons]
    omega

/-- **C96.** Let a command line be accepted, and let each named option of the result be expressible by settings of single
values. Then the command line consisting of just these settings, one `--name=value` for each value, is accepted as well; and a store of
either has the same effect on every variables map. -/
theorem C96_normal_form (c : Cmdline) (hs : c.styleParser = none) (ha : c.additional = none) (hl : Enabled c Style.allowLong)
    (hne : ∀ d ∈ c.desc, ∀ name, name ≠ [] → reportedKey d name ≠ []) (args : List Str) (p : Parsed) (h : c.parse args = .ok p)
    (hx : ∀ o ∈ p.options, ∀ s ∈ settingsOf o, Expressible c s) (hv : ∀ o ∈ p.options, o.value.length ≤ 1 ∨ ∀ d, candidates c.desc o.stringKey = [d] → LibraryValue d.semantic)
    (hlen : (p.options.flatMap settingsOf).length < 2147483648) :
    ∃ p', c.parse ((p.options.flatMap settingsOf).map written) = .ok p' ∧ p'.options.flatMap settingsOf = p.options.flatMap settingsOf ∧
      ∀ xm : VarMap, xm.Ordered → ∀ utf8 m, store p xm utf8 = (m, none) ↔ store p' xm utf8 = (m, none) := by
  have hp : p = { desc := c.desc, options := p.options, pre := c.canonicalPrefix } := by
    unfold Cmdline.parse at h
    split at h
    · cases h
    · cases h; rfl
  have hrun := C84_settings c hs ha hl hne (p.options.flatMap settingsOf)
    (by intro s hs'; obtain ⟨o, ho, hso⟩ := List.mem_flatMap.1 hs'; exact hx o ho s hso) hlen
  refine ⟨{ desc := c.desc, options := (p.options.flatMap settingsOf).map (settingOption c), pre := c.canonicalPrefix }, ?_, ?_, ?_⟩
  · unfold Cmdline.parse; rw [hrun]
  · have : ∀ ss : List (Str × Option Str), (∀ s ∈ ss, s.1 ≠ []) → (ss.map (settingOption c)).flatMap settingsOf = ss := by
      intro ss
      induction ss with
      | nil => intro _; rfl
      | cons s ss ih =>
        intro hss
        rw [List.map_cons, List.flatMap_cons, ih fun s hs => hss s (by simp [hs])]
        obtain ⟨n, v⟩ := s
        have : n ≠ [] := hss (n, v) (by simp)
        cases v <;> simp [settingsOf, settingOption, this]
    apply this
    intro s hs'
    obtain ⟨o, ho, hso⟩ := List.mem_flatMap.1 hs'
    exact (hx o ho s hso).name.1
  · intro xm hxm utf8 m
    refine store_congr p _ (by rw [hp]) (by rw [hp]) xm hxm utf8 (mentions_settings c p.options) ?_ m
    intro name d hd prev r
    have hdesc : p.desc = c.desc := by rw [hp]
    rw [hdesc] at hd
    dsimp only
    rw [occurrences_settings]
    by_cases hall : ∀ o ∈ occurrences p.options name, o.value.length ≤ 1
    · have : ((occurrences p.options name).map (·.value)).flatMap singly = (occurrences p.options name).map (·.value) := by
        generalize occurrences p.options name = os at hall
        induction os with
        | nil => rfl
        | cons o os ih => rw [List.map_cons, List.flatMap_cons, ih fun q hq => hall q (by simp [hq]), singly_single (hall o (by simp))]; rfl
      rw [this]
    · obtain ⟨o, ho⟩ := Classical.not_forall.1 hall
      obtain ⟨ho, hol⟩ := Classical.not_imp.1 ho
      have hom := List.mem_filter.1 ho
      have hk : o.stringKey = name := by have := hom.2; simp only [decide_eq_true_eq] at this; exact this.1
      rcases hv o hom.1 with hvo | hvo
      · exact absurd hvo hol
      · rw [hk] at hvo
        exact parseAll_singly (hvo d hd) utf8 _ prev r

theorem Spec.Regular.keys {c : Cmdline} (hr : Regular c) : ∀ d ∈ c.desc, ∀ name, name ≠ [] → reportedKey d name ≠ [] := by
  intro d hd name _
  obtain ⟨n, h1, h2, -, h3⟩ := hr.named d hd
  unfold reportedKey
  simp only [h1, if_neg h3]
  exact h2

/-- With regular declarations every option of an accepted command line is expressible by settings. -/
theorem Spec.Regular.expressible {c : Cmdline} (hr : Regular c) (hs : c.styleParser = none) (args : List Str) (hlen : args.length < 2147483648)
    (os : List Opt) (h : c.run args = .ok os) (o : Opt) (ho : o ∈ os) (hv : [] ∉ o.value) : ∀ s ∈ settingsOf o, Expressible c s := by
  intro s hso
  unfold settingsOf at hso
  split at hso
  · cases hso
  rename_i hk
  have hk1 : o.stringKey ≠ [] := fun hh => hk (.inl hh)
  have hk2 : o.unregistered = false := by
    cases hh : o.unregistered with
    | false => rfl
    | true => exact absurd (.inr hh) hk
  have main : ∃ d ∈ c.desc, d.longNames.head? = some o.stringKey ∧ '=' ∉ o.stringKey ∧ '*' ∉ o.stringKey ∧
      d.semantic.minTokens ≤ 1 ∧ (o.value = [] → d.semantic.minTokens = 0) ∧ (o.value ≠ [] → 1 ≤ d.semantic.maxTokens) := by
    by_cases hpos : o.positionKey = -1
    · obtain ⟨_, _, name, _, _, _, d, hd, _, hkey⟩ := C06_canonical_key c hs args os h o ho hpos hk2
      obtain ⟨d', hd', hden, h1, h2⟩ := C18_token_counts c hs hr.identified (fun d hd => (hr.counts d hd).2) args hlen os h o ho hpos hk2
      obtain ⟨n, n1, n2, n3, n4⟩ := hr.named d hd
      have hn : o.stringKey = n := by rw [hkey]; unfold reportedKey; simp only [n1, if_neg n4]
      have hex := hr.identified d hd n (.inl ⟨n1, n4⟩)
      have hdd : d' = d := by
        unfold Denotes at hden
        dsimp only at hden
        rw [hn, hex] at hden
        rcases hden with hden | ⟨hden, -⟩
        · cases hden; rfl
        · cases hden
      subst hdd
      refine ⟨d', hd, hn ▸ n1, hn ▸ n3, hn ▸ n4, (hr.counts d' hd).1, fun h0 => ?_, fun h0 => ?_⟩
      · rw [h0] at h1; simpa using h1
      · have := List.length_pos_iff.2 h0; omega
    · have hmem : o ∈ positionals os := List.mem_filter.2 ⟨ho, by simpa using hpos⟩
      obtain ⟨i, hi, hoi⟩ := List.mem_iff_getElem.1 hmem
      obtain ⟨-, -, hname⟩ := C08_numbered c hs args os h i o (by rw [← hoi]; exact List.getElem?_eq_getElem hi)
      cases hp : c.positional with
      | none => rw [hp] at hname; exact absurd hname hk1
      | some p =>
        rw [hp] at hname
        dsimp only at hname
        have hmem : o.stringKey ∈ p.names ∨ o.stringKey = p.trailing := by
          unfold Positional.nameForPosition at hname
          split at hname
          · rename_i n hn; cases hname; exact .inl (List.mem_of_getElem? hn)
          · split at hname
            · cases hname
            · exact .inr (Except.ok.inj hname).symm
        obtain ⟨d, hd, h1, h2⟩ := hr.positional p hp _ hmem hk1
        obtain ⟨n, n1, n2, n3, n4⟩ := hr.named d hd
        rw [h1] at n1; cases n1
        have hv1 : o.value ≠ [] := by
          rcases C08_unnamed c hs hr.keys args os h o ho hpos with ⟨_, _, h, _⟩ | ⟨_, _, _, _, h⟩ <;> rw [h] <;> nofun
        exact ⟨d, hd, h1, n3, n4, (hr.counts d hd).1, fun h0 => absurd h0 hv1, fun _ => h2⟩
  obtain ⟨d, hd, m1, m2, m3, m4, m5, m6⟩ := main
  have hden : Denotes c o.stringKey d := .inl (hr.identified d hd _ (.inl ⟨m1, m3⟩))
  have hrep : reportedKey d o.stringKey = o.stringKey := by unfold reportedKey; simp only [m1, if_neg m3]
  split at hso
  · rename_i h0
    rw [List.mem_singleton] at hso
    subst hso
    exact ⟨⟨hk1, m2⟩, nofun, d, hden, hrep, m5 h0⟩
  · rename_i h0
    obtain ⟨v, hvm, rfl⟩ := List.mem_map.1 hso
    exact ⟨⟨hk1, m2⟩, fun hh => hv (by cases hh; exact hvm), d, hden, hrep, m4, m6 h0⟩

/-- **C96, regular declarations.** If the declarations are regular and the values non-empty, then every accepted command line, whatever the
style, means the same as a sequence of `--name=value` and `--name`. -/
theorem C96_regular (c : Cmdline) (hs : c.styleParser = none) (ha : c.additional = none) (hl : Enabled c Style.allowLong) (hr : Regular c)
    (hlib : ∀ d ∈ c.desc, LibraryValue d.semantic) (args : List Str) (hargs : args.length < 2147483648) (p : Parsed) (h : c.parse args = .ok p)
    (hv : ∀ o ∈ p.options, [] ∉ o.value) (hlen : (p.options.flatMap settingsOf).length < 2147483648) :
    ∃ p', c.parse ((p.options.flatMap settingsOf).map written) = .ok p' ∧ p'.options.flatMap settingsOf = p.options.flatMap settingsOf ∧
      ∀ xm : VarMap, xm.Ordered → ∀ utf8 m, store p xm utf8 = (m, none) ↔ store p' xm utf8 = (m, none) := by
  have hrun : c.run args = .ok p.options := by
    unfold Cmdline.parse at h
    split at h
    · cases h
    · rename_i os hos; cases h; exact hos
  refine C96_normal_form c hs ha hl hr.keys args p h
    (fun o ho => hr.expressible hs args hargs _ hrun o ho (hv o ho)) (fun o _ => .inr fun d hd => hlib d ?_) hlen
  have : d ∈ candidates c.desc o.stringKey := by rw [hd]; simp
  unfold candidates at this
  split at this
  · exact (List.mem_filter.1 this).1
  · exact (List.mem_filter.1 this).1

def normalExample : Cmdline :=
  { desc := [Test.od "verbose,v" Test.unt, Test.od "level,l" (Test.sem Test.vstr), Test.od "in,i" (Test.sem { Test.vvec with multitoken := true })],
    positional := some { names := [], trailing := str% "in" } }

theorem normalExample_regular : Regular normalExample where
  identified := by
    intro d hd k hk
    simp only [normalExample, List.mem_cons, List.not_mem_nil, or_false] at hd
    rcases hd with rfl | rfl | rfl <;> rcases hk with ⟨hk, -⟩ | ⟨hk, -⟩ <;> cases hk <;> rfl
  named := by
    intro d hd
    simp only [normalExample, List.mem_cons, List.not_mem_nil, or_false] at hd
    rcases hd with rfl | rfl | rfl
    · exact ⟨str% "verbose", rfl, by decide⟩
    · exact ⟨str% "level", rfl, by decide⟩
    · exact ⟨str% "in", rfl, by decide⟩
  counts := by
    intro d hd
    simp only [normalExample, List.mem_cons, List.not_mem_nil, or_false] at hd
    rcases hd with rfl | rfl | rfl <;> decide
  positional := by
    intro p hp n hn _
    cases hp
    rcases hn with hn | rfl
    · cases hn
    · exact ⟨Test.od "in,i" (Test.sem { Test.vvec with multitoken := true }), by simp [normalExample], rfl, by decide⟩

/-- `x -vl3 --in y z` is `--in=x --verbose --level=3 --in=y --in=z`. -/
example : ∃ p p', normalExample.parse [str% "x", str% "-vl3", str% "--in", str% "y", str% "z"] = .ok p ∧
    normalExample.parse [str% "--in=x", str% "--verbose", str% "--level=3", str% "--in=y", str% "--in=z"] = .ok p' ∧ p'.options ≠ p.options ∧
    (store p {} true).2 = none ∧ ∀ xm : VarMap, xm.Ordered → ∀ utf8 m, store p xm utf8 = (m, none) ↔ store p' xm utf8 = (m, none) := by
  obtain ⟨p', h1, h2, h3⟩ := C96_regular normalExample rfl rfl (by unfold Enabled; decide) normalExample_regular
    (by intro d hd
        simp only [normalExample, List.mem_cons, List.not_mem_nil, or_false] at hd
        rcases hd with rfl | rfl | rfl
        · exact .untyped _ _
        · exact .typed _ _
        · exact .typed _ _)
    [str% "x", str% "-vl3", str% "--in", str% "y", str% "z"] (by decide) _ rfl (by decide) (by decide)
  have h1' : normalExample.parse [str% "--in=x", str% "--verbose", str% "--level=3", str% "--in=y", str% "--in=z"] = .ok p' := h1
  refine ⟨_, p', rfl, h1', ?_, by rfl, h3⟩
  have := Except.ok.inj (h1'.symm.trans rfl)
  rw [this]
  decide

/-- Without the condition on values: `--level ""` is accepted, `--level=` is not. -/
example : (∃ p, normalExample.parse [str% "--level", []] = .ok p ∧ (p.options.flatMap settingsOf).map written = [str% "--level="] ∧ (store p {} true).2 = none) ∧
    ∃ f, normalExample.parse [str% "--level="] = .error f :=
  ⟨⟨_, rfl, rfl, by rfl⟩, _, rfl⟩

end PO
