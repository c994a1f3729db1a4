import Verif.Props.Config
import Verif.Props.Stored
import Verif.Props.Occurrences
/-
Exactly when C04, C31, C44 and C59 fail.
-/
namespace PO
open Spec

/-! ### C04 -/

/-- **C04, exactly:** matching short names case-insensitively loses a match if and only if the name is the declared short name, this
has an upper-case letter, long names are matched case-sensitively, and no long name matches instead. -/
theorem C04_lost_iff (d : OptionDesc) (name : Str) (ap li : Bool) :
    (d.match name ap li false ≠ .noMatch ∧ d.match name ap li true = .noMatch) ↔
      li = false ∧ name = d.shortName ∧ d.shortName.map Char.toLower ≠ d.shortName ∧
      (∀ n ∈ d.longNames, n ≠ [] → n ≠ name) ∧ ¬ Approximate d name ap false := by
  rw [match_spec, match_spec]
  by_cases hA : Approximate d name ap li
  · have h1 : ∀ si, (if Exact d name li si then MatchResult.fullMatch else if Approximate d name ap li then .approximateMatch else .noMatch) ≠ .noMatch := by
      intro si; split
      · simp
      · simp
    constructor
    · rintro ⟨_, h⟩; exact absurd h (h1 true)
    · rintro ⟨rfl, _, _, _, h⟩; exact absurd hA h
  · simp only [if_neg hA]
    have h2 : ∀ si, (if Exact d name li si then MatchResult.fullMatch else .noMatch) = .noMatch ↔ ¬ Exact d name li si := by
      intro si; split <;> simp_all
    rw [ne_eq, h2, h2, not_not]
    unfold Exact
    constructor
    · rintro ⟨h | h, h'⟩
      · exact absurd (.inl h) h'
      · simp only [not_or] at h'
        have hl : li = false := by
          cases li with
          | false => rfl
          | true =>
            exfalso
            apply h'.2
            simp only [fold, if_true, Bool.false_eq_true, if_false] at h ⊢
            rw [h]
            exact toLower_toLower name
        subst hl
        simp only [fold, Bool.false_eq_true, if_false, if_true] at h h'
        refine ⟨rfl, h.symm, ?_, ?_, hA⟩
        · rw [← h] at h'; exact h'.2
        · intro n hn h0 he
          exact h'.1 ⟨n, hn, h0, he⟩
    · rintro ⟨rfl, rfl, h1, h2, _⟩
      simp only [fold, Bool.false_eq_true, if_false, if_true]
      refine ⟨.inr trivial, ?_⟩
      rintro (⟨n, hn, h0, he⟩ | h)
      · exact h2 n hn h0 he
      · exact h1 h

/-- `foo,F` is found as `-F`, and no longer when short names are matched case-insensitively. -/
example : (Test.od "foo,F" Test.unt).match (Test.L "-F") false false false ≠ .noMatch ∧
    (Test.od "foo,F" Test.unt).match (Test.L "-F") false false true = .noMatch :=
  (C04_lost_iff _ _ _ _).2 ⟨rfl, by decide, by decide, by decide, by
    rintro ⟨n, hn, _, ⟨h, _⟩ | ⟨stem, h, _⟩⟩
    · cases h
    · rw [show (Test.od "foo,F" Test.unt).longNames = [Test.L "foo"] from by decide, List.mem_singleton] at hn
      subst hn
      have := congrArg List.getLast? h
      rw [List.getLast?_concat] at this
      exact absurd this (by decide)⟩

/-! ### C31 -/

/-- **C31, exactly:** a name, declared in whatever way, is accepted in a configuration file if and only if it is the first long name of
some option, or extends the stem of a first long name that ends with a star. -/
theorem C31_accepted_iff (desc : List OptionDesc) (hr : (keyed (parseConfigFile [] desc false)).isSome = true) (n v : Str) (h : Representable n v) :
    (keyed (parseConfigFile (unlines [itemLine (n, v)]) desc false)).isSome = true ↔
      ∃ d ∈ desc, ∃ first rest, d.longNames = first :: rest ∧
        (first = n ∧ n.getLast? ≠ some '*' ∨ ∃ stem, first = stem ++ ['*'] ∧ stem <+: n ∧ stem ≠ n) := by
  have hne : ∀ d ∈ desc, d.firstLong ≠ [] := by
    intro d hd h0
    rw [parseConfigFile, allowedNames_error desc [] ⟨d, hd, h0⟩] at hr
    simp [keyed] at hr
  have key : Accepts desc n ↔ ∃ d ∈ desc, ∃ first rest, d.longNames = first :: rest ∧
      (first = n ∧ n.getLast? ≠ some '*' ∨ ∃ stem, first = stem ++ ['*'] ∧ stem <+: n ∧ stem ≠ n) := by
    unfold Accepts
    refine exists_congr fun d => and_congr_right fun hd => ?_
    have hd := hne d hd
    revert hd
    unfold OptionDesc.firstLong
    cases d.longNames with
    | nil =>
      intro h; exact absurd rfl h
    | cons a as =>
      intro _
      constructor
      · exact fun h => ⟨a, as, rfl, h⟩
      · rintro ⟨_, _, e, h⟩; cases e; exact h
  rw [← key]
  obtain ⟨h1, h2⟩ := C28_single desc hr n v h
  constructor
  · intro hs
    by_contra hn
    rw [h2 hn] at hs
    simp [keyed] at hs
  · intro ha; rw [h1 ha]; rfl

/-- `output,out,o`: `output` can be set, `out` cannot. -/
example : Representable (Test.L "out") ['1'] ∧ (keyed (parseConfigFile [] [Test.od "output,out,o" Test.unt] false)).isSome = true ∧
    ¬ (keyed (parseConfigFile (unlines [itemLine (Test.L "out", ['1'])]) [Test.od "output,out,o" Test.unt] false)).isSome = true ∧
    (keyed (parseConfigFile (unlines [itemLine (Test.L "output", ['1'])]) [Test.od "output,out,o" Test.unt] false)).isSome = true := by
  have h1 : Representable (Test.L "out") ['1'] := ⟨by decide, by decide, by decide, by decide, by decide, by rw [trimmed_iff]; simp [Test.L, isWs], by rw [trimmed_iff]; simp [isWs], by decide⟩
  have h2 : Representable (Test.L "output") ['1'] := ⟨by decide, by decide, by decide, by decide, by decide, by rw [trimmed_iff]; simp [Test.L, isWs], by rw [trimmed_iff]; simp [isWs], by decide⟩
  have hr : (keyed (parseConfigFile [] [Test.od "output,out,o" Test.unt] false)).isSome = true := by rfl
  refine ⟨h1, hr, ?_, ?_⟩
  · rw [C31_accepted_iff _ hr _ _ h1]
    rintro ⟨d, hd, first, rest, e, h⟩
    rw [List.mem_singleton] at hd
    subst hd
    rw [show (Test.od "output,out,o" Test.unt).longNames = [Test.L "output", Test.L "out"] from by decide] at e
    cases e
    rcases h with ⟨h, _⟩ | ⟨stem, h, _⟩
    · exact absurd h (by decide)
    · have := congrArg List.getLast? h
      rw [List.getLast?_concat] at this
      exact absurd this (by decide)
  · exact (C31_accepted_iff _ hr _ _ h2).2 ⟨_, List.mem_singleton.2 rfl, _, _, rfl, .inl ⟨rfl, by decide⟩⟩

/-! ### C44 -/

/-- **C44, exactly:** the occurrences of an option for a single value, with an implicit value, are accepted if and only if none but the
first carries a value; the option then has the implicit value, unless there is one occurrence only, with a value. -/
theorem C44_exact (env : Env) (t : TypedValue) (st : SType) (ht : t.type = .scalar st) (iv : AVal) (s : Str) (hi : t.implicit = some (iv, s))
    (texts : List (List Word)) (r : Any) :
    Gets env t none texts r ↔
      texts = [] ∧ r = none ∨
      (∃ rest, texts = [] :: rest ∧ (∀ y ∈ rest, y = []) ∧ r = some iv) ∨
      ∃ x w rest, texts = [x] :: rest ∧ (∀ y ∈ rest, y = []) ∧ Converts env st x w ∧ r = if rest = [] then some (.scalar w) else some iv := by
  have tail : ∀ (rest : List (List Word)) (a : AVal) (r : Any), Gets env t (some a) rest r ↔ (∀ y ∈ rest, y = []) ∧ r = if rest = [] then some a else some iv := by
    intro rest
    induction rest with
    | nil =>
      intro a r
      constructor
      · intro h; cases h; exact ⟨by simp, rfl⟩
      · rintro ⟨_, rfl⟩; exact .done _
    | cons y rest ih =>
      intro a r
      constructor
      · intro h
        cases h with
        | more _ _ _ b _ h1 h2 =>
        obtain ⟨h3, h4⟩ := (ih b r).1 h2
        cases h1 with
        | implicit iv' s' hi' =>
          rw [hi] at hi'; cases hi'
          refine ⟨by simpa using h3, ?_⟩
          rw [h4, if_neg (List.cons_ne_nil _ _), ite_self]
        | scalar _ _ _ _ hp => cases hp
        | present _ hp => cases hp
        | vector _ _ _ _ h => rw [ht] at h; cases h
        | optional _ _ _ h => rw [ht] at h; cases h
      · rintro ⟨h1, rfl⟩
        have : y = [] := h1 y (by simp)
        subst this
        refine .more _ _ _ iv _ (.implicit iv s hi) ((ih iv _).2 ⟨fun z hz => h1 z (by simp [hz]), ?_⟩)
        rw [if_neg (List.cons_ne_nil _ _), ite_self]
  constructor
  · intro h
    cases h with
    | done => exact .inl ⟨rfl, rfl⟩
    | more _ xs rest b _ h1 h2 =>
      obtain ⟨h3, h4⟩ := (tail rest b r).1 h2
      right
      cases h1 with
      | implicit iv' s' hi' =>
        rw [hi] at hi'; cases hi'
        rw [ite_self] at h4
        exact .inl ⟨rest, rfl, h3, h4⟩
      | scalar st' x v hst hp hc =>
        rw [ht] at hst; cases hst
        exact .inr ⟨x, v, rest, rfl, h3, hc, h4⟩
      | present _ _ h => rw [hi] at h; cases h
      | vector _ _ _ _ h => rw [ht] at h; cases h
      | optional _ _ _ h => rw [ht] at h; cases h
  · rintro (⟨rfl, rfl⟩ | ⟨rest, rfl, h1, rfl⟩ | ⟨x, w, rest, rfl, h1, hc, rfl⟩)
    · exact .done _
    · exact .more _ _ _ iv _ (.implicit iv s hi) ((tail _ _ _).2 ⟨h1, by rw [ite_self]⟩)
    · exact .more _ _ _ _ _ (.scalar st x w ht rfl hc) ((tail _ _ _).2 ⟨h1, rfl⟩)

/-- So a store that accepts the repetition has the implicit value, whatever value was given before. -/
theorem C44_stored (env : Env) (p : Parsed) (xm m : VarMap) (utf8 : Bool) (h : store p xm utf8 = (m, none)) (name : Str) (o1 o2 : Opt) (os : List Opt)
    (ho : occurrences p.options name = o1 :: o2 :: os) (hf : name ∉ xm.final) (h0 : given xm name = none) (d : OptionDesc)
    (hd : candidates p.desc name = [d]) (t : TypedValue) (ht : d.semantic = t.toSemantic env) (st : SType) (hst : t.type = .scalar st) (iv : AVal) (s : Str)
    (hi : t.implicit = some (iv, s)) :
    (∀ o ∈ o2 :: os, o.value = []) ∧ m.map.get? name = some { v := some iv, defaulted := false, semantic := some d.semantic } := by
  have hm : Mentions p.options name := by
    have : o1 ∈ occurrences p.options name := by rw [ho]; simp
    unfold occurrences at this
    have := List.mem_filter.1 this
    exact ⟨o1, this.1, by simpa using this.2⟩
  obtain ⟨texts, r, h1, h2, h3⟩ := C87_stored env p xm m utf8 h name hm hf d hd t ht
  rw [h0] at h2
  rw [ho] at h1
  have h4 := (C44_exact env t st hst iv s hi texts r).1 h2
  cases h1 with
  | cons a1 a2 =>
  rename_i x1 xs
  have hall : ∀ (os : List Opt) (xs : List (List Word)), List.Forall₂ (List.Forall₂ (Arrives env t.wide utf8)) (os.map (·.value)) xs → (∀ y ∈ xs, y = []) →
      ∀ o ∈ os, o.value = [] := by
    intro os
    induction os with
    | nil => simp
    | cons o os ih =>
      intro xs hx hy
      rw [List.map_cons] at hx
      cases hx with
      | cons b1 b2 =>
      intro o' ho'
      rcases List.mem_cons.1 ho' with rfl | ho'
      · have := hy _ (List.mem_cons_self ..)
        rw [this] at b1
        cases hv : o'.value with
        | nil => rfl
        | cons x y => rw [hv] at b1; cases b1
      · exact ih _ b2 (fun y h => hy y (List.mem_cons_of_mem _ h)) o' ho'
  have hne : xs ≠ [] := by
    intro h
    rw [h] at a2
    cases a2
  rcases h4 with ⟨h4, _⟩ | ⟨rest, h4, h5, rfl⟩ | ⟨x, w, rest, h4, h5, _, rfl⟩
  · cases h4
  · cases h4
    exact ⟨hall _ _ a2 h5, h3⟩
  · cases h4
    rw [if_neg hne] at h3
    exact ⟨hall _ _ a2 h5, h3⟩

example : occurrences ([Ex.o "log" ["no"], Ex.o "log" []] : List Opt) (Test.L "log") = [Ex.o "log" ["no"], Ex.o "log" []] ∧
    candidates [Ex.dImp] (Test.L "log") = [Ex.dImp] ∧ given {} (Test.L "log") = none ∧
    (store { desc := [Ex.dImp], options := [Ex.o "log" ["no"], Ex.o "log" []] } {} false).2 = none := by
  refine ⟨by decide, by rfl, rfl, by decide⟩

/-! ### C59 -/

/-- The elements that texts with at least one value each add to a vector. -/
def Spec.Adds (env : Env) (st : SType) (texts : List (List Word)) (ws : List SVal) : Prop :=
  (∀ xs ∈ texts, xs ≠ []) ∧ List.Forall₂ (fun x w => Converts env st x w ∧ w.type = st) texts.flatten ws

/-- **C59, exactly:** the occurrences of a vector option with an implicit value give what was there before and the values of all of
them, if all carry values; otherwise the implicit value and the values of those after the last one without value, provided that the
ones before were accepted too. -/
theorem C59_exact (env : Env) (t : TypedValue) (st : SType) (ht : t.type = .vector st) (iv : AVal) (s : Str) (hi : t.implicit = some (iv, s))
    (prev : Any) (texts : List (List Word)) (r : Any) :
    Gets env t prev texts r ↔
      (texts = [] ∧ r = prev) ∨
      (texts ≠ [] ∧ ∃ vs ws, Elements st prev vs ∧ Adds env st texts ws ∧ r = some (.vector st (vs ++ ws))) ∨
      (∃ before after q, texts = before ++ [] :: after ∧ Gets env t prev before q ∧
        (after = [] ∧ r = some iv ∨ after ≠ [] ∧ ∃ vs ws, Elements st (some iv) vs ∧ Adds env st after ws ∧ r = some (.vector st (vs ++ ws)))) := by
  induction texts generalizing prev with
  | nil =>
    constructor
    · intro h; cases h; exact .inl ⟨rfl, rfl⟩
    · rintro (⟨_, rfl⟩ | ⟨h, _⟩ | ⟨b, a, q, h, _⟩)
      · exact .done _
      · exact absurd rfl h
      · simp at h
  | cons xs rest ih =>
    constructor
    · intro h
      cases h with
      | more _ _ _ b _ h1 h2 =>
      have h3 := (ih (some b)).1 h2
      right
      cases h1 with
      | implicit iv' s' hi' =>
        rw [hi] at hi'; cases hi'
        right
        rcases h3 with ⟨rfl, rfl⟩ | ⟨hne, vs, ws, h4, h5, h6⟩ | ⟨before, after, q, rfl, h4, h5⟩
        · exact ⟨[], [], prev, rfl, .done _, .inl ⟨rfl, rfl⟩⟩
        · exact ⟨[], rest, prev, rfl, .done _, .inr ⟨hne, vs, ws, h4, h5, h6⟩⟩
        · exact ⟨[] :: before, after, q, rfl, .more _ _ _ iv _ (.implicit iv s hi) h4, h5⟩
      | scalar _ _ _ h => rw [ht] at h; cases h
      | present h => rw [ht] at h; cases h
      | optional _ _ _ h => rw [ht] at h; cases h
      | vector st' _ vs ws hst hp hne hc =>
        rw [ht] at hst; cases hst
        have hx : xs ≠ [] := by
          intro h
          rw [hne h] at hi; cases hi
        rcases h3 with ⟨rfl, rfl⟩ | ⟨hr, vs', ws', h4, h5, h6⟩ | ⟨before, after, q, rfl, h4, h5⟩
        · refine .inl ⟨by simp, vs, ws, hp, ⟨by simpa using hx, by simpa using hc⟩, rfl⟩
        · cases h4
          refine .inl ⟨by simp, vs, ws ++ ws', hp, ⟨?_, ?_⟩, by rw [h6, List.append_assoc]⟩
          · intro y hy
            rcases List.mem_cons.1 hy with rfl | hy
            · exact hx
            · exact h5.1 y hy
          · rw [List.flatten_cons]
            exact List.rel_append hc h5.2
        · exact .inr ⟨xs :: before, after, q, rfl, .more _ _ _ _ _ (.vector st xs vs ws ht hp hne hc) h4, h5⟩
    · rintro (⟨h, _⟩ | ⟨_, vs, ws, hp, ⟨h1, h2⟩, rfl⟩ | ⟨before, after, q, e, hg, h⟩)
      · cases h
      · rw [List.flatten_cons] at h2
        obtain ⟨w1, w2, e, hw1, hw2⟩ : ∃ w1 w2, ws = w1 ++ w2 ∧ List.Forall₂ (fun x w => Converts env st x w ∧ w.type = st) xs w1 ∧
            List.Forall₂ (fun x w => Converts env st x w ∧ w.type = st) rest.flatten w2 := by
          refine ⟨ws.take xs.length, ws.drop xs.length, (List.take_append_drop _ _).symm, ?_, ?_⟩
          · have := List.forall₂_take xs.length h2
            rwa [List.take_left'] at this
            rfl
          · have := List.forall₂_drop xs.length h2
            rwa [List.drop_left'] at this
            rfl
        subst e
        refine .more _ _ _ _ _ (.vector st xs vs w1 ht hp (fun h => absurd h (h1 xs (by simp))) hw1) ((ih _).2 ?_)
        by_cases hr : rest = []
        · subst hr
          simp only [List.flatten_nil, List.forall₂_nil_left_iff] at hw2
          subst hw2
          exact .inl ⟨rfl, by simp⟩
        · exact .inr (.inl ⟨hr, vs ++ w1, w2, .some _, ⟨fun y hy => h1 y (by simp [hy]), hw2⟩, by rw [List.append_assoc]⟩)
      · cases before with
        | nil =>
          cases hg
          simp only [List.nil_append, List.cons.injEq] at e
          obtain ⟨rfl, rfl⟩ := e
          refine .more _ _ _ iv _ (.implicit iv s hi) ((ih _).2 ?_)
          rcases h with ⟨rfl, rfl⟩ | ⟨ha, h⟩
          · exact .inl ⟨rfl, rfl⟩
          · exact .inr (.inl ⟨ha, h⟩)
        | cons b before =>
          simp only [List.cons_append, List.cons.injEq] at e
          obtain ⟨rfl, rfl⟩ := e
          cases hg with
          | more _ _ _ b' _ h1 h2 =>
          exact .more _ _ _ b' _ h1 ((ih _).2 (.inr (.inr ⟨before, after, q, rfl, h2, h⟩)))

/-- `--inc=x --inc --inc=y --inc=z` gives the implicit `all` and `y`, `z`. -/
example : Gets Test.env Ex.compT none [[.narrow ['x']], [], [.narrow ['y']], [.narrow ['z']]]
    (some (.vector .str [.str (Test.L "all"), .str ['y'], .str ['z']])) := by
  refine (C59_exact Test.env Ex.compT .str rfl _ _ rfl none _ _).2 (.inr (.inr ⟨[[.narrow ['x']]], [[.narrow ['y']], [.narrow ['z']]], some (.vector .str [.str ['x']]), rfl, ?_, .inr
    ⟨by simp, [.str (Test.L "all")], [.str ['y'], .str ['z']], .some _, ⟨by simp, ?_⟩, rfl⟩⟩))
  · exact .more _ _ _ _ _ (.vector .str _ [] [.str ['x']] rfl .none (by simp) (.cons ⟨.string ['x'], rfl⟩ .nil)) (.done _)
  · exact .cons ⟨.string ['y'], rfl⟩ (.cons ⟨.string ['z'], rfl⟩ .nil)

/-- So a store that accepts a vector option whose last occurrence has no value has the implicit value, whatever values were given before. -/
theorem C59_stored (env : Env) (p : Parsed) (xm m : VarMap) (utf8 : Bool) (h : store p xm utf8 = (m, none)) (name : Str) (os : List Opt) (o : Opt)
    (ho : occurrences p.options name = os ++ [o]) (hv : o.value = []) (hf : name ∉ xm.final) (d : OptionDesc)
    (hd : candidates p.desc name = [d]) (t : TypedValue) (ht : d.semantic = t.toSemantic env) (st : SType) (hst : t.type = .vector st) (iv : AVal) (s : Str)
    (hi : t.implicit = some (iv, s)) : m.map.get? name = some { v := some iv, defaulted := false, semantic := some d.semantic } := by
  have hm : Mentions p.options name := by
    have : o ∈ occurrences p.options name := by rw [ho]; simp
    unfold occurrences at this
    have := List.mem_filter.1 this
    exact ⟨o, this.1, by simpa using this.2⟩
  obtain ⟨texts, r, h1, h2, h3⟩ := C87_stored env p xm m utf8 h name hm hf d hd t ht
  rw [ho, List.map_append, List.map_singleton, hv] at h1
  obtain ⟨ts, rfl⟩ : ∃ ts, texts = ts ++ [[]] := by
    have h5 := List.rel_reverse h1
    rw [List.reverse_append, List.reverse_singleton, List.singleton_append] at h5
    generalize hu : texts.reverse = us at h5
    cases h5 with
    | cons a b =>
    cases a
    exact ⟨_, by rw [← List.reverse_reverse texts, hu, List.reverse_cons]⟩
  rcases (C59_exact env t st hst iv s hi _ _ r).1 h2 with ⟨e, -⟩ | ⟨-, vs, ws, -, ha, -⟩ | ⟨before, after, q, e, -, ⟨-, rfl⟩ | ⟨hne, vs, ws, -, ha, -⟩⟩
  · simp at e
  · exact absurd rfl (ha.1 [] (by simp))
  · exact h3
  · have e' : after.getLast? = some [] := by
      have := congrArg List.getLast? e
      rw [List.getLast?_append, List.getLast?_append] at this
      cases after with
      | nil => exact absurd rfl hne
      | cons x xs => simpa [List.getLast?_cons_cons] using this.symm
    exact absurd rfl (ha.1 [] (List.mem_of_getLast? e'))

/-- `--inc=x --inc`. -/
example : ∃ m, store { desc := [Test.od "inc" (Test.sem Ex.compT)], options := [Ex.o "inc" ["x"], Ex.o "inc" []] } {} false = (m, none) ∧
    m.map.get? (Test.L "inc") = some { v := some (.vector .str [.str (Test.L "all")]), defaulted := false, semantic := some (Test.sem Ex.compT) } :=
  ⟨_, rfl, C59_stored Test.env { desc := [Test.od "inc" (Test.sem Ex.compT)], options := [Ex.o "inc" ["x"], Ex.o "inc" []] } {} _ false rfl (Test.L "inc") [Ex.o "inc" ["x"]] (Ex.o "inc" []) rfl rfl (by decide)
    (Test.od "inc" (Test.sem Ex.compT)) rfl Ex.compT rfl .str rfl _ _ rfl⟩

end PO
