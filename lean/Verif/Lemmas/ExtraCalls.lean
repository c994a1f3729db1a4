import Verif.Model.ExtraCalls
import Verif.Lemmas.Cmdline
/-
Lemmas about the calls of the extra parser: every function calls it on the tokens it takes, in their order.
-/
namespace PO
namespace ExtraCalls

/-- The exception of the extra parser comes out, as it is or with the option it has been called for. -/
def Passes {α : Type} (r : Except Fail α) (e : Fail) : Prop := r = .error e ∨ ∃ key tok pre, r = .error (e.addContext key tok pre)

/-- The calls added to `h` are a beginning of the tokens, in case of success the tokens no longer there; and after a call that throws
there is no other. -/
def Heard {α : Type} (g : Talk) (h other : List Str) (r : Except Fail (α × List Str) × List Str) : Prop :=
  ∃ t rest, other = t ++ rest ∧ r.2 = h ++ t ∧ (∀ a x b e, t = a ++ x :: b → g (h ++ a) x = .error e → b = [] ∧ Passes r.1 e) ∧
    ∀ x left, r.1 = .ok (x, left) → left = rest

theorem Heard.none {α : Type} {g : Talk} {h other : List Str} {r : Except Fail (α × List Str)} (hr : ∀ x left, r = .ok (x, left) → left = other) :
    Heard g h other (r, h) := ⟨[], other, rfl, by simp, (by intro a x b e h; cases a <;> cases h), hr⟩

theorem Heard.error {α : Type} {g : Talk} {h other : List Str} {f : Fail} : Heard (α := α) g h other (.error f, h) := .none (fun _ _ h => nomatch h)

theorem Heard.cons {α : Type} {g : Talk} {h other : List Str} {tok : Str} {r : Except Fail (α × List Str) × List Str}
    (hg : ∀ e, g h tok = .error e → r.2 = h ++ [tok] ∧ Passes r.1 e) (hr : Heard g (h ++ [tok]) other r) :
    Heard g h (tok :: other) r := by
  obtain ⟨t, rest, rfl, e, he, hl⟩ := hr
  refine ⟨tok :: t, rest, rfl, by simp [e], ?_, hl⟩
  intro a x b f hab hf
  cases a with
  | nil =>
    simp only [List.nil_append, List.cons.injEq] at hab
    obtain ⟨rfl, rfl⟩ := hab
    rw [List.append_nil] at hf
    obtain ⟨h1, h2⟩ := hg f hf
    rw [e, List.append_right_eq_self] at h1
    exact ⟨h1, h2⟩
  | cons y a =>
    rw [List.cons_append] at hab
    injection hab with h1 h2
    subst h1
    exact he a x b f h2 (by rwa [List.append_assoc])

/-- With the same calls, another result; an error is kept. -/
theorem Heard.map {α β : Type} {g : Talk} {h other h' : List Str} {r : Except Fail (α × List Str)} {r' : Except Fail (β × List Str)}
    (hr : Heard g h other (r, h')) (he : ∀ f, r = .error f → r' = .error f) (hl : ∀ x left, r' = .ok (x, left) → ∃ y, r = .ok (y, left)) :
    Heard g h other (r', h') := by
  obtain ⟨t, rest, e, e2, hp, hl'⟩ := hr
  refine ⟨t, rest, e, e2, ?_, ?_⟩
  · intro a x b f h1 h2
    obtain ⟨hb, hf | ⟨k, o, q, hf⟩⟩ := hp a x b f h1 h2
    · exact ⟨hb, .inl (he _ hf)⟩
    · exact ⟨hb, .inr ⟨k, o, q, he _ hf⟩⟩
  · intro x left hx
    obtain ⟨y, hy⟩ := hl x left hx
    exact hl' y left hy

/-- The command line parser without its extra and style parsers. -/
abbrev bare (c : Cmdline) : Cmdline := { c with additional := .none, styleParser := .none }

/-- With an extra parser given as a function. -/
abbrev withExtra (c : Cmdline) (f : Str → Str × Str) : Cmdline := { c with additional := some f, styleParser := .none }

/-- What the style parsers make of a token, after the calls `h`. -/
def front (c : Cmdline) (g : Talk) (h : List Str) (tok : Str) : Except Fail (List Opt) :=
  match g h tok with
  | .error f => .error f
  | .ok r => if r.1 = [] then (bare c).front tok else .ok [{ stringKey := r.1, value := if r.2 = [] then [] else [r.2] }]

theorem lookahead_silent (ps : List StyleParser) (h args : List Str) :
    lookahead (ps.map silent) h args = (Cmdline.lookahead ps args, h) := by
  induction ps generalizing args with
  | nil => rfl
  | cons p ps ih =>
    rw [List.map_cons, lookahead, Cmdline.lookahead, silent]
    cases p args with
    | error f => rfl
    | ok r =>
      obtain ⟨os, args'⟩ := r
      dsimp only
      by_cases h0 : os = []
      · rw [if_pos h0, if_pos h0, ih]
      · rw [if_neg h0, if_neg h0]

theorem lookahead_front (c : Cmdline) (g : Talk) (h : List Str) (tok : Str) :
    lookahead (parsers c g) h [tok] = (front c g h tok, h ++ [tok]) := by
  rw [parsers, lookahead, ask, front]
  cases g h tok with
  | error f => rfl
  | ok r =>
    dsimp only
    by_cases h0 : r.1 = []
    · rw [if_pos h0, if_pos h0]
      dsimp only
      rw [if_pos rfl, lookahead_silent, Cmdline.lookahead_front _ rfl]
    · rw [if_neg h0, if_neg h0]
      rfl

theorem front_error (c : Cmdline) {g : Talk} {h : List Str} {tok : Str} {e : Fail} (he : g h tok = .error e) :
    front c g h tok = .error e := by
  rw [front, he]

theorem grab_heard (c : Cmdline) (g : Talk) (n : Nat) (h other : List Str) (opt : Opt) (orig : Str) :
    Heard g h other (grab c (parsers c g) n h other opt orig) := by
  induction n generalizing h other opt orig with
  | zero => rw [grab]; exact .none (by rintro _ _ ⟨⟩; rfl)
  | succ n ih =>
    cases other with
    | nil => rw [grab]; exact .none (by rintro _ _ ⟨⟩; rfl)
    | cons t ts =>
      rw [grab, lookahead_front]
      apply Heard.cons
      · intro e he
        rw [front_error c he]
        exact ⟨rfl, .inr ⟨_, _, _, rfl⟩⟩
      cases front c g h t with
      | error f => exact .error
      | ok os =>
        cases os with
        | nil => exact ih _ _ _ _
        | cons o os =>
          dsimp only
          cases c.lookup t with
          | error f => exact .error
          | ok d =>
            cases d with
            | none => exact ih _ _ _ _
            | some d => exact .error

theorem finishOption_heard (c : Cmdline) (g : Talk) (h : List Str) (opt : Opt) (other : List Str) :
    Heard g h other (finishOption c (parsers c g) h opt other) := by
  unfold finishOption
  by_cases hk : opt.stringKey = []
  · rw [if_pos hk]; exact .none (by rintro _ _ ⟨⟩; rfl)
  · rw [if_neg hk]
    dsimp only
    cases c.lookup opt.stringKey with
    | error f => exact .error
    | ok d =>
      cases d with
      | none =>
        dsimp only
        by_cases hu : c.allowUnregistered = true
        · rw [if_pos hu]; exact .none (by rintro _ _ ⟨⟩; rfl)
        · rw [if_neg hu]; exact .error
      | some d =>
        dsimp only
        by_cases hm : opt.value.length + other.length ≥ d.semantic.minTokens
        · rw [if_pos hm]
          by_cases hx : opt.value ≠ [] ∧ d.semantic.maxTokens = 0
          · rw [if_pos hx]; exact .error
          · rw [if_neg hx]; exact grab_heard _ _ _ _ _ _ _
        · rw [if_neg hm]; exact .error

theorem finishAll_heard (c : Cmdline) (g : Talk) (h : List Str) (os : List Opt) (args : List Str) :
    Heard g h args (finishAll c (parsers c g) h os args) := by
  induction os generalizing h with
  | nil => rw [finishAll]; exact .none (by rintro _ _ ⟨⟩; rfl)
  | cons o os ih =>
    cases os with
    | nil =>
      rw [finishAll]
      have := finishOption_heard c g h o args
      cases hf : finishOption c (parsers c g) h o args with
      | mk r h' =>
        rw [hf] at this
        cases r with
        | error f => exact this.map (by rintro _ ⟨⟩; rfl) (fun _ _ h => nomatch h)
        | ok r => exact this.map (fun _ h => nomatch h) (by rintro _ _ ⟨⟩; exact ⟨_, rfl⟩)
    | cons o2 os =>
      rw [finishAll.eq_3 _ _ _ _ _ _ (by simp)]
      obtain ⟨t, rest, e, e2, -, -⟩ := finishOption_heard c g h o []
      have ht : t = [] := by cases t with | nil => rfl | cons _ _ => cases e
      subst ht
      cases hf : finishOption c (parsers c g) h o [] with
      | mk r h' =>
        rw [hf] at e2
        rw [List.append_nil] at e2
        dsimp only at e2
        subst e2
        cases r with
        | error f => exact .error
        | ok r =>
          dsimp only
          have := ih h'
          cases hf : finishAll c (parsers c g) h' (o2 :: os) args with
          | mk r h2 =>
            rw [hf] at this
            cases r with
            | error f => exact this.map (by rintro _ ⟨⟩; rfl) (fun _ _ h => nomatch h)
            | ok r => exact this.map (fun _ h => nomatch h) (by rintro _ _ ⟨⟩; exact ⟨_, rfl⟩)

theorem finishAll_positional (c : Cmdline) (ps : List Parser) (h ts args : List Str) (f : Str → Opt)
    (hf : ∀ t, (f t).stringKey = []) : finishAll c ps h (ts.map f) args = (.ok (ts.map f, args), h) := by
  have h1 : ∀ t args, finishOption c ps h (f t) args = (.ok (f t, args), h) := by
    intro t args
    unfold finishOption
    rw [if_pos (hf t)]
  induction ts with
  | nil => rfl
  | cons t ts ih =>
    cases ts with
    | nil => simp only [List.map_cons, List.map_nil, finishAll, h1]
    | cons t2 ts =>
      rw [List.map_cons, List.map_cons, finishAll.eq_3 _ _ _ _ _ _ (by simp), h1]
      simp only
      rw [List.map_cons] at ih
      rw [ih]

theorem Heard.length {α : Type} {g : Talk} {h other left : List Str} {x : α} {h' : List Str} (hr : Heard g h other (.ok (x, left), h')) :
    left.length ≤ other.length := by
  obtain ⟨t, rest, rfl, -, -, hl⟩ := hr
  rw [hl _ _ rfl]; simp

/-- One round of the loop, by what the style parsers make of the token. -/
def after (c : Cmdline) (g : Talk) (h : List Str) (tok : Str) (rest : List Str) : Except Fail (List Opt) → Except Fail (List Opt × List Str) × List Str
  | .error f => (.error f, h)
  | .ok [] => (if tok = ['-', '-'] then .ok (rest.map Cmdline.afterDashes, []) else .ok ([Cmdline.plain tok], rest), h)
  | .ok (o :: os) => finishAll c (parsers c g) h (o :: os) rest

theorem tryParsers_silent (c : Cmdline) (g : Talk) (h : List Str) (tok : Str) (rest : List Str) (ps : List StyleParser)
    (hps : ∀ p ∈ ps, Cmdline.TokParser p) :
    tryParsers c (parsers c g) ((ps ++ [Cmdline.parseTerminator]).map silent) h (tok :: rest) =
      after c g h tok rest (Cmdline.lookahead ps [tok]) := by
  induction ps with
  | nil =>
    rw [List.nil_append, List.map_cons, tryParsers, silent, Cmdline.parseTerminator, Cmdline.lookahead, after]
    by_cases ht : tok = ['-', '-']
    · rw [if_pos ht]
      simp only
      have := finishAll_positional c (parsers c g) h rest [] Cmdline.afterDashes (fun _ => rfl)
      rw [show (rest.map fun a => ({ value := [a], originalTokens := [a], positionKey := intMax } : Opt)) = rest.map Cmdline.afterDashes from rfl, this]
      simp [ht]
    · rw [if_neg ht]
      simp only [finishAll, ne_eq, not_true_eq_false, if_false, tryParsers, if_neg ht, List.nil_append, List.map_nil]
      rfl
  | cons p ps ih =>
    obtain ⟨k, hk⟩ := hps p (by simp)
    have ih' := ih fun q hq => hps q (by simp [hq])
    rw [List.cons_append, List.map_cons, tryParsers, Cmdline.lookahead_cons_tok hk, silent, hk]
    cases hkt : k tok with
    | error f => rfl
    | ok os =>
      cases os with
      | nil =>
        simp only [finishAll, ne_eq, not_true_eq_false, if_false]
        rw [ih']
        generalize after c g h tok rest (Cmdline.lookahead ps [tok]) = r
        obtain ⟨r, h'⟩ := r
        cases r with
        | error f => rfl
        | ok r => rfl
      | cons o os =>
        simp only [after]
        have hh := finishAll_heard c g h (o :: os) rest
        cases hfa : finishAll c (parsers c g) h (o :: os) rest with
        | mk r h' =>
          rw [hfa] at hh
          cases r with
          | error f => rfl
          | ok r =>
            obtain ⟨os', args'⟩ := r
            have := hh.length
            simp only
            rw [if_pos (by simp; omega)]

theorem step_eq (c : Cmdline) (g : Talk) (h : List Str) (tok : Str) (rest : List Str) :
    tryParsers c (parsers c g) (parsers c g) h (tok :: rest) = after c g (h ++ [tok]) tok rest (front c g h tok) := by
  have key := tryParsers_silent c g (h ++ [tok]) tok rest _ (bare c).tokParsers_tok
  rw [← (bare c).parsers_eq rfl] at key
  show tryParsers c (parsers c g) (ask g :: (bare c).parsers.map silent) h (tok :: rest) = _
  rw [tryParsers, ask, front]
  cases g h tok with
  | error f => rfl
  | ok r =>
    dsimp only
    by_cases h0 : r.1 = []
    · rw [if_pos h0, if_pos h0]
      simp only [finishAll, ne_eq, not_true_eq_false, if_false]
      rw [key]
      show _ = after c g (h ++ [tok]) tok rest (Cmdline.lookahead (bare c).tokParsers [tok])
      generalize after c g (h ++ [tok]) tok rest (Cmdline.lookahead (bare c).tokParsers [tok]) = r
      obtain ⟨r, h'⟩ := r
      cases r with
      | error f => rfl
      | ok r => rfl
    · rw [if_neg h0, if_neg h0]
      simp only [after]
      have hh := finishAll_heard c g (h ++ [tok]) [{ stringKey := r.1, value := if r.2 = [] then [] else [r.2] }] rest
      cases hfa : finishAll c (parsers c g) (h ++ [tok]) [{ stringKey := r.1, value := if r.2 = [] then [] else [r.2] }] rest with
      | mk r h' =>
        rw [hfa] at hh
        cases r with
        | error f => rfl
        | ok r =>
          obtain ⟨os', args'⟩ := r
          have := hh.length
          simp only
          rw [if_pos (by simp; omega)]

/-! ### With a parser that answers as a function does -/

/-- On the tokens, in their order, the parser answers as `f`. -/
def Plays (g : Talk) (f : Str → Str × Str) (h args : List Str) : Prop :=
  ∀ t x r, args = t ++ x :: r → g (h ++ t) x = .ok (f x)

theorem Plays.head {g : Talk} {f : Str → Str × Str} {h args : List Str} {x : Str} (hp : Plays g f h (x :: args)) : g h x = .ok (f x) := by
  have := hp [] x args rfl
  rwa [List.append_nil] at this

theorem Plays.append {g : Talk} {f : Str → Str × Str} {h t args : List Str} (hp : Plays g f h (t ++ args)) : Plays g f (h ++ t) args := by
  intro t' x r e
  have := hp (t ++ t') x r (by rw [e, List.append_assoc])
  rwa [List.append_assoc]

theorem Plays.tail {g : Talk} {f : Str → Str × Str} {h args : List Str} {x : Str} (hp : Plays g f h (x :: args)) : Plays g f (h ++ [x]) args :=
  Plays.append (t := [x]) hp

theorem shortLoop_extra (c : Cmdline) (f : Str → Str × Str) (tok name adj : Str) :
    (withExtra c f).shortLoop tok name adj = (bare c).shortLoop tok name adj := by
  induction adj generalizing name with
  | nil => rfl
  | cons a adj ih =>
    rw [Cmdline.shortLoop, Cmdline.shortLoop, ih]
    rfl

theorem tokParsers_extra (c : Cmdline) (f : Str → Str × Str) :
    (withExtra c f).tokParsers = Cmdline.parseAdditional f :: (bare c).tokParsers := by
  have hs : (withExtra c f).parseShort = (bare c).parseShort := by
    funext args
    cases args with
    | nil => rfl
    | cons tok rest => rw [Cmdline.parseShort, Cmdline.parseShort, shortLoop_extra]
  unfold Cmdline.tokParsers
  rw [hs]
  rfl

theorem front_plays (c : Cmdline) (g : Talk) (f : Str → Str × Str) (h : List Str) (tok : Str) (e : g h tok = .ok (f tok)) :
    front c g h tok = (withExtra c f).front tok := by
  have h2 : (withExtra c f).front tok = Cmdline.lookahead (Cmdline.parseAdditional f :: (bare c).tokParsers) [tok] := by
    rw [← tokParsers_extra]; rfl
  rw [front, e, h2, Cmdline.lookahead, Cmdline.parseAdditional]
  dsimp only
  by_cases h0 : (f tok).1 = []
  · rw [if_pos h0, if_pos h0]; rfl
  · rw [if_neg h0, if_neg h0]; rfl

theorem grab_plays (c : Cmdline) (g : Talk) (f : Str → Str × Str) (n : Nat) (h other : List Str) (opt : Opt) (orig : Str)
    (hp : Plays g f h other) :
    (grab c (parsers c g) n h other opt orig).1 = (withExtra c f).grab (withExtra c f).parsers n other opt orig := by
  induction n generalizing h other opt orig with
  | zero => rfl
  | succ n ih =>
    cases other with
    | nil => rfl
    | cons t ts =>
      rw [grab, lookahead_front, Cmdline.grab, Cmdline.lookahead_front _ rfl, front_plays c g f h t hp.head]
      cases (withExtra c f).front t with
      | error e => rfl
      | ok os =>
        cases os with
        | nil => exact ih _ _ _ _ hp.tail
        | cons o os =>
          dsimp only
          rw [show (withExtra c f).lookup t = c.lookup t from rfl]
          cases c.lookup t with
          | error e => rfl
          | ok d =>
            cases d with
            | none => exact ih _ _ _ _ hp.tail
            | some d => rfl

theorem finishOption_plays (c : Cmdline) (g : Talk) (f : Str → Str × Str) (h : List Str) (opt : Opt) (other : List Str)
    (hp : Plays g f h other) :
    (finishOption c (parsers c g) h opt other).1 = (withExtra c f).finishOption (withExtra c f).parsers opt other := by
  unfold finishOption Cmdline.finishOption
  by_cases hk : opt.stringKey = []
  · rw [if_pos hk, if_pos hk]
  · rw [if_neg hk, if_neg hk]
    dsimp only
    rw [show (withExtra c f).lookup opt.stringKey = c.lookup opt.stringKey from rfl]
    cases c.lookup opt.stringKey with
    | error e => rfl
    | ok d =>
      cases d with
      | none =>
        dsimp only
        by_cases hu : c.allowUnregistered = true
        · rw [if_pos hu, if_pos hu]
        · rw [if_neg hu, if_neg hu]; rfl
      | some d =>
        dsimp only
        by_cases hm : opt.value.length + other.length ≥ d.semantic.minTokens
        · rw [if_pos hm, if_pos hm]
          by_cases hx : opt.value ≠ [] ∧ d.semantic.maxTokens = 0
          · rw [if_pos hx, if_pos hx]; rfl
          · rw [if_neg hx, if_neg hx]; exact grab_plays c g f _ h other _ _ hp
        · rw [if_neg hm, if_neg hm]; rfl

theorem finishAll_plays (c : Cmdline) (g : Talk) (f : Str → Str × Str) (h : List Str) (os : List Opt) (args : List Str)
    (hp : Plays g f h args) :
    (finishAll c (parsers c g) h os args).1 = (withExtra c f).finishAll (withExtra c f).parsers os args := by
  induction os generalizing h with
  | nil => rfl
  | cons o os ih =>
    cases os with
    | nil =>
      rw [finishAll, Cmdline.finishAll, ← finishOption_plays c g f h o args hp]
      cases hf : finishOption c (parsers c g) h o args with
      | mk r h' => cases r <;> rfl
    | cons o2 os =>
      rw [finishAll.eq_3 _ _ _ _ _ _ (by simp), Cmdline.finishAll.eq_3 _ _ _ _ _ (by simp),
        ← finishOption_plays c g f h o [] (by intro t x r e; cases t <;> cases e)]
      obtain ⟨t, rest, e, e2, -, -⟩ := finishOption_heard c g h o []
      have ht : t = [] := by cases t with | nil => rfl | cons _ _ => cases e
      subst ht
      cases hf : finishOption c (parsers c g) h o [] with
      | mk r h' =>
        rw [hf] at e2
        rw [List.append_nil] at e2
        dsimp only at e2
        subst e2
        cases r with
        | error e => rfl
        | ok r =>
          dsimp only
          rw [← ih h' hp]
          cases hf : finishAll c (parsers c g) h' (o2 :: os) args with
          | mk r h2 => cases r <;> rfl

theorem step_plays (c : Cmdline) (g : Talk) (f : Str → Str × Str) (h : List Str) (tok : Str) (rest : List Str)
    (hp : Plays g f h (tok :: rest)) :
    (tryParsers c (parsers c g) (parsers c g) h (tok :: rest)).1 = (withExtra c f).step (tok :: rest) := by
  rw [step_eq, Cmdline.step_eq _ rfl, front_plays c g f h tok hp.head]
  cases (withExtra c f).front tok with
  | error e => rfl
  | ok os =>
    cases os with
    | nil => rfl
    | cons o os => exact finishAll_plays c g f _ _ _ hp.tail

/-- What one round of the loop has called: the tokens it has taken, or only the terminator. -/
theorem step_heard (c : Cmdline) (g : Talk) (h : List Str) (tok : Str) (rest : List Str) :
    Heard g h (tok :: rest) (tryParsers c (parsers c g) (parsers c g) h (tok :: rest)) ∨
      (tok = ['-', '-'] ∧ tryParsers c (parsers c g) (parsers c g) h (tok :: rest) =
        (.ok (rest.map Cmdline.afterDashes, []), h ++ [tok])) := by
  rw [step_eq]
  have key : ∀ r : Except Fail (List Opt × List Str) × List Str,
      after c g (h ++ [tok]) tok rest (front c g h tok) = r → Heard g (h ++ [tok]) rest r → Heard g h (tok :: rest) r := by
    intro r er hr
    refine Heard.cons ?_ hr
    intro e he
    rw [front_error c he] at er
    subst er
    exact ⟨rfl, .inl rfl⟩
  cases hf : front c g h tok with
  | error f => exact .inl (key _ (by rw [hf]) .error)
  | ok os =>
    cases os with
    | nil =>
      by_cases ht : tok = ['-', '-']
      · rw [after, if_pos ht]; exact .inr ⟨ht, rfl⟩
      · refine .inl (key _ (by rw [hf]) ?_)
        rw [after, if_neg ht]
        exact .none (by rintro _ _ ⟨⟩; rfl)
    | cons o os => exact .inl (key _ (by rw [hf]) (finishAll_heard _ _ _ _ _))

end ExtraCalls
end PO
