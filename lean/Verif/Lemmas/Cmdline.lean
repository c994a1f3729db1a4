import Verif.Model.Cmdline
/-
Lemmas about the first pass of the command line parser: one round of the loop seen as a function of
the first token.
-/
namespace PO
namespace Cmdline

/-- A style parser that looks at the first token only, and removes it if it returns an option. -/
def TokParser (p : StyleParser) : Prop :=
  ∃ g : Str → Except Fail (List Opt), ∀ tok rest, p (tok :: rest) =
    match g tok with
    | .error f => .error f
    | .ok [] => .ok ([], tok :: rest)
    | .ok (o :: os) => .ok (o :: os, rest)

theorem TokParser.long (c : Cmdline) : TokParser c.parseLong := by
  refine ⟨fun tok => match c.parseLong [tok] with | .error f => .error f | .ok r => .ok r.1, ?_⟩
  intro tok rest
  dsimp only
  rw [parseLong, parseLong]
  by_cases h : tok.length ≥ 3 ∧ tok[0]? = some '-' ∧ tok[1]? = some '-'
  · rw [if_pos h, if_pos h]
    cases findChar tok '=' with
    | none => rfl
    | some p =>
      simp only
      by_cases ha : tok.drop (p + 1) = []
      · rw [if_pos ha, if_pos ha]
      · rw [if_neg ha, if_neg ha]
  · rw [if_neg h, if_neg h]

theorem shortLoop_ne (c : Cmdline) (tok name adj : Str) (os : List Opt) (h : c.shortLoop tok name adj = .ok os) : os ≠ [] := by
  cases adj with
  | nil =>
    rw [shortLoop] at h
    cases hf : c.findShort name with
    | error f => rw [hf] at h; cases h
    | ok d => rw [hf] at h; cases h; simp
  | cons a adj =>
    rw [shortLoop] at h
    cases hf : c.findShort name with
    | error f => rw [hf] at h; cases h
    | ok d =>
      rw [hf] at h
      simp only at h
      by_cases ht : c.takesNoValue d
      · rw [if_pos ht] at h
        cases hs : c.shortLoop tok ['-', a] adj with
        | error f => rw [hs] at h; cases h
        | ok os' => rw [hs] at h; cases h; simp
      · rw [if_neg ht] at h; cases h; simp

theorem TokParser.short (c : Cmdline) : TokParser c.parseShort := by
  refine ⟨fun tok => match c.parseShort [tok] with | .error f => .error f | .ok r => .ok r.1, ?_⟩
  intro tok rest
  dsimp only
  rw [parseShort, parseShort]
  by_cases h : tok.length ≥ 2 ∧ tok[0]? = some '-' ∧ tok[1]? ≠ some '-'
  · rw [if_pos h, if_pos h]
    cases hs : c.shortLoop tok (substr tok 0 2) (tok.drop 2) with
    | error f => rfl
    | ok os =>
      cases os with
      | nil => exact absurd rfl (c.shortLoop_ne _ _ _ _ hs)
      | cons o os => rfl
  · rw [if_neg h, if_neg h]

theorem TokParser.dos : TokParser parseDos := by
  refine ⟨fun tok => match parseDos [tok] with | .error f => .error f | .ok r => .ok r.1, ?_⟩
  intro tok rest
  dsimp only
  rw [parseDos, parseDos]
  by_cases h : tok.length ≥ 2 ∧ tok[0]? = some '/'
  · rw [if_pos h, if_pos h]
  · rw [if_neg h, if_neg h]

theorem TokParser.additional (f : Str → Str × Str) : TokParser (parseAdditional f) := by
  refine ⟨fun tok => match parseAdditional f [tok] with | .error f => .error f | .ok r => .ok r.1, ?_⟩
  intro tok rest
  dsimp only
  rw [parseAdditional, parseAdditional]
  by_cases h : (f tok).1 = []
  · simp only [if_pos h]
  · simp only [if_neg h]

/-- A token turned from disguised into long form is recognised as long option. -/
theorem parseLong_undisguise (c : Cmdline) (tok : Str) (hl : tok.length ≥ 2)
    (h : (tok[0]? = some '-' ∧ tok[1]? ≠ some '-') ∨ (active c.style Style.allowSlashForShort = true ∧ tok[0]? = some '/')) :
    (undisguise tok).length ≥ 3 ∧ (undisguise tok)[0]? = some '-' ∧ (undisguise tok)[1]? = some '-' := by
  cases tok with
  | nil => simp at hl
  | cons a tok =>
    cases tok with
    | nil => simp at hl
    | cons b tok =>
      by_cases ha : a = '/'
      · subst ha
        simp [undisguise]
      · have : a = '-' := by
          rcases h with h | h
          · simpa using h.1
          · have := h.2; simp at this; exact absurd this ha
        subst this
        simp [undisguise]

theorem TokParser.disguised (c : Cmdline) : TokParser c.parseDisguised := by
  refine ⟨fun tok => match c.parseDisguised [tok] with | .error f => .error f | .ok r => .ok r.1, ?_⟩
  intro tok rest
  dsimp only
  rw [parseDisguised, parseDisguised]
  by_cases h : tok.length ≥ 2 ∧ ((tok[0]? = some '-' ∧ tok[1]? ≠ some '-') ∨
        (active c.style Style.allowSlashForShort = true ∧ tok[0]? = some '/'))
  · rw [if_pos h, if_pos h]
    cases c.lookup (disguisedName tok) with
    | error f => rfl
    | ok d =>
      cases d with
      | none => rfl
      | some d =>
        simp only
        have hu := c.parseLong_undisguise tok h.1 h.2
        rw [parseLong, parseLong, if_pos hu, if_pos hu]
        cases findChar (undisguise tok) '=' with
        | none => rfl
        | some p =>
          simp only
          by_cases ha : (undisguise tok).drop (p + 1) = []
          · rw [if_pos ha, if_pos ha]
          · rw [if_neg ha, if_neg ha]
  · rw [if_neg h, if_neg h]

/-- The style parsers other than a user-supplied one and the terminator. -/
def tokParsers (c : Cmdline) : List StyleParser :=
  (match c.additional with | some f => [parseAdditional f] | none => []) ++
  (if active c.style Style.allowLong then [c.parseLong] else []) ++
  (if active c.style Style.allowLongDisguise then [c.parseDisguised] else []) ++
  (if active c.style Style.allowShort && active c.style Style.allowDashForShort then [c.parseShort] else []) ++
  (if active c.style Style.allowShort && active c.style Style.allowSlashForShort then [parseDos] else [])

theorem parsers_eq (c : Cmdline) (h : c.styleParser = none) : c.parsers = c.tokParsers ++ [parseTerminator] := by
  unfold parsers tokParsers
  rw [h]
  rfl

theorem tokParsers_tok (c : Cmdline) (p : StyleParser) (h : p ∈ c.tokParsers) : TokParser p := by
  unfold tokParsers at h
  simp only [List.mem_append] at h
  rcases h with (((h | h) | h) | h) | h
  · split at h
    · simp at h; subst h; exact .additional _
    · simp at h
  · split at h
    · simp at h; subst h; exact .long c
    · simp at h
  · split at h
    · simp at h; subst h; exact .disguised c
    · simp at h
  · split at h
    · simp at h; subst h; exact .short c
    · simp at h
  · split at h
    · simp at h; subst h; exact .dos
    · simp at h

/-- What the style parsers make of a token. -/
def front (c : Cmdline) (tok : Str) : Except Fail (List Opt) := lookahead c.tokParsers [tok]

theorem lookahead_cons_tok {p : StyleParser} {g : Str → Except Fail (List Opt)}
    (hg : ∀ tok rest, p (tok :: rest) =
      match g tok with
      | .error f => .error f
      | .ok [] => .ok ([], tok :: rest)
      | .ok (o :: os) => .ok (o :: os, rest)) (ps : List StyleParser) (tok : Str) :
    lookahead (p :: ps) [tok] =
      match g tok with
      | .error f => .error f
      | .ok [] => lookahead ps [tok]
      | .ok (o :: os) => .ok (o :: os) := by
  rw [lookahead, hg]
  cases g tok with
  | error f => rfl
  | ok os =>
    cases os with
    | nil => rfl
    | cons o os => rfl

theorem lookahead_terminator (ps : List StyleParser) (hps : ∀ p ∈ ps, TokParser p) (tok : Str) :
    lookahead (ps ++ [parseTerminator]) [tok] = lookahead ps [tok] := by
  induction ps with
  | nil =>
    simp only [List.nil_append, lookahead, parseTerminator]
    by_cases h : tok = ['-', '-']
    · simp [h]
    · simp [h]
  | cons p ps ih =>
    obtain ⟨g, hg⟩ := hps p (by simp)
    rw [List.cons_append, lookahead_cons_tok hg, lookahead_cons_tok hg, ih fun q hq => hps q (by simp [hq])]

theorem lookahead_front (c : Cmdline) (h : c.styleParser = none) (tok : Str) : lookahead c.parsers [tok] = c.front tok := by
  rw [c.parsers_eq h, lookahead_terminator _ (c.tokParsers_tok)]
  rfl

/-! ### Grabbing tokens -/

theorem grab_spec (c : Cmdline) (ps : List StyleParser) (n : Nat) (other : List Str) (opt : Opt) (orig : Str)
    (o' : Opt) (rest : List Str) (h : c.grab ps n other opt orig = .ok (o', rest)) :
    ∃ taken, other = taken ++ rest ∧ taken.length = min n other.length ∧
      o' = { opt with value := opt.value ++ taken, originalTokens := opt.originalTokens ++ taken } := by
  induction n generalizing other opt orig with
  | zero =>
    rw [grab] at h
    cases h
    exact ⟨[], by simp, by simp, by simp⟩
  | succ n ih =>
    cases other with
    | nil =>
      rw [grab] at h
      cases h
      exact ⟨[], by simp, by simp, by simp⟩
    | cons t ts =>
      have key : ∀ orig', c.grab ps n ts { opt with value := opt.value ++ [t], originalTokens := opt.originalTokens ++ [t] } orig' = .ok (o', rest) →
          ∃ taken, t :: ts = taken ++ rest ∧ taken.length = min (n + 1) (t :: ts).length ∧
            o' = { opt with value := opt.value ++ taken, originalTokens := opt.originalTokens ++ taken } := by
        intro orig' h
        obtain ⟨taken, e1, e2, e3⟩ := ih _ _ _ h
        refine ⟨t :: taken, by rw [List.cons_append, ← e1], by simp [e2], ?_⟩
        rw [e3]
        simp
      rw [grab] at h
      cases hl : lookahead ps [t] with
      | error f => rw [hl] at h; cases h
      | ok os =>
        rw [hl] at h
        cases os with
        | nil => exact key _ h
        | cons q os =>
          simp only at h
          cases hk : c.lookup t with
          | error f => rw [hk] at h; cases h
          | ok d =>
            rw [hk] at h
            cases d with
            | some d => cases h
            | none => exact key _ h

/-- Finishing an option: what it takes from the following tokens and becomes. -/
theorem finishOption_spec (c : Cmdline) (ps : List StyleParser) (opt : Opt) (other : List Str) (o' : Opt) (rest : List Str)
    (h : c.finishOption ps opt other = .ok (o', rest)) :
    (opt.stringKey = [] ∧ o' = opt ∧ rest = other) ∨
    (opt.stringKey ≠ [] ∧ c.lookup opt.stringKey = .ok none ∧ c.allowUnregistered = true ∧
      o' = { opt with unregistered := true } ∧ rest = other) ∨
    (∃ d taken, opt.stringKey ≠ [] ∧ c.lookup opt.stringKey = .ok (some d) ∧ other = taken ++ rest ∧
      taken.length = d.semantic.minTokens - opt.value.length ∧ ¬ (opt.value ≠ [] ∧ d.semantic.maxTokens = 0) ∧
      o' = { opt with stringKey := d.key opt.stringKey
                      value := opt.value ++ taken, originalTokens := opt.originalTokens ++ taken }) := by
  unfold finishOption at h
  by_cases hk : opt.stringKey = []
  · rw [if_pos hk] at h
    cases h
    exact .inl ⟨hk, rfl, rfl⟩
  · rw [if_neg hk] at h
    right
    simp only at h
    cases hl : c.lookup opt.stringKey with
    | error f => rw [hl] at h; cases h
    | ok d =>
      rw [hl] at h
      cases d with
      | none =>
        simp only at h
        by_cases hu : c.allowUnregistered = true
        · rw [if_pos hu] at h
          cases h
          exact .inl ⟨hk, rfl, hu, rfl, rfl⟩
        · rw [if_neg hu] at h; cases h
      | some d =>
        simp only at h
        by_cases hm : opt.value.length + other.length ≥ d.semantic.minTokens
        · rw [if_pos hm] at h
          by_cases hx : opt.value ≠ [] ∧ d.semantic.maxTokens = 0
          · rw [if_pos hx] at h; cases h
          · rw [if_neg hx] at h
            obtain ⟨taken, e1, e2, e3⟩ := grab_spec _ _ _ _ _ _ _ _ h
            exact .inr ⟨d, taken, hk, rfl, e1, by omega, hx, e3⟩
        · rw [if_neg hm] at h; cases h

theorem finishOption_length (c : Cmdline) (ps : List StyleParser) (opt : Opt) (other : List Str) (o' : Opt) (rest : List Str)
    (h : c.finishOption ps opt other = .ok (o', rest)) : rest.length ≤ other.length := by
  rcases c.finishOption_spec _ _ _ _ _ h with ⟨_, _, rfl⟩ | ⟨_, _, _, _, rfl⟩ | ⟨d, taken, _, _, rfl, _⟩
  · exact Nat.le_refl _
  · exact Nat.le_refl _
  · simp

theorem finishAll_length (c : Cmdline) (ps : List StyleParser) (os : List Opt) (args : List Str) (os' : List Opt) (args' : List Str)
    (h : c.finishAll ps os args = .ok (os', args')) : args'.length ≤ args.length := by
  induction os generalizing os' with
  | nil => rw [finishAll] at h; cases h; exact Nat.le_refl _
  | cons o os ih =>
    cases os with
    | nil =>
      rw [finishAll] at h
      cases hf : c.finishOption ps o args with
      | error f => rw [hf] at h; cases h
      | ok r =>
        obtain ⟨o1, a1⟩ := r
        rw [hf] at h
        cases h
        exact c.finishOption_length _ _ _ _ _ hf
    | cons o2 os =>
      rw [finishAll.eq_3 _ _ _ _ _ (by simp)] at h
      cases hf : c.finishOption ps o [] with
      | error f => rw [hf] at h; cases h
      | ok r =>
        obtain ⟨o1, a1⟩ := r
        rw [hf] at h
        simp only at h
        cases hg : c.finishAll ps (o2 :: os) args with
        | error f => rw [hg] at h; cases h
        | ok r =>
          obtain ⟨os1, a2⟩ := r
          rw [hg] at h
          cases h
          exact ih _ hg

theorem finishAll_positional (c : Cmdline) (ps : List StyleParser) (ts : List Str) (args : List Str) (f : Str → Opt)
    (hf : ∀ t, (f t).stringKey = []) : c.finishAll ps (ts.map f) args = .ok (ts.map f, args) := by
  have h1 : ∀ t args, c.finishOption ps (f t) args = .ok (f t, args) := by
    intro t args
    unfold finishOption
    rw [if_pos (hf t)]
  induction ts with
  | nil => rfl
  | cons t ts ih =>
    cases ts with
    | nil => simp only [List.map_cons, List.map_nil, finishAll, h1]
    | cons t2 ts =>
      rw [List.map_cons, List.map_cons, finishAll.eq_3 _ _ _ _ _ (by simp), h1]
      simp only
      rw [List.map_cons] at ih
      rw [ih]

/-- An argument that is not an option. -/
def plain (t : Str) : Opt := { value := [t], originalTokens := [t] }

/-- An argument after the terminator. -/
def afterDashes (t : Str) : Opt := { value := [t], originalTokens := [t], positionKey := intMax }

/-- **One round of the loop**, when there is no user-supplied style parser. -/
theorem step_eq (c : Cmdline) (h : c.styleParser = none) (tok : Str) (rest : List Str) :
    c.step (tok :: rest) =
      match c.front tok with
      | .error f => .error f
      | .ok [] => if tok = ['-', '-'] then .ok (rest.map afterDashes, []) else .ok ([plain tok], rest)
      | .ok (o :: os) => c.finishAll c.parsers (o :: os) rest := by
  unfold step
  suffices hs : ∀ all ps, (∀ p ∈ ps, TokParser p) → c.tryParsers all (ps ++ [parseTerminator]) (tok :: rest) =
      match lookahead ps [tok] with
      | .error f => .error f
      | .ok [] => if tok = ['-', '-'] then .ok (rest.map afterDashes, []) else .ok ([plain tok], rest)
      | .ok (o :: os) => c.finishAll all (o :: os) rest by
    have := hs c.parsers c.tokParsers c.tokParsers_tok
    rw [← c.parsers_eq h] at this
    exact this
  intro all ps hps
  induction ps with
  | nil =>
    rw [List.nil_append, tryParsers, parseTerminator]
    by_cases ht : tok = ['-', '-']
    · rw [if_pos ht]
      simp only
      have := c.finishAll_positional all rest [] afterDashes (fun _ => rfl)
      rw [show (rest.map fun a => ({ value := [a], originalTokens := [a], positionKey := intMax } : Opt)) = rest.map afterDashes from rfl, this]
      simp [lookahead, ht]
    · rw [if_neg ht]
      simp only [finishAll, ne_eq, not_true_eq_false, if_false, tryParsers, lookahead, if_neg ht, List.nil_append]
      rfl
  | cons p ps ih =>
    obtain ⟨g, hg⟩ := hps p (by simp)
    have ih' := ih fun q hq => hps q (by simp [hq])
    rw [List.cons_append, tryParsers, lookahead_cons_tok hg, hg]
    cases hgt : g tok with
    | error f => rfl
    | ok os =>
      cases os with
      | nil =>
        simp only [finishAll, ne_eq, not_true_eq_false, if_false]
        rw [ih']
        generalize (match lookahead ps [tok] with
          | .error f => Except.error f
          | .ok [] => if tok = ['-', '-'] then .ok (rest.map afterDashes, []) else .ok ([plain tok], rest)
          | .ok (o :: os) => c.finishAll all (o :: os) rest) = r
        cases r with
        | error f => rfl
        | ok r => rfl
      | cons o os =>
        simp only
        cases hfa : c.finishAll all (o :: os) rest with
        | error f => rfl
        | ok r =>
          obtain ⟨os', args'⟩ := r
          have := c.finishAll_length _ _ _ _ _ hfa
          simp only
          rw [if_pos (by simp; omega)]

end Cmdline
end PO
