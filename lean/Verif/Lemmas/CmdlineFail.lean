import Verif.Lemmas.Cmdline
/-
How the first pass of the command line parser can fail, and that it consumes tokens.
-/
namespace PO

theorem findNothrow_error {opts : List OptionDesc} {name : Str} {ap li si : Bool} {f : Fail}
    (h : findNothrow opts name ap li si = .error f) : ∃ alts, f = errAmbiguous alts := by
  unfold findNothrow at h
  simp only at h
  split at h
  · cases h; exact ⟨_, rfl⟩
  · split at h
    · cases h; exact ⟨_, rfl⟩
    · cases h

namespace Cmdline

theorem lookup_error {c : Cmdline} {name : Str} {f : Fail} (h : c.lookup name = .error f) : ∃ alts, f = errAmbiguous alts :=
  findNothrow_error h

/-- A class of failures containing what the built-in parsers throw. -/
structure Kind (P : Fail → Prop) : Prop where
  ctx : ∀ f n t s, P f → P (f.addContext n t s)
  amb : ∀ alts, P (errAmbiguous alts)
  syn : ∀ k n t s, P (errSyntax k n t s)

/-- Style parsers whose failures on `Q` inputs are in `P`, and which stay in `Q` if they return no option
(except perhaps the last one). -/
structure Behaved (Q : List Str → Prop) (P : Fail → Prop) (ps : List StyleParser) : Prop where
  err : ∀ p ∈ ps, ∀ args f, Q args → p args = .error f → P f
  keep : ∀ p ∈ ps.dropLast, ∀ args rest, Q args → p args = .ok ([], rest) → Q rest

section
variable {Q : List Str → Prop} {P : Fail → Prop}

theorem lookahead_err (ps : List StyleParser) (hps : Behaved Q P ps) (args : List Str) (f : Fail) (hq : Q args)
    (h : lookahead ps args = .error f) : P f := by
  induction ps generalizing args with
  | nil => cases h
  | cons p ps ih =>
    rw [lookahead] at h
    cases hp : p args with
    | error f' => rw [hp] at h; cases h; exact hps.err p (by simp) _ _ hq hp
    | ok r =>
      obtain ⟨os, rest⟩ := r
      rw [hp] at h
      simp only at h
      by_cases ho : os = []
      · subst ho
        rw [if_pos rfl] at h
        cases ps with
        | nil => cases h
        | cons p2 ps =>
          exact ih ⟨fun q hq => hps.err q (by simp [hq]), fun q hq => hps.keep q (by simp [hq])⟩ _
            (hps.keep p (by simp) _ _ hq hp) h
      · rw [if_neg ho] at h; cases h

theorem grab_err (hP : Kind P) (hQ : ∀ t, Q [t]) (c : Cmdline) (ps : List StyleParser) (hps : Behaved Q P ps) (n : Nat)
    (other : List Str) (opt : Opt) (orig : Str) (f : Fail) (h : c.grab ps n other opt orig = .error f) : P f := by
  induction n generalizing other opt orig with
  | zero => rw [grab] at h; cases h
  | succ n ih =>
    cases other with
    | nil => rw [grab] at h; cases h
    | cons t ts =>
      rw [grab] at h
      cases hl : lookahead ps [t] with
      | error f' =>
        rw [hl] at h
        cases h
        exact hP.ctx _ _ _ _ (lookahead_err ps hps _ _ (hQ t) hl)
      | ok os =>
        rw [hl] at h
        cases os with
        | nil => exact ih _ _ _ h
        | cons o os =>
          simp only at h
          cases hk : c.lookup t with
          | error f' =>
            rw [hk] at h
            cases h
            obtain ⟨alts, rfl⟩ := lookup_error hk
            exact hP.ctx _ _ _ _ (hP.amb _)
          | ok d =>
            rw [hk] at h
            cases d with
            | some d => cases h; exact hP.ctx _ _ _ _ (hP.syn _ _ _ _)
            | none => exact ih _ _ _ h

theorem finishOption_err (hP : Kind P) (hQ : ∀ t, Q [t]) (c : Cmdline) (hu : c.allowUnregistered = true ∨ P errUnknown)
    (ps : List StyleParser) (hps : Behaved Q P ps) (opt : Opt) (other : List Str) (f : Fail)
    (h : c.finishOption ps opt other = .error f) : P f := by
  unfold finishOption at h
  by_cases hk : opt.stringKey = []
  · rw [if_pos hk] at h; cases h
  · rw [if_neg hk] at h
    simp only at h
    cases hl : c.lookup opt.stringKey with
    | error f' =>
      rw [hl] at h
      cases h
      obtain ⟨alts, rfl⟩ := lookup_error hl
      exact hP.ctx _ _ _ _ (hP.amb _)
    | ok d =>
      rw [hl] at h
      cases d with
      | none =>
        simp only at h
        by_cases hu' : c.allowUnregistered = true
        · rw [if_pos hu'] at h; cases h
        · rw [if_neg hu'] at h; cases h
          exact hP.ctx _ _ _ _ (hu.resolve_left hu')
      | some d =>
        simp only at h
        split at h
        · split at h
          · cases h; exact hP.ctx _ _ _ _ (hP.syn _ _ _ _)
          · exact grab_err hP hQ c ps hps _ _ _ _ _ h
        · cases h; exact hP.ctx _ _ _ _ (hP.syn _ _ _ _)

theorem finishAll_err (hP : Kind P) (hQ : ∀ t, Q [t]) (c : Cmdline) (hu : c.allowUnregistered = true ∨ P errUnknown)
    (ps : List StyleParser) (hps : Behaved Q P ps) (os : List Opt) (args : List Str) (f : Fail)
    (h : c.finishAll ps os args = .error f) : P f := by
  induction os with
  | nil => rw [finishAll] at h; cases h
  | cons o os ih =>
    cases os with
    | nil =>
      rw [finishAll] at h
      cases hf : c.finishOption ps o args with
      | error f' => rw [hf] at h; cases h; exact finishOption_err hP hQ c hu ps hps _ _ _ hf
      | ok r => rw [hf] at h; cases h
    | cons o2 os =>
      rw [finishAll.eq_3 _ _ _ _ _ (by simp)] at h
      cases hf : c.finishOption ps o [] with
      | error f' => rw [hf] at h; cases h; exact finishOption_err hP hQ c hu ps hps _ _ _ hf
      | ok r =>
        obtain ⟨o1, a1⟩ := r
        rw [hf] at h
        simp only at h
        cases hg : c.finishAll ps (o2 :: os) args with
        | error f' => rw [hg] at h; cases h; exact ih hg
        | ok r => rw [hg] at h; cases h

theorem tryParsers_err (hP : Kind P) (hQ : ∀ t ts, Q (t :: ts)) (hQP : Q [] → P (.ub .emptyArgs)) (c : Cmdline)
    (hu : c.allowUnregistered = true ∨ P errUnknown)
    (all : List StyleParser) (hall : Behaved Q P all) (ps : List StyleParser) (hps : ∀ p ∈ ps, ∀ args f, Q args → p args = .error f → P f)
    (args : List Str) (f : Fail) (hq : Q args) (h : c.tryParsers all ps args = .error f) : P f := by
  induction ps generalizing args with
  | nil =>
    cases args with
    | nil => rw [tryParsers] at h; cases h; exact hQP hq
    | cons a args => rw [tryParsers] at h; cases h
  | cons p ps ih =>
    rw [tryParsers] at h
    cases hp : p args with
    | error f' => rw [hp] at h; cases h; exact hps p (by simp) _ _ hq hp
    | ok r =>
      obtain ⟨next, args1⟩ := r
      rw [hp] at h
      simp only at h
      cases hf : c.finishAll all next args1 with
      | error f' => rw [hf] at h; cases h; exact finishAll_err hP (fun t => hQ t []) c hu all hall _ _ _ hf
      | ok r =>
        obtain ⟨next', args2⟩ := r
        rw [hf] at h
        simp only at h
        by_cases hl : args2.length ≠ args.length
        · rw [if_pos hl] at h; cases h
        · rw [if_neg hl] at h
          cases ht : c.tryParsers all ps args2 with
          | ok r => rw [ht] at h; cases h
          | error f' =>
            rw [ht] at h
            cases h
            refine ih (fun q hq => hps q (by simp [hq])) args2 ?_ ht
            cases args2 with
            | cons t ts => exact hQ _ _
            | nil =>
              cases args with
              | nil => exact hq
              | cons a args => simp at hl

/-- The first pass fails only in `P`, or for lack of fuel. -/
theorem loop_err (hP : Kind P) (hQ : ∀ t ts, Q (t :: ts)) (hQP : Q [] → P (.ub .emptyArgs)) (c : Cmdline)
    (hu : c.allowUnregistered = true ∨ P errUnknown) (hps : Behaved Q P c.parsers) (fuel : Nat)
    (args : List Str) (f : Fail) (h : c.loop fuel args = .error f) : P f ∨ f = .fuel := by
  induction fuel generalizing args with
  | zero =>
    cases args with
    | nil => rw [loop] at h; cases h
    | cons a args => rw [loop] at h; cases h; exact .inr rfl
  | succ fuel ih =>
    cases args with
    | nil => rw [loop] at h; cases h
    | cons a args =>
      rw [loop] at h
      cases hs : c.step (a :: args) with
      | error f' =>
        rw [hs] at h; cases h
        exact .inl (tryParsers_err hP hQ hQP c hu _ hps _ hps.err _ _ (hQ _ _) hs)
      | ok r =>
        obtain ⟨os, args'⟩ := r
        rw [hs] at h
        simp only at h
        cases hl : c.loop fuel args' with
        | error f' => rw [hl] at h; cases h; exact ih _ hl
        | ok more => rw [hl] at h; cases h

/-- The built-in parsers are well behaved on non-empty inputs, as regards failures. -/
theorem tok_err (hP : Kind P) (hQ : ∀ t ts, Q (t :: ts)) (hQP : Q [] → P (.ub .emptyArgs)) (c : Cmdline) (p : StyleParser)
    (h : p ∈ c.tokParsers ∨ p = parseTerminator) (args : List Str) (f : Fail) (hq : Q args) (he : p args = .error f) : P f := by
  have hlong : ∀ args f, Q args → c.parseLong args = .error f → P f := by
    intro args f hq h
    cases args with
    | nil => rw [parseLong] at h; cases h; exact hQP hq
    | cons tok rest =>
      rw [parseLong] at h
      split at h
      · split at h
        · simp only at h
          split at h
          · cases h; exact hP.syn _ _ _ _
          · cases h
        · cases h
      · cases h
  · rcases h with h | rfl
    · unfold tokParsers at h
      simp only [List.mem_append] at h
      rcases h with (((h | h) | h) | h) | h
      · split at h
        · simp at h; subst h
          cases args with
          | nil => rw [parseAdditional] at he; cases he; exact hQP hq
          | cons tok rest =>
            rw [parseAdditional] at he
            split at he <;> cases he
        · simp at h
      · split at h
        · simp at h; subst h; exact hlong _ _ hq he
        · simp at h
      · split at h
        · simp at h; subst h
          cases args with
          | nil => rw [parseDisguised] at he; cases he; exact hQP hq
          | cons tok rest =>
            rw [parseDisguised] at he
            split at he
            · cases hl : c.lookup (disguisedName tok) with
              | error f' =>
                rw [hl] at he
                cases he
                obtain ⟨alts, rfl⟩ := lookup_error hl
                exact hP.ctx _ _ _ _ (hP.amb _)
              | ok d =>
                rw [hl] at he
                cases d with
                | none => cases he
                | some d =>
                  simp only at he
                  cases hp : c.parseLong (undisguise tok :: rest) with
                  | error f' => rw [hp] at he; cases he; exact hP.ctx _ _ _ _ (hlong _ _ (hQ _ _) hp)
                  | ok r => rw [hp] at he; cases he
            · cases he
        · simp at h
      · split at h
        · simp at h; subst h
          cases args with
          | nil => rw [parseShort] at he; cases he; exact hQP hq
          | cons tok rest =>
            rw [parseShort] at he
            have hsl : ∀ adj name f, c.shortLoop tok name adj = .error f → P f := by
              have hfs : ∀ name f, c.findShort name = .error f → P f := by
                intro name f hf
                unfold findShort at hf
                split at hf
                · rename_i hf'
                  cases hf
                  obtain ⟨alts, rfl⟩ := findNothrow_error hf'
                  exact hP.ctx _ _ _ _ (hP.amb _)
                · cases hf
              intro adj
              induction adj with
              | nil =>
                intro name f h
                rw [shortLoop] at h
                cases hf : c.findShort name with
                | error f' => rw [hf] at h; cases h; exact hfs _ _ hf
                | ok d => rw [hf] at h; cases h
              | cons a adj ih =>
                intro name f h
                rw [shortLoop] at h
                cases hf : c.findShort name with
                | error f' => rw [hf] at h; cases h; exact hfs _ _ hf
                | ok d =>
                  rw [hf] at h
                  simp only at h
                  split at h
                  · cases hs : c.shortLoop tok ['-', a] adj with
                    | error f' => rw [hs] at h; cases h; exact ih _ _ hs
                    | ok os => rw [hs] at h; cases h
                  · cases h
            split at he
            · cases hs : c.shortLoop tok (substr tok 0 2) (tok.drop 2) with
              | error f' => rw [hs] at he; cases he; exact hsl _ _ _ hs
              | ok os => rw [hs] at he; cases he
            · cases he
        · simp at h
      · split at h
        · simp at h; subst h
          cases args with
          | nil => rw [parseDos] at he; cases he; exact hQP hq
          | cons tok rest =>
            rw [parseDos] at he
            split at he <;> cases he
        · simp at h
    · cases args with
      | nil => rw [parseTerminator] at he; cases he; exact hQP hq
      | cons tok rest =>
        rw [parseTerminator] at he
        split at he <;> cases he

theorem tok_keep (hQ : ∀ t ts, Q (t :: ts)) (c : Cmdline) (p : StyleParser)
    (h : p ∈ c.tokParsers) (args rest : List Str) (he : p args = .ok ([], rest)) : Q rest := by
  obtain ⟨g, hg⟩ := c.tokParsers_tok p h
  cases args with
  | nil =>
    exfalso
    have hnil : ∀ p ∈ c.tokParsers, p [] = .error (.ub .emptyArgs) := by
      intro p h
      unfold tokParsers at h
      simp only [List.mem_append] at h
      rcases h with (((h | h) | h) | h) | h
      all_goals
        split at h
        · simp at h; subst h; rfl
        · simp at h
    rw [hnil p h] at he
    cases he
  | cons tok ts =>
    rw [hg] at he
    cases hgt : g tok with
    | error f => rw [hgt] at he; cases he
    | ok os =>
      rw [hgt] at he
      cases os with
      | nil => cases he; exact hQ _ _
      | cons o os => cases he

/-- The parsers of `c` are well behaved if the user-supplied one is. -/
theorem behaved (hP : Kind P) (hQ : ∀ t ts, Q (t :: ts)) (hQP : Q [] → P (.ub .emptyArgs)) (c : Cmdline)
    (hc : ∀ p, c.styleParser = some p → (∀ args f, Q args → p args = .error f → P f) ∧
      ∀ args rest, Q args → p args = .ok ([], rest) → Q rest) : Behaved Q P c.parsers := by
  have e : c.parsers = (match c.styleParser with | some p => [p] | none => []) ++ c.tokParsers ++ [parseTerminator] := by
    unfold parsers tokParsers
    simp only [List.append_assoc]
    rfl
  constructor
  · intro p hp args f hq he
    rw [e] at hp
    simp only [List.mem_append, List.mem_singleton] at hp
    rcases hp with (hp | hp) | hp
    · cases hs : c.styleParser with
      | none => rw [hs] at hp; simp at hp
      | some q => rw [hs] at hp; simp at hp; subst hp; exact (hc _ hs).1 _ _ hq he
    · exact tok_err hP hQ hQP c p (.inl hp) _ _ hq he
    · exact tok_err hP hQ hQP c p (.inr hp) _ _ hq he
  · intro p hp args rest hq he
    rw [e, List.dropLast_concat] at hp
    simp only [List.mem_append] at hp
    rcases hp with hp | hp
    · cases hs : c.styleParser with
      | none => rw [hs] at hp; simp at hp
      | some q => rw [hs] at hp; simp at hp; subst hp; exact (hc _ hs).2 _ _ hq he
    · exact tok_keep hQ c p hp _ _ he

end
end Cmdline
end PO
