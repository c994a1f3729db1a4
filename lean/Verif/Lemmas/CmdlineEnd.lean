import Verif.Lemmas.CmdlineFail
/-
How the passes after the first one can fail, and fuel.
-/
namespace PO
namespace Cmdline

theorem absorb_err (lim : Option Nat) (o : Opt) (ps : List Opt) (f : Fail) (h : absorb lim o ps = .error f) : ∃ u, f = .ub u := by
  induction ps generalizing lim o with
  | nil => rw [absorb] at h; cases h
  | cons p ps ih =>
    rw [absorb] at h
    split at h
    · cases h
    · split at h
      · cases h
      · split at h
        · cases h
        · split at h
          · split at h
            · split at h
              · rename_i hr; cases h; exact ih _ _ hr
              · cases h
            · cases h; exact ⟨_, rfl⟩
          · cases h; exact ⟨_, rfl⟩

theorem regroup_err (c : Cmdline) (k : Nat) (os : List Opt) (f : Fail) (h : c.regroup k os = .error f) :
    (∃ alts n t s, f = (errAmbiguous alts).addContext n t s) ∨ ∃ u, f = .ub u := by
  induction os generalizing k with
  | nil => rw [regroup] at h; cases h
  | cons o rest ih =>
    cases k with
    | succ k => rw [regroup] at h; exact ih _ h
    | zero =>
      have hc : ∀ o' k, (match c.regroup k rest with
          | .error f => Except.error f
          | .ok os => .ok (o' :: os)) = .error f →
          (∃ alts n t s, f = (errAmbiguous alts).addContext n t s) ∨ ∃ u, f = .ub u := by
        intro o' k hk
        split at hk
        · rename_i hr; cases hk; exact ih _ hr
        · cases hk
      rw [regroup] at h
      simp only at h
      split at h
      · exact hc _ _ h
      · split at h
        · rename_i e he
          obtain ⟨alts, ha⟩ := lookup_error he
          split at h
          · cases h; exact .inr ⟨_, rfl⟩
          · rename_i t _ _
            cases h
            refine .inl ⟨alts, o.stringKey, t, c.canonicalPrefix, ?_⟩
            rw [← ha]
            rfl
        · rename_i hne he
          obtain ⟨alts, ha⟩ := lookup_error he
          exact absurd ha (hne _)
        · exact hc _ _ h
        · split at h
          · split at h
            · rename_i hr; cases h; exact .inr (absorb_err _ _ _ _ hr)
            · exact hc _ _ h
          · exact hc _ _ h

theorem namePositional_err (p : Positional) (n : Nat) (os : List Opt) (f : Fail) (h : namePositional p n os = .error f) :
    f = .tooManyPositional := by
  induction os generalizing n with
  | nil => rw [namePositional] at h; cases h
  | cons o os ih =>
    rw [namePositional] at h
    split at h
    · split at h
      · cases h; rfl
      · rename_i hfull
        have : ∃ nm, p.nameForPosition n = .ok nm := by
          unfold Positional.nameForPosition
          split
          · exact ⟨_, rfl⟩
          · rename_i hn
            by_cases ht : p.trailing = []
            · exfalso
              apply hfull
              unfold Positional.full Positional.maxTotalCount
              rw [if_pos ht]
              simpa using hn
            · rw [if_neg ht]; exact ⟨_, rfl⟩
        obtain ⟨nm, hnm⟩ := this
        rw [hnm] at h
        simp only at h
        split at h
        · rename_i hr; cases h; exact ih _ hr
        · cases h
    · split at h
      · rename_i hr; cases h; exact ih _ hr
      · cases h

theorem finalize_err (c : Cmdline) (os : List Opt) (f : Fail) (h : c.finalize os = .error f) :
    c.regroup 0 os = .error f ∨ f = .tooManyPositional := by
  unfold finalize at h
  split at h
  · rename_i hr; cases h; exact .inl hr
  · simp only at h
    split at h
    · rename_i hr
      cases h
      unfold applyPositional at hr
      split at hr
      · cases hr
      · exact .inr (namePositional_err _ _ _ _ hr)
    · cases h

/-! ### Fuel -/

theorem tryParsers_shorter (c : Cmdline) (all ps : List StyleParser)
    (hps : ∀ p ∈ ps, ∀ args os rest, p args = .ok (os, rest) → rest.length ≤ args.length)
    (args : List Str) (os : List Opt) (rest : List Str) (h : c.tryParsers all ps args = .ok (os, rest)) :
    rest.length < args.length := by
  induction ps generalizing args os with
  | nil =>
    cases args with
    | nil => rw [tryParsers] at h; cases h
    | cons a args => rw [tryParsers] at h; cases h; simp
  | cons p ps ih =>
    rw [tryParsers] at h
    cases hp : p args with
    | error f => rw [hp] at h; cases h
    | ok r =>
      obtain ⟨next, args1⟩ := r
      rw [hp] at h
      simp only at h
      have h1 := hps p (by simp) _ _ _ hp
      cases hf : c.finishAll all next args1 with
      | error f => rw [hf] at h; cases h
      | ok r =>
        obtain ⟨next', args2⟩ := r
        rw [hf] at h
        simp only at h
        have h2 := c.finishAll_length _ _ _ _ _ hf
        by_cases hl : args2.length ≠ args.length
        · rw [if_pos hl] at h
          cases h
          omega
        · rw [if_neg hl] at h
          cases ht : c.tryParsers all ps args2 with
          | error f => rw [ht] at h; cases h
          | ok r =>
            obtain ⟨more, args3⟩ := r
            rw [ht] at h
            cases h
            have := ih (fun q hq => hps q (by simp [hq])) _ _ ht
            omega

/-- No parser lengthens the token list, if the user-supplied one does not. -/
theorem parsers_shorten (c : Cmdline)
    (hc : ∀ p, c.styleParser = some p → ∀ args os rest, p args = .ok (os, rest) → rest.length ≤ args.length)
    (p : StyleParser) (hp : p ∈ c.parsers) (args : List Str) (os : List Opt) (rest : List Str) (h : p args = .ok (os, rest)) :
    rest.length ≤ args.length := by
  have e : c.parsers = (match c.styleParser with | some p => [p] | none => []) ++ c.tokParsers ++ [parseTerminator] := by
    unfold parsers tokParsers
    simp only [List.append_assoc]
    rfl
  rw [e] at hp
  simp only [List.mem_append, List.mem_singleton] at hp
  rcases hp with (hp | hp) | rfl
  · cases hs : c.styleParser with
    | none => rw [hs] at hp; simp at hp
    | some q => rw [hs] at hp; simp at hp; subst hp; exact hc _ hs _ _ _ h
  · cases args with
    | nil =>
      have := tok_keep (Q := fun _ => True) (fun _ _ => trivial) c p hp
      unfold tokParsers at hp
      simp only [List.mem_append] at hp
      exfalso
      rcases hp with (((hp | hp) | hp) | hp) | hp
      all_goals
        split at hp
        · simp at hp; subst hp; cases h
        · simp at hp
    | cons tok ts =>
      obtain ⟨g, hg⟩ := c.tokParsers_tok p hp
      rw [hg] at h
      cases hgt : g tok with
      | error f => rw [hgt] at h; cases h
      | ok l =>
        rw [hgt] at h
        cases l with
        | nil => cases h; exact Nat.le_refl _
        | cons o l => cases h; simp
  · cases args with
    | nil => cases h
    | cons tok ts =>
      rw [parseTerminator] at h
      split at h
      · cases h; simp
      · cases h; exact Nat.le_refl _

/-- More fuel than tokens changes nothing. -/
theorem loop_fuel (c : Cmdline)
    (hc : ∀ p, c.styleParser = some p → ∀ args os rest, p args = .ok (os, rest) → rest.length ≤ args.length)
    (fuel : Nat) (args : List Str) (h : args.length ≤ fuel) : c.loop fuel args = c.loop args.length args := by
  suffices hs : ∀ n fuel fuel' args, args.length ≤ n → args.length ≤ fuel → args.length ≤ fuel' →
      c.loop fuel args = c.loop fuel' args from hs args.length _ _ _ (Nat.le_refl _) h (Nat.le_refl _)
  intro n
  induction n with
  | zero =>
    intro fuel fuel' args h0 _ _
    cases args with
    | nil => rw [loop, loop]
    | cons a args => simp at h0
  | succ n ih =>
    intro fuel fuel' args h0 h1 h2
    cases args with
    | nil => rw [loop, loop]
    | cons a args =>
      cases fuel with
      | zero => simp at h1
      | succ fuel =>
        cases fuel' with
        | zero => simp at h2
        | succ fuel' =>
          rw [loop, loop]
          cases hs : c.step (a :: args) with
          | error f => rfl
          | ok r =>
            obtain ⟨os, args'⟩ := r
            simp only
            have := tryParsers_shorter c _ _ (c.parsers_shorten hc) _ _ _ hs
            simp only [List.length_cons] at this h0 h1 h2
            rw [ih fuel fuel' args' (by omega) (by omega) (by omega)]

/-- With enough fuel the loop does not run out of it. -/
theorem loop_no_fuel (c : Cmdline)
    (hc : ∀ p, c.styleParser = some p → ∀ args os rest, p args = .ok (os, rest) → rest.length ≤ args.length)
    (hf : ∀ p, c.styleParser = some p → ∀ args, p args ≠ .error .fuel)
    (fuel : Nat) (args : List Str) (h : args.length ≤ fuel) : c.loop fuel args ≠ .error .fuel := by
  have hP : Kind (fun f => f ≠ .fuel) :=
    ⟨fun f n t s hf => by cases f <;> simp_all [Fail.addContext], fun _ => by simp [errAmbiguous], fun _ _ _ _ => by simp [errSyntax]⟩
  have hB : Behaved (fun _ => True) (fun f => f ≠ .fuel) c.parsers :=
    behaved hP (fun _ _ => trivial) (fun _ => by simp) c fun p hp =>
      ⟨fun args f _ he hff => hf p hp args (by rw [he, hff]), fun _ _ _ _ => trivial⟩
  induction fuel generalizing args with
  | zero =>
    cases args with
    | nil => rw [loop]; simp
    | cons a args => simp at h
  | succ fuel ih =>
    cases args with
    | nil => rw [loop]; simp
    | cons a args =>
      rw [loop]
      cases hs : c.step (a :: args) with
      | error f =>
        have := tryParsers_err hP (fun _ _ => trivial) (fun _ => by simp) c (.inr (by simp [errUnknown])) _ hB _ hB.err _ _ trivial hs
        simpa using this
      | ok r =>
        obtain ⟨os, args'⟩ := r
        simp only
        have := tryParsers_shorter c _ _ (c.parsers_shorten hc) _ _ _ hs
        simp only [List.length_cons] at this h
        have := ih args' (by omega)
        split
        · rename_i hl; rw [hl] at this; simpa using this
        · simp

end Cmdline
end PO
