import Verif.Lemmas.CmdlineFinal
/-
Where the tokens of a command line go.
-/
namespace PO
namespace Cmdline
open Spec

/-- Concatenated values. -/
def values (os : List Opt) : List Str := os.flatMap (·.value)
/-- Concatenated original tokens. -/
def tokens (os : List Opt) : List Str := os.flatMap (·.originalTokens)

@[simp] theorem values_nil : values [] = [] := rfl
@[simp] theorem tokens_nil : tokens [] = [] := rfl
@[simp] theorem values_cons (o : Opt) (os : List Opt) : values (o :: os) = o.value ++ values os := by simp [values]
@[simp] theorem tokens_cons (o : Opt) (os : List Opt) : tokens (o :: os) = o.originalTokens ++ tokens os := by simp [tokens]
@[simp] theorem values_append (a b : List Opt) : values (a ++ b) = values a ++ values b := by simp [values]
@[simp] theorem tokens_append (a b : List Opt) : tokens (a ++ b) = tokens a ++ tokens b := by simp [tokens]

theorem shortLoop_tokens (c : Cmdline) (tok : Str) (name adj : Str) (os : List Opt) (h : c.shortLoop tok name adj = .ok os) :
    tokens os = [tok] ∧ (values os).length ≤ 1 := by
  induction adj generalizing name os with
  | nil =>
    rw [shortLoop] at h
    cases hf : c.findShort name with
    | error f => rw [hf] at h; cases h
    | ok d => rw [hf] at h; cases h; simp
  | cons b adj ih =>
    rw [shortLoop] at h
    cases hf : c.findShort name with
    | error f => rw [hf] at h; cases h
    | ok d =>
      rw [hf] at h
      simp only at h
      by_cases ht : c.takesNoValue d = true
      · rw [if_pos ht] at h
        cases hs : c.shortLoop tok ['-', b] adj with
        | error f => rw [hs] at h; cases h
        | ok os' =>
          rw [hs] at h
          cases h
          simpa using ih _ _ hs
      · rw [if_neg ht] at h
        cases h
        simp

/-- A recognised token is recorded once, if it is at all. -/
theorem front_tokens (c : Cmdline) (tok : Str) (l : List Opt) (h : c.front tok = .ok l) (hl : l ≠ []) :
    (values l).length ≤ 1 ∧ (active c.style Style.allowLongDisguise = false →
      tokens l = [tok] ∨ (tokens l = [] ∧ ∃ f, c.additional = some f ∧ (f tok).1 ≠ [])) := by
  obtain ⟨p, hp, hpt⟩ := lookahead_mem _ c.tokParsers_tok _ _ h hl
  unfold tokParsers at hp
  simp only [List.mem_append] at hp
  rcases hp with (((hp | hp) | hp) | hp) | hp
  · split at hp
    · rename_i f hf
      simp at hp; subst hp
      rw [parseAdditional] at hpt
      by_cases hn : (f tok).1 = []
      · simp only [if_pos hn] at hpt; cases hpt
      · simp only [if_neg hn] at hpt
        cases hpt
        refine ⟨?_, fun _ => .inr ⟨rfl, f, hf, hn⟩⟩
        by_cases h0 : (f tok).2 = [] <;> simp [h0]
    · simp at hp
  · split at hp
    · simp at hp; subst hp
      rcases c.parseLong_spec _ _ _ _ hpt with rfl | ⟨name, v, ht, hn, hv, rfl⟩ | ⟨name, ht, hn, h0, rfl⟩
      · exact absurd rfl hl
      · simp
      · simp
    · simp at hp
  · split at hp
    · rename_i hs
      refine ⟨?_, fun h => by rw [h] at hs; cases hs⟩
      simp at hp; subst hp
      rw [parseDisguised] at hpt
      split at hpt
      · cases hlk : c.lookup (disguisedName tok) with
        | error f => rw [hlk] at hpt; cases hpt
        | ok d =>
          rw [hlk] at hpt
          cases d with
          | none => cases hpt
          | some d =>
            simp only at hpt
            cases hpl : c.parseLong [undisguise tok] with
            | error f => rw [hpl] at hpt; cases hpt
            | ok q =>
              rw [hpl] at hpt
              cases hpt
              rcases c.parseLong_spec _ _ _ _ hpl with rfl | ⟨name, v, ht, hn, hv, rfl⟩ | ⟨name, ht, hn, h0, rfl⟩
              · exact absurd rfl hl
              · simp
              · simp
      · cases hpt
    · simp at hp
  · split at hp
    · simp at hp; subst hp
      rw [parseShort] at hpt
      split at hpt
      · cases hsl : c.shortLoop tok (substr tok 0 2) (tok.drop 2) with
        | error f => rw [hsl] at hpt; cases hpt
        | ok l =>
          rw [hsl] at hpt
          cases hpt
          have := c.shortLoop_tokens _ _ _ _ hsl
          exact ⟨this.2, fun _ => .inl this.1⟩
      · cases hpt
    · simp at hp
  · split at hp
    · simp at hp; subst hp
      rw [parseDos] at hpt
      split at hpt
      · cases hpt
        refine ⟨?_, fun _ => .inl (by simp)⟩
        by_cases h0 : tok.drop 2 = [] <;> simp [h0]
      · cases hpt
    · simp at hp

theorem Finished.collect {c : Cmdline} {o o' : Opt} {taken : List Str} (h : Finished c o o' taken) :
    o'.value = o.value ++ taken ∧ o'.originalTokens = o.originalTokens ++ taken := by
  cases h <;> simp

theorem AllFinished.collect {c : Cmdline} {os os' : List Opt} {taken : List Str} (h : AllFinished c os os' taken) :
    values os' = values os ++ taken ∧ tokens os' = tokens os ++ taken := by
  induction h with
  | one h => have := h.collect; simp [this.1, this.2]
  | cons h t ih => have := h.collect; simp [this.1, this.2, ih.1, ih.2]

theorem values_after (rest : List Str) : values (rest.map afterDashes) = rest := by
  induction rest with
  | nil => rfl
  | cons a rest ih => simp [ih]; rfl

theorem tokens_after (rest : List Str) : tokens (rest.map afterDashes) = rest := by
  induction rest with
  | nil => rfl
  | cons a rest ih => simp [ih]; rfl

/-- There are no more values than tokens. -/
theorem Pass.values_length {c : Cmdline} {args : List Str} {os : List Opt} (h : Pass c args os) : (values os).length ≤ args.length := by
  induction h with
  | nil => simp
  | plain hf hd t ih => simp [Cmdline.plain]; omega
  | dashes hf => rw [values_after]; simp
  | @option tok rest l os rest' more hf hl h t ih =>
    obtain ⟨taken, e, hall⟩ := c.finishAll_finished _ _ _ _ _ hl h
    have h1 := (c.front_tokens tok l hf hl).1
    rw [values_append, hall.collect.1, e]
    simp only [List.length_append, List.length_cons]
    omega

/-- The tokens recorded by the first pass. -/
theorem Pass.tokens {c : Cmdline} {args : List Str} {os : List Opt} (h : Pass c args os)
    (hd : active c.style Style.allowLongDisguise = false) (ha : ∀ f, c.additional = some f → ∀ tok ∈ args, (f tok).1 = []) :
    tokens os = args ∨ ∃ pre post os1, args = pre ++ ['-', '-'] :: post ∧ os = os1 ++ post.map afterDashes ∧ Cmdline.tokens os1 = pre := by
  induction h with
  | nil => exact .inl rfl
  | plain hf hd t ih =>
    rcases ih (fun f hf tok ht => ha f hf tok (by simp [ht])) with h | ⟨pre, post, os1, rfl, rfl, h⟩
    · exact .inl (by simp [h, Cmdline.plain])
    · exact .inr ⟨_ :: pre, post, _ :: os1, rfl, rfl, by simp [h, Cmdline.plain]⟩
  | @dashes rest hf => exact .inr ⟨[], rest, [], rfl, rfl, rfl⟩
  | @option tok rest l os rest' more hf hl h t ih =>
    obtain ⟨taken, e, hall⟩ := c.finishAll_finished _ _ _ _ _ hl h
    have h1 : Cmdline.tokens l = [tok] := by
      rcases (c.front_tokens tok l hf hl).2 hd with h | ⟨_, f, hf', hn⟩
      · exact h
      · exact absurd (ha f hf' tok (by simp)) hn
    subst e
    rcases ih (fun f hf tok ht => ha f hf tok (by simp [ht])) with h | ⟨pre, post, os1, rfl, rfl, h⟩
    · exact .inl (by simp [hall.collect.2, h1, h])
    · exact .inr ⟨tok :: (taken ++ pre), post, os ++ os1, by simp, by simp, by simp [hall.collect.2, h1, h]⟩

/-- With an additional parser its tokens are not recorded. -/
theorem Pass.tokens_sublist {c : Cmdline} {args : List Str} {os : List Opt} (h : Pass c args os)
    (hd : active c.style Style.allowLongDisguise = false) : (Cmdline.tokens os).Sublist args := by
  induction h with
  | nil => exact List.Sublist.slnil
  | plain hf hd t ih => simp [Cmdline.plain, ih]
  | @dashes rest hf => rw [tokens_after]; exact List.sublist_cons_self _ _
  | @option tok rest l os rest' more hf hl h t ih =>
    obtain ⟨taken, e, hall⟩ := c.finishAll_finished _ _ _ _ _ hl h
    subst e
    rw [tokens_append, hall.collect.2]
    have h1 : (Cmdline.tokens l).Sublist [tok] := by
      rcases (c.front_tokens tok l hf hl).2 hd with h | ⟨h, _⟩
      · rw [h]; exact List.Sublist.refl _
      · rw [h]; exact List.nil_sublist _
    rw [List.append_assoc]
    exact h1.append ((List.Sublist.refl taken).append ih)

theorem Regrouped.collect {c : Cmdline} {os os' : List Opt} (h : Regrouped c os os') :
    values os' = values os ∧ tokens os' = tokens os := by
  induction h with
  | nil => exact ⟨rfl, rfl⟩
  | keep t ih => simp [ih.1, ih.2]
  | merge d hk hl hm hv hp hn t ih => simpa [with_, values, tokens] using ih

theorem number_collect (name : Nat → Str) (n : Nat) (os : List Opt) :
    values (number name n os) = values os ∧ tokens (number name n os) = tokens os := by
  induction os generalizing n with
  | nil => exact ⟨rfl, rfl⟩
  | cons o os ih =>
    rw [number]
    by_cases h : o.stringKey = []
    · rw [if_pos h]; simp [ih]
    · rw [if_neg h]; simp [ih]

theorem setCase_collect (c : Cmdline) (os : List Opt) : values (os.map c.setCase) = values os ∧ tokens (os.map c.setCase) = tokens os := by
  induction os with
  | nil => exact ⟨rfl, rfl⟩
  | cons o os ih => simp [setCase_value, setCase_originalTokens, ih.1, ih.2]

theorem mem_values_length (os : List Opt) (o : Opt) (h : o ∈ os) : o.value.length ≤ (values os).length := by
  induction os with
  | nil => cases h
  | cons q os ih =>
    rcases List.mem_cons.1 h with rfl | h
    · simp
    · have := ih h; simp; omega

/-- A parse of a longer command line, given that of a prefix. -/
theorem loop_append (c : Cmdline) (hs : c.styleParser = none) (pre s : List Str) (os : List Opt) (h : Pass c pre os) (hd : ['-', '-'] ∉ pre)
    (fuel : Nat) (hfu : (pre ++ s).length ≤ fuel) :
    c.loop fuel (pre ++ s) = match c.loop fuel s with
      | .error f => .error f
      | .ok more => .ok (os ++ more) := by
  have hc : ∀ p, c.styleParser = some p → ∀ args os rest, p args = .ok (os, rest) → rest.length ≤ args.length := by
    intro p hp; rw [hs] at hp; cases hp
  induction h generalizing fuel with
  | nil =>
    simp only [List.nil_append]
    cases c.loop fuel s <;> rfl
  | @plain tok rest os hf hd' t ih =>
    cases fuel with
    | zero => simp at hfu
    | succ fuel =>
      simp only [List.cons_append, List.length_cons, List.length_append] at hfu
      rw [List.cons_append, loop, c.step_eq hs, hf]
      simp only [if_neg hd']
      rw [ih (by simp at hd; exact hd.2) fuel (by simp; omega), c.loop_fuel hc fuel s (by omega), c.loop_fuel hc (fuel + 1) s (by omega)]
      cases c.loop s.length s <;> rfl
  | dashes hf => simp at hd
  | @option tok rest l os rest' more hf hl h t ih =>
    cases fuel with
    | zero => simp at hfu
    | succ fuel =>
      simp only [List.cons_append, List.length_cons, List.length_append] at hfu
      rw [List.cons_append, loop, c.step_eq hs, hf]
      cases l with
      | nil => exact absurd rfl hl
      | cons o l =>
        simp only
        rw [c.finishAll_append _ _ _ s _ _ h]
        simp only
        have hlen := c.finishAll_length _ _ _ _ _ h
        obtain ⟨taken, e, _⟩ := c.finishAll_finished _ _ _ _ _ hl h
        rw [ih (by intro hm; apply hd; rw [e]; simp [hm]) fuel (by simp; omega), c.loop_fuel hc fuel s (by omega),
          c.loop_fuel hc (fuel + 1) s (by omega)]
        cases c.loop s.length s with
        | error f => rfl
        | ok r => simp

end Cmdline
end PO
