import Verif.Lemmas.Cmdline
import Verif.Lemmas.Str
import Verif.Spec.Cmdline
/-
What the built-in style parsers recognise.
-/
namespace PO
namespace Cmdline
open Spec

theorem parseLong_eq (c : Cmdline) (name v : Str) (rest : List Str) (h : '=' ∉ name) (hv : v ≠ []) :
    c.parseLong (('-' :: '-' :: name ++ '=' :: v) :: rest) =
      .ok ([{ stringKey := name, value := [v], originalTokens := ['-' :: '-' :: name ++ '=' :: v] }], rest) := by
  rw [parseLong, if_pos (by simp; omega)]
  have hf : findChar ('-' :: '-' :: name ++ '=' :: v) '=' = some (name.length + 2) := by
    rw [findChar_append (a := '-' :: '-' :: name) (by simp [h])]
    simp
  rw [hf]
  simp only
  have hd : List.drop (name.length + 2 + 1) ('-' :: '-' :: name ++ '=' :: v) = v := by
    simp
  rw [hd, if_neg hv]
  simp [substr]

theorem parseLong_name (c : Cmdline) (name : Str) (rest : List Str) (h : '=' ∉ name) (h0 : name ≠ []) :
    c.parseLong (('-' :: '-' :: name) :: rest) =
      .ok ([{ stringKey := name, originalTokens := ['-' :: '-' :: name] }], rest) := by
  have hl : name.length ≠ 0 := by simp [h0]
  rw [parseLong, if_pos (by simp; omega), findChar_eq_none.2 (by simp [h])]
  simp

theorem parseLong_other (c : Cmdline) (tok : Str) (rest : List Str) (h : tok = ['-', '-'] ∨ ¬ ['-', '-'] <+: tok) :
    c.parseLong (tok :: rest) = .ok ([], tok :: rest) := by
  rw [parseLong, if_neg]
  rintro ⟨h1, h2, h3⟩
  cases tok with
  | nil => simp at h1
  | cons a tok =>
    cases tok with
    | nil => simp at h3
    | cons b tok =>
      simp at h2 h3
      subst h2 h3
      rcases h with h | h
      · simp at h; simp [h] at h1
      · simp at h

/-- A token starting with two dashes is `--`, `--name`, `--name=` or `--name=value`. -/
theorem long_cases (s : Str) : '=' ∉ s ∨ (∃ name, s = name ++ ['='] ∧ '=' ∉ name) ∨
    ∃ name v, s = name ++ '=' :: v ∧ '=' ∉ name ∧ v ≠ [] := by
  cases h : findChar s '=' with
  | none => exact .inl (findChar_eq_none.1 h)
  | some n =>
    obtain ⟨a, b, e, ha, _⟩ := findChar_eq_some.1 h
    cases b with
    | nil => exact .inr (.inl ⟨a, e, ha⟩)
    | cons x b => exact .inr (.inr ⟨a, x :: b, e, ha, by simp⟩)

theorem parseLong_empty (c : Cmdline) (name : Str) (rest : List Str) (h : '=' ∉ name) :
    c.parseLong (('-' :: '-' :: name ++ ['=']) :: rest) =
      .error (errSyntax .emptyAdjacentParameter name name c.canonicalPrefix) := by
  rw [parseLong, if_pos (by simp)]
  rw [findChar_append (a := '-' :: '-' :: name) (by simp [h])]
  simp [substr]

/-- What `parse_long_option` recognises. -/
theorem parseLong_spec (c : Cmdline) (tok : Str) (rest : List Str) (os : List Opt) (rest' : List Str)
    (h : c.parseLong (tok :: rest) = .ok (os, rest')) :
    os = [] ∨
    (∃ name v, tok = '-' :: '-' :: name ++ '=' :: v ∧ '=' ∉ name ∧ v ≠ [] ∧
      os = [{ stringKey := name, value := [v], originalTokens := [tok] }]) ∨
    ∃ name, tok = '-' :: '-' :: name ∧ '=' ∉ name ∧ name ≠ [] ∧ os = [{ stringKey := name, originalTokens := [tok] }] := by
  by_cases hp : ['-', '-'] <+: tok
  · obtain ⟨s, rfl⟩ := hp
    simp only [List.cons_append, List.nil_append] at *
    rcases long_cases s with hs | ⟨name, rfl, hn⟩ | ⟨name, v, rfl, hn, hv⟩
    · by_cases h0 : s = []
      · subst h0
        rw [c.parseLong_other _ _ (.inl rfl)] at h
        cases h; exact .inl rfl
      · rw [c.parseLong_name _ _ hs h0] at h
        cases h; exact .inr (.inr ⟨s, rfl, hs, h0, rfl⟩)
    · rw [← List.cons_append, ← List.cons_append, c.parseLong_empty _ _ hn] at h; cases h
    · rw [← List.cons_append, ← List.cons_append, c.parseLong_eq _ _ _ hn hv] at h
      cases h; exact .inr (.inl ⟨name, v, rfl, hn, hv, rfl⟩)
  · rw [c.parseLong_other _ _ (.inr hp)] at h
    cases h; exact .inl rfl

/-- What the loop over a short option group returns. -/
theorem shortLoop_spec (c : Cmdline) (tok : Str) (name adj : Str) (os : List Opt) (h : c.shortLoop tok name adj = .ok os) :
    ∀ pre a, name = ['-', a] → tok = '-' :: pre ++ a :: adj → (pre ≠ [] → Enabled c Style.allowSticky) →
    ∀ o ∈ os, (∃ pre a post, o = { stringKey := ['-', a] } ∧ tok = '-' :: pre ++ a :: post ∧ Enabled c Style.allowSticky ∧ post ≠ []) ∨
      (∃ pre a, o = { stringKey := ['-', a], originalTokens := [tok] } ∧ tok = '-' :: pre ++ [a] ∧ (pre ≠ [] → Enabled c Style.allowSticky)) ∨
      (∃ pre a v, o = { stringKey := ['-', a], originalTokens := [tok], value := [v] } ∧ tok = '-' :: pre ++ a :: v ∧
        (pre ≠ [] → Enabled c Style.allowSticky) ∧ v ≠ []) := by
  induction adj generalizing name os with
  | nil =>
    intro pre a hname htok hst o ho
    rw [shortLoop] at h
    cases hf : c.findShort name with
    | error f => rw [hf] at h; cases h
    | ok d =>
      rw [hf] at h
      cases h
      simp at ho
      exact .inr (.inl ⟨pre, a, by rw [ho, hname], htok, hst⟩)
  | cons b adj ih =>
    intro pre a hname htok hst o ho
    rw [shortLoop] at h
    cases hf : c.findShort name with
    | error f => rw [hf] at h; cases h
    | ok d =>
      rw [hf] at h
      simp only at h
      by_cases ht : c.takesNoValue d = true
      · rw [if_pos ht] at h
        have hsticky : Enabled c Style.allowSticky := by
          unfold takesNoValue at ht
          split at ht
          · simp at ht; exact ht.1
          · simp at ht
        cases hs : c.shortLoop tok ['-', b] adj with
        | error f => rw [hs] at h; cases h
        | ok os' =>
          rw [hs] at h
          cases h
          rcases List.mem_cons.1 ho with rfl | ho
          · exact .inl ⟨pre, a, b :: adj, by rw [hname], htok, hsticky, by simp⟩
          · exact ih _ _ hs (pre ++ [a]) b rfl (by simp [htok]) (fun _ => hsticky) o ho
      · rw [if_neg ht] at h
        cases h
        simp at ho
        exact .inr (.inr ⟨pre, a, b :: adj, by rw [ho, hname], htok, hst, by simp⟩)

theorem lookahead_mem (ps : List StyleParser) (hps : ∀ p ∈ ps, TokParser p) (tok : Str) (os : List Opt)
    (h : lookahead ps [tok] = .ok os) (ho : os ≠ []) : ∃ p ∈ ps, p [tok] = .ok (os, []) := by
  induction ps with
  | nil => cases h; exact absurd rfl ho
  | cons p ps ih =>
    obtain ⟨g, hg⟩ := hps p (by simp)
    rw [lookahead_cons_tok hg] at h
    cases hgt : g tok with
    | error f => rw [hgt] at h; cases h
    | ok l =>
      rw [hgt] at h
      cases l with
      | nil =>
        obtain ⟨q, hq, hqt⟩ := ih (fun q hq => hps q (by simp [hq])) h
        exact ⟨q, by simp [hq], hqt⟩
      | cons o l =>
        refine ⟨p, by simp, ?_⟩
        rw [hg, hgt]
        cases h
        rfl

/-- What the style parsers recognise. -/
theorem front_written (c : Cmdline) (tok : Str) (os : List Opt) (h : c.front tok = .ok os) (o : Opt) (ho : o ∈ os) :
    Written c tok o.stringKey o.value o.originalTokens ∧
      o = { stringKey := o.stringKey, value := o.value, originalTokens := o.originalTokens } := by
  obtain ⟨p, hp, hpt⟩ := lookahead_mem _ c.tokParsers_tok _ _ h (by intro h0; simp [h0] at ho)
  unfold tokParsers at hp
  simp only [List.mem_append] at hp
  rcases hp with (((hp | hp) | hp) | hp) | hp
  · split at hp
    · rename_i f hf
      simp at hp; subst hp
      rw [parseAdditional] at hpt
      by_cases hn : (f tok).1 = []
      · simp only [if_pos hn] at hpt; cases hpt
      · simp only [if_neg hn] at hpt
        cases hpt
        simp at ho
        subst ho
        exact ⟨.additional f hf hn, rfl⟩
    · simp at hp
  · split at hp
    · rename_i hs
      simp at hp; subst hp
      rcases c.parseLong_spec _ _ _ _ hpt with rfl | ⟨name, v, ht, hn, hv, rfl⟩ | ⟨name, ht, hn, h0, rfl⟩
      · simp at ho
      · simp at ho; subst ho; exact ⟨.longEq name v hs ht hn hv, rfl⟩
      · simp at ho; subst ho; exact ⟨.long name hs ht hn h0, rfl⟩
    · simp at hp
  · split at hp
    · rename_i hs
      simp at hp; subst hp
      rw [parseDisguised] at hpt
      split at hpt
      · rename_i hc
        have hu : ∃ lead r, (lead = '-' ∨ lead = '/') ∧ tok = lead :: r ∧ undisguise tok = '-' :: '-' :: r := by
          cases tok with
          | nil => simp at hc
          | cons a r =>
            have ha : a = '-' ∨ a = '/' := by
              rcases hc.2 with h | h
              · exact .inl (by simpa using h.1)
              · exact .inr (by simpa using h.2)
            refine ⟨a, r, ha, rfl, ?_⟩
            rcases ha with rfl | rfl <;> simp [undisguise]
        obtain ⟨lead, r, hlead, rfl, hund⟩ := hu
        rw [hund] at hpt
        cases hl : c.lookup (disguisedName (lead :: r)) with
        | error f => rw [hl] at hpt; cases hpt
        | ok d =>
          rw [hl] at hpt
          cases d with
          | none => cases hpt
          | some d =>
            simp only at hpt
            cases hpl : c.parseLong ['-' :: '-' :: r] with
            | error f => rw [hpl] at hpt; cases hpt
            | ok q =>
              rw [hpl] at hpt
              cases hpt
              rcases c.parseLong_spec _ _ _ _ hpl with rfl | ⟨name, v, ht, hn, hv, rfl⟩ | ⟨name, ht, hn, h0, rfl⟩
              · simp at ho
              · simp at ho; subst ho
                simp at ht
                refine ⟨?_, rfl⟩
                have := Written.disguisedEq (c := c) (tok := lead :: r) lead name v hs hlead (by simp [ht]) hn hv
                simpa [ht] using this
              · simp at ho; subst ho
                simp at ht
                refine ⟨?_, rfl⟩
                have := Written.disguised (c := c) (tok := lead :: r) lead name hs hlead (by simp [ht]) hn h0
                simpa [ht] using this
      · cases hpt
    · simp at hp
  · split at hp
    · rename_i hs
      simp at hp; subst hp
      have hs' : Enabled c Style.allowShort ∧ Enabled c Style.allowDashForShort := by simpa [Enabled] using hs
      rw [parseShort] at hpt
      split at hpt
      · rename_i hc
        cases hsl : c.shortLoop tok (substr tok 0 2) (tok.drop 2) with
        | error f => rw [hsl] at hpt; cases hpt
        | ok l =>
          rw [hsl] at hpt
          cases hpt
          have : ∃ a adj, tok = '-' :: a :: adj := by
            cases tok with
            | nil => simp at hc
            | cons x tok =>
              cases tok with
              | nil => simp at hc
              | cons y tok => simp at hc; exact ⟨y, tok, by simp [hc.1]⟩
          obtain ⟨a, adj, rfl⟩ := this
          rcases c.shortLoop_spec _ _ _ _ hsl [] a (by simp [substr]) (by simp) (by simp) o ho with
            ⟨pre, b, post, rfl, ht, hst, hp⟩ | ⟨pre, b, rfl, ht, hst⟩ | ⟨pre, b, v, rfl, ht, hst, hv⟩
          · exact ⟨.grouped pre b post hs' hst ht hp, rfl⟩
          · exact ⟨.short pre b hs' ht hst, rfl⟩
          · exact ⟨.shortEq pre b v hs' ht hst hv, rfl⟩
      · cases hpt
    · simp at hp
  · split at hp
    · rename_i hs
      simp at hp; subst hp
      have hs' : Enabled c Style.allowShort ∧ Enabled c Style.allowSlashForShort := by simpa [Enabled] using hs
      rw [parseDos] at hpt
      split at hpt
      · rename_i hc
        have : ∃ a adj, tok = '/' :: a :: adj := by
          cases tok with
          | nil => simp at hc
          | cons x tok =>
            cases tok with
            | nil => simp at hc
            | cons y tok => simp at hc; exact ⟨y, tok, by simp [hc]⟩
        obtain ⟨a, adj, rfl⟩ := this
        cases hpt
        simp only [List.mem_singleton] at ho
        subst ho
        cases adj with
        | nil => exact ⟨by simpa [substr] using Written.slash a hs' rfl, by simp [substr]⟩
        | cons x adj => exact ⟨by simpa [substr] using Written.slashEq a (x :: adj) hs' rfl (by simp), by simp [substr]⟩
      · cases hpt
    · simp at hp

/-- What is recognised has at most one value, which is the only token-consuming one. -/
theorem Written.value_length {c : Cmdline} {tok name : Str} {value tokens : List Str} (h : Written c tok name value tokens) :
    value.length ≤ 1 := by
  cases h
  · split <;> simp
  all_goals simp

/-- An option with an empty name has one value and one token (`--=value`). -/
theorem Written.empty {c : Cmdline} {tok : Str} {value tokens : List Str} (h : Written c tok [] value tokens) :
    ∃ v t, value = [v] ∧ tokens = [t] ∧ v ≠ [] ∧ t = '-' :: '-' :: '=' :: v := by
  generalize hn : ([] : Str) = name at h
  cases h
  case additional f hf h => exact absurd hn.symm h
  case longEq v hs hv ht hname => subst hn; exact ⟨v, _, rfl, rfl, by assumption, by assumption⟩
  case long => exact absurd hn.symm (by assumption)
  case disguisedEq v hs hv hl hname ht => subst hn; exact ⟨_, _, rfl, rfl, by assumption, rfl⟩
  case disguised => exact absurd hn.symm (by assumption)
  all_goals cases hn

theorem shortLoop_key (c : Cmdline) (tok name adj : Str) (os : List Opt) (hn : name ≠ []) (h : c.shortLoop tok name adj = .ok os) :
    ∀ o ∈ os, o.stringKey ≠ [] := by
  induction adj generalizing name os with
  | nil =>
    rw [shortLoop] at h
    cases hf : c.findShort name with
    | error f => rw [hf] at h; cases h
    | ok d => rw [hf] at h; cases h; simpa using hn
  | cons b adj ih =>
    rw [shortLoop] at h
    cases hf : c.findShort name with
    | error f => rw [hf] at h; cases h
    | ok d =>
      rw [hf] at h
      simp only at h
      by_cases ht : c.takesNoValue d = true
      · rw [if_pos ht] at h
        cases hs : c.shortLoop tok ['-', b] adj with
        | error f => rw [hs] at h; cases h
        | ok os' =>
          rw [hs] at h
          cases h
          simpa [hn] using ih _ _ (by simp) hs
      · rw [if_neg ht] at h
        cases h
        simpa using hn

/-- A nameless option is the only one of its token. -/
theorem front_nameless (c : Cmdline) (tok : Str) (l : List Opt) (h : c.front tok = .ok l) (o : Opt) (ho : o ∈ l) (hk : o.stringKey = []) :
    l = [o] := by
  obtain ⟨p, hp, hpt⟩ := lookahead_mem _ c.tokParsers_tok _ _ h (by intro h0; simp [h0] at ho)
  have hlong : ∀ t rest rest', c.parseLong (t :: rest) = .ok (l, rest') → l = [o] := by
    intro t rest rest' h
    rcases c.parseLong_spec _ _ _ _ h with rfl | ⟨name, v, ht, hn, hv, rfl⟩ | ⟨name, ht, hn, h0, rfl⟩
    · simp at ho
    · simp at ho; rw [ho]
    · simp at ho; rw [ho]
  unfold tokParsers at hp
  simp only [List.mem_append] at hp
  rcases hp with (((hp | hp) | hp) | hp) | hp
  · split at hp
    · simp at hp; subst hp
      rw [parseAdditional] at hpt
      split at hpt
      · cases hpt
      · cases hpt; rw [List.mem_singleton] at ho; rw [ho]
    · simp at hp
  · split at hp
    · simp at hp; subst hp; exact hlong _ _ _ hpt
    · simp at hp
  · split at hp
    · simp at hp; subst hp
      rw [parseDisguised] at hpt
      split at hpt
      · cases hlk : c.lookup (disguisedName tok) with
        | error f => rw [hlk] at hpt; cases hpt
        | ok d =>
          rw [hlk] at hpt
          cases d with
          | none => cases hpt
          | some d =>
            simp only at hpt
            cases hpl : c.parseLong [undisguise tok] with
            | error f => rw [hpl] at hpt; cases hpt
            | ok q => rw [hpl] at hpt; cases hpt; exact hlong _ _ _ hpl
      · cases hpt
    · simp at hp
  · split at hp
    · simp at hp; subst hp
      rw [parseShort] at hpt
      split at hpt
      · rename_i hc
        cases hsl : c.shortLoop tok (substr tok 0 2) (tok.drop 2) with
        | error f => rw [hsl] at hpt; cases hpt
        | ok l' =>
          rw [hsl] at hpt
          cases hpt
          refine absurd hk (c.shortLoop_key _ _ _ _ ?_ hsl o ho)
          intro h0
          have := congrArg List.length h0
          simp [substr] at this
          rw [this] at hc
          simp at hc
      · cases hpt
    · simp at hp
  · split at hp
    · simp at hp; subst hp
      rw [parseDos] at hpt
      split at hpt
      · cases hpt; rw [List.mem_singleton] at ho; rw [ho]
      · cases hpt
    · simp at hp

end Cmdline
end PO
