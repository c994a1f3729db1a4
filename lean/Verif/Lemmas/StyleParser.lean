import Verif.Spec.StyleParser
import Verif.Props.Tokens
/-
C142: the passes of the command line parser with a style parser of the program.
-/
namespace PO
namespace Cmdline
open Spec

/-- One round, from the built-in parsers on. -/
theorem tryParsers_tok (c : Cmdline) (all : List StyleParser) (tok : Str) (rest : List Str) (ps : List StyleParser) (hps : ∀ p ∈ ps, TokParser p) :
    c.tryParsers all (ps ++ [parseTerminator]) (tok :: rest) =
      match lookahead ps [tok] with
      | .error f => .error f
      | .ok [] => if tok = ['-', '-'] then .ok (rest.map afterDashes, []) else .ok ([plain tok], rest)
      | .ok (o :: os) => c.finishAll all (o :: os) rest := by
  induction ps with
  | nil =>
    rw [List.nil_append, tryParsers, parseTerminator]
    by_cases ht : tok = ['-', '-']
    · rw [if_pos ht]
      simp only
      have := c.finishAll_positional all rest [] afterDashes (fun _ => rfl)
      rw [show (rest.map fun a => ({ value := [a], originalTokens := [a], positionKey := intMax } : Opt)) = rest.map afterDashes from rfl, this]
      simp [lookahead, ht]
    · rw [if_neg ht]
      simp only [finishAll, ne_eq, not_true_eq_false, if_false, tryParsers, lookahead, if_neg ht, List.nil_append]
      rfl
  | cons p ps ih =>
    obtain ⟨g, hg⟩ := hps p (by simp)
    have ih' := ih fun q hq => hps q (by simp [hq])
    rw [List.cons_append, tryParsers, lookahead_cons_tok hg, hg]
    cases hgt : g tok with
    | error f => rfl
    | ok os =>
      cases os with
      | nil =>
        simp only [finishAll, ne_eq, not_true_eq_false, if_false]
        rw [ih']
        generalize (match lookahead ps [tok] with
          | .error f => Except.error f
          | .ok [] => if tok = ['-', '-'] then .ok (rest.map afterDashes, []) else .ok ([plain tok], rest)
          | .ok (o :: os) => c.finishAll all (o :: os) rest) = r
        cases r with
        | error f => rfl
        | ok r => rfl
      | cons o os =>
        simp only
        cases hfa : c.finishAll all (o :: os) rest with
        | error f => rfl
        | ok r =>
          obtain ⟨os', args'⟩ := r
          have := c.finishAll_length _ _ _ _ _ hfa
          simp only
          rw [if_pos (by simp; omega)]

theorem parsers_own (c : Cmdline) (p : StyleParser) (h : c.styleParser = some p) : c.parsers = p :: (c.tokParsers ++ [parseTerminator]) := by
  unfold parsers tokParsers
  rw [h]
  simp only [List.append_assoc]
  rfl

/-- One round with a style parser that returns nothing. -/
theorem step_idle (c : Cmdline) (p : StyleParser) (h : c.styleParser = some p) (tok : Str) (rest : List Str) (hp : p (tok :: rest) = .ok ([], tok :: rest)) :
    c.step (tok :: rest) =
      match c.front tok with
      | .error f => .error f
      | .ok [] => if tok = ['-', '-'] then .ok (rest.map afterDashes, []) else .ok ([plain tok], rest)
      | .ok (o :: os) => c.finishAll c.parsers (o :: os) rest := by
  have := c.tryParsers_tok c.parsers tok rest _ c.tokParsers_tok
  unfold step
  generalize hall : c.parsers = all at this ⊢
  have e := c.parsers_own p h
  rw [hall] at e
  conv => lhs; rw [show c.tryParsers all all = c.tryParsers all (p :: (c.tokParsers ++ [parseTerminator])) by rw [← e]]
  rw [tryParsers, hp]
  simp only [finishAll, ne_eq, not_true_eq_false, if_false, List.nil_append]
  rw [this]
  unfold front
  generalize (match lookahead c.tokParsers [tok] with
    | .error f => Except.error f
    | .ok [] => if tok = ['-', '-'] then .ok (rest.map afterDashes, []) else .ok ([plain tok], rest)
    | .ok (o :: os) => c.finishAll all (o :: os) rest) = r
  cases r <;> rfl

/-- One round with a style parser that returns options and takes tokens. -/
theorem step_own (c : Cmdline) (p : StyleParser) (h : c.styleParser = some p) (args : List Str) (l : List Opt) (args1 : List Str)
    (hp : p args = .ok (l, args1)) (hl : args1.length < args.length) : c.step args = c.finishAll c.parsers l args1 := by
  unfold step
  generalize hall : c.parsers = all
  have e := c.parsers_own p h
  rw [hall] at e
  conv => lhs; rw [show c.tryParsers all all = c.tryParsers all (p :: (c.tokParsers ++ [parseTerminator])) by rw [← e]]
  rw [tryParsers, hp]
  dsimp only
  cases hf : c.finishAll all l args1 with
  | error f => rfl
  | ok r =>
    obtain ⟨os, args2⟩ := r
    have := c.finishAll_length _ _ _ _ _ hf
    dsimp only
    rw [if_pos (by omega)]

/-- The first pass, with a style parser. -/
inductive PassBy (c : Cmdline) (p : StyleParser) : List Str → List Opt → Prop
  | nil : PassBy c p [] []
  | plain {tok rest os} (hp : p (tok :: rest) = .ok ([], tok :: rest)) (hf : c.front tok = .ok []) (hd : tok ≠ ['-', '-']) (t : PassBy c p rest os) :
      PassBy c p (tok :: rest) (plain tok :: os)
  | dashes {rest} (hp : p (['-', '-'] :: rest) = .ok ([], ['-', '-'] :: rest)) (hf : c.front ['-', '-'] = .ok []) :
      PassBy c p (['-', '-'] :: rest) (rest.map afterDashes)
  | option {tok rest l os rest' more} (hp : p (tok :: rest) = .ok ([], tok :: rest)) (hf : c.front tok = .ok l) (hl : l ≠ [])
      (h : c.finishAll c.parsers l rest = .ok (os, rest')) (t : PassBy c p rest' more) : PassBy c p (tok :: rest) (os ++ more)
  | own {args l args1 os rest' more} (hp : p args = .ok (l, args1)) (hl : l ≠ []) (h : c.finishAll c.parsers l args1 = .ok (os, rest'))
      (t : PassBy c p rest' more) : PassBy c p args (os ++ more)

theorem loop_passBy (c : Cmdline) (p : StyleParser) (hs : c.styleParser = some p) (ho : Orderly p) (fuel : Nat) (args : List Str) (os : List Opt)
    (h : c.loop fuel args = .ok os) : PassBy c p args os := by
  induction fuel generalizing args os with
  | zero =>
    cases args with
    | nil => rw [loop] at h; cases h; exact .nil
    | cons a args => rw [loop] at h; cases h
  | succ fuel ih =>
    cases args with
    | nil => rw [loop] at h; cases h; exact .nil
    | cons tok rest =>
      rw [loop] at h
      cases hp : p (tok :: rest) with
      | error f =>
        exfalso
        unfold step at h
        generalize hall : c.parsers = all at h
        have e := c.parsers_own p hs
        rw [hall] at e
        have e2 : c.tryParsers all all (tok :: rest) = .error f := by
          rw [show c.tryParsers all all = c.tryParsers all (p :: (c.tokParsers ++ [parseTerminator])) by rw [← e], tryParsers, hp]
        rw [e2] at h
        cases h
      | ok r =>
        obtain ⟨l, args1⟩ := r
        cases l with
        | nil =>
          cases ho.idle _ _ hp
          rw [c.step_idle p hs tok rest hp] at h
          cases hf : c.front tok with
          | error f => rw [hf] at h; cases h
          | ok l =>
            rw [hf] at h
            cases l with
            | nil =>
              simp only at h
              by_cases hd : tok = ['-', '-']
              · rw [if_pos hd] at h
                simp only [loop] at h
                cases h
                subst hd
                simpa using PassBy.dashes hp hf
              · rw [if_neg hd] at h
                simp only at h
                cases hl : c.loop fuel rest with
                | error f => rw [hl] at h; cases h
                | ok more =>
                  rw [hl] at h
                  cases h
                  exact .plain hp hf hd (ih _ _ hl)
            | cons o l =>
              simp only at h
              cases hfin : c.finishAll c.parsers (o :: l) rest with
              | error f => rw [hfin] at h; cases h
              | ok r =>
                obtain ⟨os1, rest'⟩ := r
                rw [hfin] at h
                simp only at h
                cases hl : c.loop fuel rest' with
                | error f => rw [hl] at h; cases h
                | ok more =>
                  rw [hl] at h
                  cases h
                  exact .option hp hf (by simp) hfin (ih _ _ hl)
        | cons o l =>
          rw [c.step_own p hs _ _ _ hp (by obtain ⟨tk, h0, e⟩ := ho.takes _ _ _ hp (by simp); rw [e]; cases tk with | nil => exact absurd rfl h0 | cons => simp; omega)] at h
          cases hfin : c.finishAll c.parsers (o :: l) args1 with
          | error f => rw [hfin] at h; cases h
          | ok r =>
            obtain ⟨os1, rest'⟩ := r
            rw [hfin] at h
            simp only at h
            cases hl : c.loop fuel rest' with
            | error f => rw [hl] at h; cases h
            | ok more =>
              rw [hl] at h
              cases h
              exact .own hp (by simp) hfin (ih _ _ hl)

/-- The two parts of the first pass. -/
theorem PassBy.split {c : Cmdline} {p : StyleParser} (ho : Orderly p) (hrec : Records p) {args : List Str} {os : List Opt} (h : PassBy c p args os)
    (hd : active c.style Style.allowLongDisguise = false) (ha : ∀ f, c.additional = some f → ∀ tok ∈ args, (f tok).1 = []) :
    ∃ pre post os1, (args = pre ∧ post = [] ∨ args = pre ++ ['-', '-'] :: post) ∧ os = os1 ++ post.map afterDashes ∧
      Cmdline.tokens os1 = pre ∧ ∀ o ∈ os1, o.positionKey = -1 := by
  induction h with
  | nil => exact ⟨[], [], [], by simp⟩
  | @plain tok rest os hp hf hd t ih =>
    obtain ⟨pre, post, os1, h1, rfl, h2, h3⟩ := ih (fun f hf tok ht => ha f hf tok (by simp [ht]))
    refine ⟨tok :: pre, post, Cmdline.plain tok :: os1, ?_, rfl, by simp [h2, Cmdline.plain], ?_⟩
    · rcases h1 with ⟨rfl, rfl⟩ | rfl <;> simp
    · intro o ho
      rcases List.mem_cons.1 ho with rfl | ho
      · rfl
      · exact h3 o ho
  | @dashes rest hp hf => exact ⟨[], rest, [], .inr rfl, rfl, rfl, by simp⟩
  | @option tok rest l os rest' more hp hf hl h t ih =>
    obtain ⟨taken, e, hall⟩ := c.finishAll_finished _ _ _ _ _ hl h
    have h1 : Cmdline.tokens l = [tok] := by
      rcases (c.front_tokens tok l hf hl).2 hd with h | ⟨_, f, hf', hn⟩
      · exact h
      · exact absurd (ha f hf' tok (by simp)) hn
    subst e
    obtain ⟨pre, post, os1, h2, rfl, h3, h4⟩ := ih (fun f hf tok ht => ha f hf tok (by simp [ht]))
    refine ⟨tok :: (taken ++ pre), post, os ++ os1, ?_, by simp, by simp [hall.collect.2, h1, h3], ?_⟩
    · rcases h2 with ⟨rfl, rfl⟩ | rfl <;> simp
    · intro o ho
      rcases List.mem_append.1 ho with ho | ho
      · exact hall.position (c.front_position tok l hf) o ho
      · exact h4 o ho
  | @own args l args1 os rest' more hp hl h t ih =>
    obtain ⟨taken, e, hall⟩ := c.finishAll_finished _ _ _ _ _ hl h
    have h1 : Cmdline.tokens l ++ args1 = args := hrec _ _ _ hp
    subst e
    subst h1
    obtain ⟨pre, post, os1, h2, rfl, h3, h4⟩ := ih (fun f hf tok ht => ha f hf tok (by simp [ht]))
    refine ⟨Cmdline.tokens l ++ (taken ++ pre), post, os ++ os1, ?_, by simp, by simp [hall.collect.2, h3], ?_⟩
    · rcases h2 with ⟨rfl, rfl⟩ | rfl <;> simp
    · intro o hm
      rcases List.mem_append.1 hm with hm | hm
      · exact hall.position (fun o hm => (ho.fresh _ _ _ hp o hm).1) o hm
      · exact h4 o hm

theorem AllFinished.mem {c : Cmdline} {os os' : List Opt} {taken : List Str} (h : AllFinished c os os' taken) :
    ∀ o' ∈ os', ∃ o ∈ os, ∃ taken, Finished c o o' taken := by
  induction h with
  | one h =>
    intro o' ho'
    cases List.mem_singleton.1 ho'
    exact ⟨_, by simp, _, h⟩
  | cons h t ih =>
    intro o' ho'
    rcases List.mem_cons.1 ho' with rfl | ho'
    · exact ⟨_, by simp, _, h⟩
    · obtain ⟨o, h1, h2⟩ := ih _ ho'
      exact ⟨o, by simp [h1], h2⟩

/-- The options the first pass makes. -/
inductive MadeBy (c : Cmdline) (p : StyleParser) (args : List Str) (o : Opt) : Prop
  | built (h : Made c args o)
  | own (o0 : Opt) (taken : List Str) (hr : ReturnedFor p args o0) (hf : Finished c o0 o taken)

theorem MadeBy.mono {c : Cmdline} {p : StyleParser} {args : List Str} {o : Opt} (pre : List Str) (h : MadeBy c p args o) : MadeBy c p (pre ++ args) o := by
  cases h with
  | built h => exact .built (h.mono fun t ht => by simp [ht])
  | own o0 taken hr hf =>
    obtain ⟨a, b, os, rest, rfl, h1, h2⟩ := hr
    exact .own o0 taken ⟨pre ++ a, b, os, rest, by simp, h1, h2⟩ hf

theorem PassBy.made {c : Cmdline} {p : StyleParser} (ho : Orderly p) {args : List Str} {os : List Opt} (h : PassBy c p args os) :
    ∀ o ∈ os, MadeBy c p args o := by
  induction h with
  | nil => simp
  | @plain tok rest os hp hf hd t ih =>
    intro o ho
    rcases List.mem_cons.1 ho with rfl | ho
    · exact .built (.plain _ (by simp) hf hd)
    · exact (ih o ho).mono [tok]
  | dashes hp hf =>
    intro o ho
    obtain ⟨t, ht, rfl⟩ := List.mem_map.1 ho
    exact .built (.after t (by simp [ht]))
  | @option tok rest l os rest' more hp hf hl h t ih =>
    intro o ho
    obtain ⟨taken, e, hall⟩ := c.finishAll_finished _ _ _ _ _ hl h
    rcases List.mem_append.1 ho with ho | ho
    · exact .built (hall.made (by simp) hf (fun o h => h) o ho)
    · rw [e, ← List.cons_append]; exact (ih o ho).mono _
  | @own args l args1 os rest' more hp hl h t ih =>
    intro o hm
    obtain ⟨taken, e, hall⟩ := c.finishAll_finished _ _ _ _ _ hl h
    rcases List.mem_append.1 hm with hm | hm
    · obtain ⟨o0, h0, tk, hf⟩ := hall.mem o hm
      exact .own o0 tk ⟨[], args, l, args1, rfl, hp, h0⟩ hf
    · obtain ⟨tk, _, h1⟩ := ho.takes _ _ _ hp hl
      rw [h1, e, ← List.append_assoc]; exact (ih o hm).mono _

theorem Finished.position {c : Cmdline} {o o' : Opt} {taken : List Str} (h : Finished c o o' taken) : o'.positionKey = o.positionKey := by
  cases h <;> rfl

theorem ReturnedFor.fresh {p : StyleParser} (ho : Orderly p) {args : List Str} {o : Opt} (h : ReturnedFor p args o) :
    o.positionKey = -1 ∧ o.unregistered = false := by
  obtain ⟨_, _, _, _, _, h1, h2⟩ := h
  exact ho.fresh _ _ _ h1 _ h2

theorem MadeBy.position {c : Cmdline} {p : StyleParser} (ho : Orderly p) {args : List Str} {o : Opt} (h : MadeBy c p args o) (hk : o.stringKey ≠ []) :
    o.positionKey = -1 := by
  cases h with
  | built h => exact h.position hk
  | own o0 taken hr hf => rw [hf.position]; exact (ReturnedFor.fresh ho hr).1

/-- The passes of a successful parse. -/
theorem run_passesBy (c : Cmdline) (p : StyleParser) (hs : c.styleParser = some p) (ho : Orderly p) (args : List Str) (res : List Opt)
    (h : c.run args = .ok res) :
    ∃ os r2 name, PassBy c p args os ∧ Regrouped c os r2 ∧ c.regroup 0 os = .ok r2 ∧ res = (number name 0 r2).map c.setCase ∧
      (∀ o ∈ r2, o.stringKey ≠ [] → o.positionKey = -1) := by
  unfold run runFuel at h
  cases hl : c.loop (args.length + 1) args with
  | error f => rw [hl] at h; cases h
  | ok os =>
    rw [hl] at h
    have hp := c.loop_passBy p hs ho _ _ _ hl
    dsimp only at h
    obtain ⟨r2, hr⟩ := c.finalize_regroup _ _ h
    have hrg := c.regroup_regrouped _ _ hr
    have hw : ∀ o ∈ r2, o.stringKey ≠ [] → o.positionKey = -1 := by
      intro o hm hk
      obtain ⟨o1, ho1, ps, _, rfl, _⟩ := hrg.mem o hm
      exact (hp.made ho o1 ho1).position ho hk
    rw [c.finalize_eq _ _ hr hw] at h
    cases hpos : c.positional with
    | none =>
      rw [hpos] at h
      cases h
      exact ⟨os, r2, _, hp, hrg, hr, rfl, hw⟩
    | some q =>
      rw [hpos] at h
      simp only at h
      by_cases ht : tooMany q (unnamed r2).length = true
      · rw [if_pos ht] at h; cases h
      · rw [if_neg ht] at h
        cases h
        exact ⟨os, r2, _, hp, hrg, hr, rfl, hw⟩

/-- An option of a successful parse that is not positional. -/
theorem run_optionBy (c : Cmdline) (p : StyleParser) (hs : c.styleParser = some p) (hor : Orderly p) (args : List Str) (res : List Opt)
    (h : c.run args = .ok res) (o : Opt) (ho : o ∈ res) (hpos : o.positionKey = -1) :
    ∃ o1 ps, MadeBy c p args o1 ∧ (∀ q ∈ ps, Loose q) ∧ o1.stringKey ≠ [] ∧ o = c.setCase (with_ o1 ps) ∧
      (ps = [] ∨ ∃ d, c.lookup o1.stringKey = .ok (some d) ∧ d.semantic.minTokens < d.semantic.maxTokens ∧
        o1.value.length < d.semantic.maxTokens ∧
        (d.semantic.maxTokens - o1.value.length < 2147483648 → ps.length ≤ d.semantic.maxTokens - o1.value.length)) := by
  obtain ⟨os, r2, name, hp, hrg, _, rfl, hw⟩ := c.run_passesBy p hs hor args res h
  obtain ⟨o2, ho2, rfl⟩ := List.mem_map.1 ho
  rcases number_mem _ _ _ _ ho2 with ⟨ho2, hk⟩ | ⟨q, hq, i, hk, rfl⟩
  · obtain ⟨o1, ho1, ps, hps, rfl, hm⟩ := hrg.mem o2 ho2
    refine ⟨o1, ps, hp.made hor o1 ho1, fun q hq => (hps q hq).2, hk, rfl, ?_⟩
    rcases hm with hm | ⟨d, _, hl, hm⟩
    · exact .inl hm
    · exact .inr ⟨d, hl, hm⟩
  · rw [setCase_positionKey] at hpos
    simp only at hpos
    omega

end Cmdline
end PO
