import Verif.Lemmas.CmdlineTokens
import Verif.Lemmas.CmdlineAlike
/-
The command line before and after the terminator.
-/
namespace PO
namespace Cmdline
open Spec

theorem absorb_append (lim : Option Nat) (o : Opt) (ps as : List Opt) (ha : ∀ a ∈ as, a.stringKey ≠ [] ∨ a.positionKey = intMax) :
    absorb lim o (ps ++ as) = absorb lim o ps := by
  induction ps generalizing lim o with
  | nil =>
    rw [List.nil_append, absorb]
    cases as with
    | nil => rw [absorb]
    | cons a as =>
      rw [absorb]
      split
      · rfl
      · split
        · rfl
        · rename_i hk
          rw [if_pos]
          exact (ha a (by simp)).resolve_left hk
  | cons p ps ih =>
    rw [List.cons_append, absorb, absorb]
    simp only [ih]

theorem regroup_unnamed (c : Cmdline) (as : List Opt) (ha : ∀ a ∈ as, a.stringKey = []) : c.regroup 0 as = .ok as := by
  induction as with
  | nil => rw [regroup]
  | cons a as ih =>
    rw [regroup]
    simp only
    rw [if_pos (ha a (by simp)), ih fun b hb => ha b (by simp [hb])]

theorem regroup_append (c : Cmdline) (k : Nat) (os as : List Opt) (hk : k ≤ os.length) (ha : ∀ a ∈ as, a.stringKey = [] ∧ a.positionKey = intMax) :
    c.regroup k (os ++ as) = (c.regroup k os).map (· ++ as) := by
  induction os generalizing k with
  | nil =>
    simp only [List.length_nil, Nat.le_zero_eq] at hk
    subst hk
    rw [List.nil_append, c.regroup_unnamed as fun a h => (ha a h).1]
    simp [regroup, Except.map]
  | cons o os ih =>
    cases k with
    | succ k =>
      rw [List.cons_append, regroup, regroup]
      exact ih k (by simpa using hk)
    | zero =>
      have hc : ∀ (o' : Opt) k, k ≤ os.length → (match c.regroup k (os ++ as) with
          | .error f => Except.error f
          | .ok os => .ok (o' :: os)) = (match c.regroup k os with
          | .error f => Except.error f
          | .ok os => .ok (o' :: os)).map (· ++ as) := by
        intro o' k hk
        rw [ih k hk]
        cases c.regroup k os <;> rfl
      rw [List.cons_append, regroup, regroup]
      simp only
      by_cases hkey : o.stringKey = []
      · rw [if_pos hkey, if_pos hkey]
        exact hc o 0 (by simp)
      · rw [if_neg hkey, if_neg hkey]
        cases c.lookup o.stringKey with
        | error f =>
          cases f with
          | opt e => cases o.originalTokens <;> rfl
          | _ => rfl
        | ok d =>
          cases d with
          | none => exact hc o 0 (by simp)
          | some d =>
            simp only
            by_cases hm : d.semantic.minTokens < d.semantic.maxTokens ∧ o.value.length < d.semantic.maxTokens
            · rw [if_pos hm, if_pos hm, absorb_append _ _ _ _ fun a h => .inr (ha a h).2]
              cases hab : absorb (takeLimit d.semantic.maxTokens o.value.length) o os with
              | error f => rfl
              | ok r =>
                obtain ⟨o', k⟩ := r
                exact hc o' k (absorb_spec _ _ _ _ _ hab).1
            · rw [if_neg hm, if_neg hm]
              exact hc o 0 (by simp)

theorem number_append (name : Nat → Str) (n : Nat) (a b : List Opt) :
    number name n (a ++ b) = number name n a ++ number name (n + (unnamed a).length) b := by
  induction a generalizing n with
  | nil => simp [number, unnamed]
  | cons o a ih =>
    rw [List.cons_append, number, number]
    by_cases h : o.stringKey = []
    · rw [if_pos h, if_pos h, ih, unnamed_cons_nil h]
      simp only [List.length_cons, List.cons_append]
      congr 3
      omega
    · rw [if_neg h, if_neg h, ih, unnamed_cons_ne h]
      rfl

/-- The options recognised in a token carry no position. -/
theorem front_position (c : Cmdline) (tok : Str) (l : List Opt) (h : c.front tok = .ok l) : ∀ o ∈ l, o.positionKey = -1 := by
  intro o ho
  obtain ⟨_, he⟩ := c.front_written tok l h o ho
  rw [he]

theorem AllFinished.position {c : Cmdline} {os os' : List Opt} {taken : List Str} (h : AllFinished c os os' taken)
    (hp : ∀ o ∈ os, o.positionKey = -1) : ∀ o ∈ os', o.positionKey = -1 := by
  have h1 : ∀ o o' taken, Finished c o o' taken → o'.positionKey = o.positionKey := by
    intro o o' taken h
    cases h <;> rfl
  induction h with
  | one h => intro o ho; simp at ho; subst ho; rw [h1 _ _ _ h]; exact hp _ (by simp)
  | cons h t ih =>
    intro o ho
    rcases List.mem_cons.1 ho with rfl | ho
    · rw [h1 _ _ _ h]; exact hp _ (by simp)
    · exact ih (fun o ho => hp o (by simp [ho])) o ho

/-- The two parts of the first pass: before the terminator and after it. -/
theorem Pass.split {c : Cmdline} {args : List Str} {os : List Opt} (h : Pass c args os)
    (hd : active c.style Style.allowLongDisguise = false) (ha : ∀ f, c.additional = some f → ∀ tok ∈ args, (f tok).1 = []) :
    ∃ pre post os1, (args = pre ∧ post = [] ∨ args = pre ++ ['-', '-'] :: post) ∧ os = os1 ++ post.map afterDashes ∧
      Cmdline.tokens os1 = pre ∧ ∀ o ∈ os1, o.positionKey = -1 := by
  induction h with
  | nil => exact ⟨[], [], [], by simp⟩
  | @plain tok rest os hf hd t ih =>
    obtain ⟨pre, post, os1, h1, rfl, h2, h3⟩ := ih (fun f hf tok ht => ha f hf tok (by simp [ht]))
    refine ⟨tok :: pre, post, Cmdline.plain tok :: os1, ?_, rfl, by simp [h2, Cmdline.plain], ?_⟩
    · rcases h1 with ⟨rfl, rfl⟩ | rfl <;> simp
    · intro o ho
      rcases List.mem_cons.1 ho with rfl | ho
      · rfl
      · exact h3 o ho
  | @dashes rest hf => exact ⟨[], rest, [], .inr rfl, rfl, rfl, by simp⟩
  | @option tok rest l os rest' more hf hl h t ih =>
    obtain ⟨taken, e, hall⟩ := c.finishAll_finished _ _ _ _ _ hl h
    have h1 : Cmdline.tokens l = [tok] := by
      rcases (c.front_tokens tok l hf hl).2 hd with h | ⟨_, f, hf', hn⟩
      · exact h
      · exact absurd (ha f hf' tok (by simp)) hn
    subst e
    obtain ⟨pre, post, os1, h2, rfl, h3, h4⟩ := ih (fun f hf tok ht => ha f hf tok (by simp [ht]))
    refine ⟨tok :: (taken ++ pre), post, os ++ os1, ?_, by simp, by simp [hall.collect.2, h1, h3], ?_⟩
    · rcases h2 with ⟨rfl, rfl⟩ | rfl <;> simp
    · intro o ho
      rcases List.mem_append.1 ho with ho | ho
      · exact hall.position (c.front_position tok l hf) o ho
      · exact h4 o ho

/-- The terminator is not taken for an option, unless the additional parser does so. -/
theorem front_dashes (c : Cmdline) (ha : ∀ f, c.additional = some f → (f ['-', '-']).1 = []) : c.front ['-', '-'] = .ok [] := by
  suffices h : ∀ l, c.front ['-', '-'] = l → l = .ok [] from h _ rfl
  unfold front tokParsers
  intro l hl
  subst hl
  have step : ∀ (p : StyleParser) ps, p [['-', '-']] = .ok ([], [['-', '-']]) → lookahead (p :: ps) [['-', '-']] = lookahead ps [['-', '-']] := by
    intro p ps h
    rw [lookahead, h]
    rfl
  have hall : ∀ ps : List StyleParser, (∀ p ∈ ps, p [['-', '-']] = .ok ([], [['-', '-']])) → lookahead ps [['-', '-']] = .ok [] := by
    intro ps
    induction ps with
    | nil => intro _; rw [lookahead]
    | cons p ps ih =>
      intro h
      rw [step p ps (h p (by simp))]
      exact ih fun q hq => h q (by simp [hq])
  apply hall
  intro p hp
  simp only [List.mem_append] at hp
  rcases hp with (((hp | hp) | hp) | hp) | hp
  · split at hp
    · rename_i f hf
      simp at hp; subst hp
      rw [parseAdditional]
      simp only [if_pos (ha f hf)]
    · simp at hp
  · split at hp
    · simp at hp; subst hp; rfl
    · simp at hp
  · split at hp
    · simp at hp; subst hp
      rw [parseDisguised, if_neg]
      simp
    · simp at hp
  · split at hp
    · simp at hp; subst hp; rfl
    · simp at hp
  · split at hp
    · simp at hp; subst hp; rfl
    · simp at hp

/-- The result of a successful parse in two parts. -/
theorem run_split (c : Cmdline) (hs : c.styleParser = none) (args : List Str) (res : List Opt) (h : c.run args = .ok res)
    (hd : active c.style Style.allowLongDisguise = false) (ha : ∀ f, c.additional = some f → ∀ tok ∈ args, (f tok).1 = []) :
    ∃ pre post r1 name, (args = pre ∧ post = [] ∨ args = pre ++ ['-', '-'] :: post) ∧
      res = (number name 0 r1).map c.setCase ++ (number name (unnamed r1).length (post.map afterDashes)).map c.setCase ∧
      Cmdline.tokens r1 = pre ∧ (∀ o ∈ r1, ∃ o1 ps, Made c args o1 ∧ o1.positionKey = -1 ∧ o = with_ o1 ps ∧ (o1.stringKey = [] → ps = [])) := by
  obtain ⟨os, r2, name, hp, hrg, hr, rfl, hw, _⟩ := c.run_passes hs args res h
  obtain ⟨pre, post, os1, h1, rfl, h2, h3⟩ := hp.split hd ha
  rw [c.regroup_append 0 os1 _ (by simp) (by
    intro a ha
    obtain ⟨t, _, rfl⟩ := List.mem_map.1 ha
    exact ⟨rfl, rfl⟩)] at hr
  cases hr1 : c.regroup 0 os1 with
  | error f => rw [hr1] at hr; cases hr
  | ok r1 =>
    rw [hr1] at hr
    cases hr
    have hrg1 := c.regroup_regrouped _ _ hr1
    refine ⟨pre, post, r1, name, h1, ?_, ?_, ?_⟩
    · rw [number_append, List.map_append, Nat.zero_add]
    · rw [hrg1.collect.2, h2]
    · intro o ho
      obtain ⟨o1, ho1, ps, hps, he, hm⟩ := hrg1.mem o ho
      refine ⟨o1, ps, hp.made o1 (by simp [ho1]), h3 o1 ho1, he, ?_⟩
      intro hk
      rcases hm with hm | ⟨d, hk', _⟩
      · exact hm
      · exact absurd hk hk'

/-- Positional arguments are those with a position. -/
theorem number_positional (name : Nat → Str) (n : Nat) (os : List Opt) (hw : ∀ o ∈ os, o.stringKey ≠ [] → o.positionKey = -1) :
    (number name n os).filter (fun o => o.positionKey ≠ -1) =
      (unnamed os).mapIdx fun i o => { o with positionKey := ((n + i : Nat) : Int), stringKey := name (n + i) } := by
  induction os generalizing n with
  | nil => rfl
  | cons o os ih =>
    rw [number]
    by_cases h : o.stringKey = []
    · rw [if_pos h, unnamed_cons_nil h, List.mapIdx_cons, List.filter_cons_of_pos (by simp), ih (n + 1) fun o ho => hw o (by simp [ho])]
      congr 1
      congr 1
      funext i o
      have : n + 1 + i = n + (i + 1) := by omega
      rw [this]
    · rw [if_neg h, unnamed_cons_ne h, List.filter_cons_of_neg (by simp [hw o (by simp) h]), ih n fun o ho => hw o (by simp [ho])]

theorem number_after (name : Nat → Str) (n : Nat) (post : List Str) :
    number name n (post.map afterDashes) =
      post.mapIdx fun i t => { stringKey := name (n + i), positionKey := ((n + i : Nat) : Int), value := [t], originalTokens := [t] } := by
  induction post generalizing n with
  | nil => rfl
  | cons t post ih =>
    rw [List.map_cons, number, if_pos (show (afterDashes t).stringKey = [] from rfl), List.mapIdx_cons, ih]
    congr 1
    congr 1
    funext i o
    have : n + 1 + i = n + (i + 1) := by omega
    rw [this]

end Cmdline
end PO
