import Verif.Lemmas.CmdlineFront
import Verif.Lemmas.CmdlineEnd
/-
The passes of the command line parser as relations.
-/
namespace PO
namespace Cmdline
open Spec

/-! ### Finishing options -/

/-- What `finish_option` makes of an option, taking `taken` from the following tokens. -/
inductive Finished (c : Cmdline) (opt : Opt) : Opt → List Str → Prop
  | unnamed (h : opt.stringKey = []) : Finished c opt opt []
  | unknown (h : opt.stringKey ≠ []) (hl : c.lookup opt.stringKey = .ok none) (hu : c.allowUnregistered = true) :
      Finished c opt { opt with unregistered := true } []
  | known (d : OptionDesc) (taken : List Str) (h : opt.stringKey ≠ []) (hl : c.lookup opt.stringKey = .ok (some d))
      (ht : taken.length = d.semantic.minTokens - opt.value.length) (hx : ¬ (opt.value ≠ [] ∧ d.semantic.maxTokens = 0)) :
      Finished c opt { opt with stringKey := d.key opt.stringKey
                                value := opt.value ++ taken, originalTokens := opt.originalTokens ++ taken } taken

theorem finishOption_finished (c : Cmdline) (ps : List StyleParser) (opt : Opt) (other : List Str) (o' : Opt) (rest : List Str)
    (h : c.finishOption ps opt other = .ok (o', rest)) : ∃ taken, other = taken ++ rest ∧ Finished c opt o' taken := by
  rcases c.finishOption_spec _ _ _ _ _ h with ⟨hk, rfl, rfl⟩ | ⟨hk, hl, hu, rfl, rfl⟩ | ⟨d, taken, hk, hl, rfl, ht, hx, rfl⟩
  · exact ⟨[], rfl, .unnamed hk⟩
  · exact ⟨[], rfl, .unknown hk hl hu⟩
  · exact ⟨taken, rfl, .known d taken hk hl ht hx⟩

/-- Finishing a group of options: only the last one takes following tokens. -/
inductive AllFinished (c : Cmdline) : List Opt → List Opt → List Str → Prop
  | one {o o' taken} (h : Finished c o o' taken) : AllFinished c [o] [o'] taken
  | cons {o o' os os' taken} (h : Finished c o o' []) (t : AllFinished c os os' taken) : AllFinished c (o :: os) (o' :: os') taken

theorem finishAll_finished (c : Cmdline) (ps : List StyleParser) (os : List Opt) (args : List Str) (os' : List Opt) (args' : List Str)
    (hne : os ≠ []) (h : c.finishAll ps os args = .ok (os', args')) : ∃ taken, args = taken ++ args' ∧ AllFinished c os os' taken := by
  induction os generalizing os' with
  | nil => exact absurd rfl hne
  | cons o os ih =>
    cases os with
    | nil =>
      rw [finishAll] at h
      cases hf : c.finishOption ps o args with
      | error f => rw [hf] at h; cases h
      | ok r =>
        obtain ⟨o1, a1⟩ := r
        rw [hf] at h
        cases h
        obtain ⟨taken, e, hfin⟩ := c.finishOption_finished _ _ _ _ _ hf
        exact ⟨taken, e, .one hfin⟩
    | cons o2 os =>
      rw [finishAll.eq_3 _ _ _ _ _ (by simp)] at h
      cases hf : c.finishOption ps o [] with
      | error f => rw [hf] at h; cases h
      | ok r =>
        obtain ⟨o1, a1⟩ := r
        rw [hf] at h
        simp only at h
        cases hg : c.finishAll ps (o2 :: os) args with
        | error f => rw [hg] at h; cases h
        | ok r =>
          obtain ⟨os1, a2⟩ := r
          rw [hg] at h
          cases h
          obtain ⟨t1, e1, hfin⟩ := c.finishOption_finished _ _ _ _ _ hf
          obtain ⟨taken, e, hall⟩ := ih _ (by simp) hg
          have : t1 = [] := by
            cases t1 with
            | nil => rfl
            | cons a t => simp at e1
          subst this
          exact ⟨taken, e, .cons hfin hall⟩

theorem grab_append (c : Cmdline) (ps : List StyleParser) (n : Nat) (other s : List Str) (opt : Opt) (orig : Str) (o' : Opt) (rest : List Str)
    (hn : n ≤ other.length) (h : c.grab ps n other opt orig = .ok (o', rest)) :
    c.grab ps n (other ++ s) opt orig = .ok (o', rest ++ s) := by
  induction n generalizing other opt orig with
  | zero => rw [grab] at h ⊢; cases h; rfl
  | succ n ih =>
    cases other with
    | nil => simp at hn
    | cons t ts =>
      simp only [List.length_cons] at hn
      rw [List.cons_append]
      rw [grab] at h ⊢
      cases hl : lookahead ps [t] with
      | error f => rw [hl] at h; cases h
      | ok os =>
        rw [hl] at h
        cases os with
        | nil => exact ih _ _ _ (by omega) h
        | cons q os =>
          simp only at h ⊢
          cases hk : c.lookup t with
          | error f => rw [hk] at h; cases h
          | ok d =>
            rw [hk] at h
            cases d with
            | some d => cases h
            | none => exact ih _ _ _ (by omega) h

/-- Further tokens do not change an option that could be finished without them. -/
theorem finishOption_append (c : Cmdline) (ps : List StyleParser) (opt : Opt) (other s : List Str) (o' : Opt) (rest : List Str)
    (h : c.finishOption ps opt other = .ok (o', rest)) : c.finishOption ps opt (other ++ s) = .ok (o', rest ++ s) := by
  unfold finishOption at h ⊢
  by_cases hk : opt.stringKey = []
  · rw [if_pos hk] at h ⊢; cases h; rfl
  · rw [if_neg hk] at h ⊢
    simp only at h ⊢
    cases hl : c.lookup opt.stringKey with
    | error f => rw [hl] at h; cases h
    | ok d =>
      rw [hl] at h
      cases d with
      | none =>
        simp only at h ⊢
        by_cases hu : c.allowUnregistered = true
        · rw [if_pos hu] at h ⊢; cases h; rfl
        · rw [if_neg hu] at h; cases h
      | some d =>
        simp only at h ⊢
        by_cases hm : opt.value.length + other.length ≥ d.semantic.minTokens
        · rw [if_pos hm] at h
          rw [if_pos (by simp; omega)]
          by_cases hx : opt.value ≠ [] ∧ d.semantic.maxTokens = 0
          · rw [if_pos hx] at h; cases h
          · rw [if_neg hx] at h ⊢
            exact c.grab_append _ _ _ _ _ _ _ _ (by omega) h
        · rw [if_neg hm] at h; cases h

theorem finishAll_append (c : Cmdline) (ps : List StyleParser) (os : List Opt) (args s : List Str) (os' : List Opt) (args' : List Str)
    (h : c.finishAll ps os args = .ok (os', args')) : c.finishAll ps os (args ++ s) = .ok (os', args' ++ s) := by
  induction os generalizing os' with
  | nil => rw [finishAll] at h ⊢; cases h; rfl
  | cons o os ih =>
    cases os with
    | nil =>
      rw [finishAll] at h ⊢
      cases hf : c.finishOption ps o args with
      | error f => rw [hf] at h; cases h
      | ok r =>
        obtain ⟨o1, a1⟩ := r
        rw [hf] at h
        cases h
        rw [c.finishOption_append _ _ _ _ _ _ hf]
    | cons o2 os =>
      rw [finishAll.eq_3 _ _ _ _ _ (by simp)] at h ⊢
      cases hf : c.finishOption ps o [] with
      | error f => rw [hf] at h; cases h
      | ok r =>
        obtain ⟨o1, a1⟩ := r
        rw [hf] at h
        simp only at h ⊢
        cases hg : c.finishAll ps (o2 :: os) args with
        | error f => rw [hg] at h; cases h
        | ok r =>
          obtain ⟨os1, a2⟩ := r
          rw [hg] at h
          cases h
          rw [ih _ hg]

/-! ### The first pass -/

/-- The first pass over `args` gives `os`. -/
inductive Pass (c : Cmdline) : List Str → List Opt → Prop
  | nil : Pass c [] []
  | plain {tok rest os} (hf : c.front tok = .ok []) (hd : tok ≠ ['-', '-']) (t : Pass c rest os) : Pass c (tok :: rest) (plain tok :: os)
  | dashes {rest} (hf : c.front ['-', '-'] = .ok []) : Pass c (['-', '-'] :: rest) (rest.map afterDashes)
  | option {tok rest l os rest' more} (hf : c.front tok = .ok l) (hl : l ≠ []) (h : c.finishAll c.parsers l rest = .ok (os, rest'))
      (t : Pass c rest' more) : Pass c (tok :: rest) (os ++ more)

theorem loop_pass (c : Cmdline) (hs : c.styleParser = none) (fuel : Nat) (args : List Str) (os : List Opt)
    (h : c.loop fuel args = .ok os) : Pass c args os := by
  induction fuel generalizing args os with
  | zero =>
    cases args with
    | nil => rw [loop] at h; cases h; exact .nil
    | cons a args => rw [loop] at h; cases h
  | succ fuel ih =>
    cases args with
    | nil => rw [loop] at h; cases h; exact .nil
    | cons tok rest =>
      rw [loop, c.step_eq hs] at h
      cases hf : c.front tok with
      | error f => rw [hf] at h; cases h
      | ok l =>
        rw [hf] at h
        cases l with
        | nil =>
          simp only at h
          by_cases hd : tok = ['-', '-']
          · rw [if_pos hd] at h
            simp only [loop] at h
            cases h
            subst hd
            simpa using Pass.dashes hf
          · rw [if_neg hd] at h
            simp only at h
            cases hl : c.loop fuel rest with
            | error f => rw [hl] at h; cases h
            | ok more =>
              rw [hl] at h
              cases h
              exact .plain hf hd (ih _ _ hl)
        | cons o l =>
          simp only at h
          cases hfin : c.finishAll c.parsers (o :: l) rest with
          | error f => rw [hfin] at h; cases h
          | ok r =>
            obtain ⟨os1, rest'⟩ := r
            rw [hfin] at h
            simp only at h
            cases hl : c.loop fuel rest' with
            | error f => rw [hl] at h; cases h
            | ok more =>
              rw [hl] at h
              cases h
              exact .option hf (by simp) hfin (ih _ _ hl)

theorem pass_loop (c : Cmdline) (hs : c.styleParser = none) (args : List Str) (os : List Opt) (h : Pass c args os)
    (fuel : Nat) (hfu : args.length ≤ fuel) : c.loop fuel args = .ok os := by
  induction h generalizing fuel with
  | nil => cases fuel <;> rw [loop]
  | plain hf hd t ih =>
    cases fuel with
    | zero => simp at hfu
    | succ fuel =>
      rw [loop, c.step_eq hs, hf]
      simp only [if_neg hd]
      rw [ih fuel (by simpa using hfu)]
      rfl
  | dashes hf =>
    cases fuel with
    | zero => simp at hfu
    | succ fuel =>
      rw [loop, c.step_eq hs, hf]
      simp [loop]
  | @option tok rest l os rest' more hf hl h t ih =>
    cases fuel with
    | zero => simp at hfu
    | succ fuel =>
      rw [loop, c.step_eq hs, hf]
      cases l with
      | nil => exact absurd rfl hl
      | cons o l =>
        simp only [h]
        have := c.finishAll_length _ _ _ _ _ h
        rw [ih fuel (by simp at hfu; omega)]

/-- A command line that parses can be followed by anything. -/
theorem Pass.append {c : Cmdline} {a b : List Str} {os os' : List Opt} (ha : Pass c a os) (hd : ['-', '-'] ∉ a) (hb : Pass c b os') :
    Pass c (a ++ b) (os ++ os') := by
  induction ha with
  | nil => exact hb
  | plain hf hd' t ih => exact .plain hf hd' (ih (by simp at hd; exact hd.2))
  | dashes hf => simp at hd
  | @option tok rest l os rest' more hf hl h t ih =>
    rw [List.cons_append, List.append_assoc]
    refine .option hf hl (c.finishAll_append _ _ _ b _ _ h) (ih ?_)
    obtain ⟨taken, e, _⟩ := c.finishAll_finished _ _ _ _ _ hl h
    intro hm
    apply hd
    rw [e]
    simp [hm]

/-- A successful parse begins with a successful first pass. -/
theorem run_pass (c : Cmdline) (hs : c.styleParser = none) (args : List Str) (res : List Opt) :
    c.run args = .ok res ↔ ∃ os, Pass c args os ∧ c.finalize os = .ok res := by
  unfold run runFuel
  constructor
  · intro h
    cases hl : c.loop (args.length + 1) args with
    | error f => rw [hl] at h; cases h
    | ok os => rw [hl] at h; exact ⟨os, c.loop_pass hs _ _ _ hl, h⟩
  · rintro ⟨os, hp, hf⟩
    rw [c.pass_loop hs _ _ hp _ (by omega)]
    exact hf

/-! ### The second pass -/

/-- Can be absorbed by a preceding option. -/
def Loose (o : Opt) : Prop := o.stringKey = [] ∧ o.positionKey ≠ intMax ∧ o.value.length = 1 ∧ o.originalTokens.length = 1

/-- `o` with the values of `ps`. -/
def with_ (o : Opt) (ps : List Opt) : Opt :=
  { o with value := o.value ++ ps.flatMap (·.value), originalTokens := o.originalTokens ++ ps.flatMap (·.originalTokens) }

theorem with_nil (o : Opt) : with_ o [] = o := by simp [with_]

theorem absorb_spec (lim : Option Nat) (o : Opt) (ps : List Opt) (o' : Opt) (k : Nat) (h : absorb lim o ps = .ok (o', k)) :
    k ≤ ps.length ∧ o' = with_ o (ps.take k) ∧ (∀ p ∈ ps.take k, Loose p) ∧ (∀ n, lim = some n → k ≤ n) ∧
      (∀ p, (ps.drop k).head? = some p → p.stringKey = [] → p.positionKey ≠ intMax → lim = some k) := by
  induction ps generalizing lim o k o' with
  | nil => rw [absorb] at h; cases h; simp [with_]
  | cons p ps ih =>
    rw [absorb] at h
    split at h
    · rename_i hl; cases h; simp [with_, hl]
    · split at h
      · rename_i hk; cases h; simp [with_, hk]
      · rename_i hlim hk
        split at h
        · rename_i hpos; cases h; simp [with_, hpos]
        · rename_i hpos
          split at h
          · rename_i v hv
            split at h
            · rename_i t ht
              split at h
              · cases h
              · rename_i o1 k1 hr
                cases h
                obtain ⟨h1, h2, h3, h4, h5⟩ := ih _ _ _ _ hr
                refine ⟨by simp; omega, ?_, ?_, ?_, ?_⟩
                · rw [h2]; simp [with_, hv, ht]
                · intro q hq
                  simp only [List.take_succ_cons, List.mem_cons] at hq
                  rcases hq with rfl | hq
                  · exact ⟨by simpa using hk, hpos, by rw [hv]; rfl, by rw [ht]; rfl⟩
                  · exact h3 q hq
                · intro n hn
                  subst hn
                  have := h4 (n - 1) rfl
                  have : n ≠ 0 := by intro h0; exact hlim (by rw [h0])
                  omega
                · intro q hq e1 e2
                  simp only [List.drop_succ_cons] at hq
                  have := h5 q hq e1 e2
                  cases lim with
                  | none => simp at this
                  | some n =>
                    have h0 : n ≠ 0 := by intro h0; exact hlim (by rw [h0])
                    simp at this ⊢
                    omega
            · cases h
          · cases h

/-- The second pass. -/
inductive Regrouped (c : Cmdline) : List Opt → List Opt → Prop
  | nil : Regrouped c [] []
  | keep {o os os'} (t : Regrouped c os os') : Regrouped c (o :: os) (o :: os')
  | merge {o ps os os'} (d : OptionDesc) (hk : o.stringKey ≠ []) (hl : c.lookup o.stringKey = .ok (some d))
      (hm : d.semantic.minTokens < d.semantic.maxTokens) (hv : o.value.length < d.semantic.maxTokens)
      (hp : ∀ p ∈ ps, Loose p)
      (hn : d.semantic.maxTokens - o.value.length < 2147483648 → ps.length ≤ d.semantic.maxTokens - o.value.length)
      (t : Regrouped c os os') : Regrouped c (o :: (ps ++ os)) (with_ o ps :: os')

theorem regroup_drop (c : Cmdline) (k : Nat) (os : List Opt) : c.regroup k os = c.regroup 0 (os.drop k) := by
  induction os generalizing k with
  | nil => cases k <;> simp [regroup]
  | cons o os ih =>
    cases k with
    | zero => simp
    | succ k => rw [regroup, ih]; simp

theorem regroup_regrouped (c : Cmdline) (os os' : List Opt) (h : c.regroup 0 os = .ok os') : Regrouped c os os' := by
  suffices hs : ∀ n os os', os.length ≤ n → c.regroup 0 os = .ok os' → Regrouped c os os' from hs _ _ _ (Nat.le_refl _) h
  intro n
  induction n with
  | zero =>
    intro os os' hl h
    cases os with
    | nil => rw [regroup] at h; cases h; exact .nil
    | cons o os => simp at hl
  | succ n ih =>
    intro os os' hl h
    cases os with
    | nil => rw [regroup] at h; cases h; exact .nil
    | cons o os =>
      simp only [List.length_cons] at hl
      have hkeep : (match c.regroup 0 os with
          | .error f => Except.error f
          | .ok os => .ok (o :: os)) = .ok os' → Regrouped c (o :: os) os' := by
        intro h
        split at h
        · cases h
        · rename_i hr; cases h; exact .keep (ih _ _ (by omega) hr)
      rw [regroup] at h
      simp only at h
      split at h
      · exact hkeep h
      · rename_i hk
        split at h
        · split at h <;> cases h
        · cases h
        · exact hkeep h
        · rename_i d hd
          split at h
          · rename_i hm
            split at h
            · cases h
            · rename_i o' k ha
              obtain ⟨h1, h2, h3, h4, h5⟩ := absorb_spec _ _ _ _ _ ha
              rw [regroup_drop] at h
              split at h
              · cases h
              · rename_i os1 hr
                cases h
                have := ih (os.drop k) os1 (by simp; omega) hr
                rw [← List.take_append_drop k os, h2]
                refine .merge d hk hd hm.1 hm.2 h3 ?_ this
                intro hlt
                unfold takeLimit at h4
                rw [if_pos hlt] at h4
                have := h4 _ rfl
                simp; omega
          · exact hkeep h

end Cmdline
end PO
