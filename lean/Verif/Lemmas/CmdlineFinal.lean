import Verif.Lemmas.CmdlinePass
import Verif.Lemmas.Lookup
/-
The last passes of the command line parser and the options of a successful parse.
-/
namespace PO
namespace Cmdline
open Spec

/-! ### Numbering and naming -/

/-- Unnamed options get their number and a name. -/
def number (name : Nat → Str) : Nat → List Opt → List Opt
  | _, [] => []
  | n, o :: os =>
    if o.stringKey = [] then { o with positionKey := n, stringKey := name n } :: number name (n + 1) os
    else o :: number name n os

/-- The unnamed options. -/
def unnamed (os : List Opt) : List Opt := os.filter (·.stringKey = [])

theorem unnamed_cons_nil {o : Opt} {os : List Opt} (h : o.stringKey = []) : unnamed (o :: os) = o :: unnamed os := by
  simp [unnamed, h]

theorem unnamed_cons_ne {o : Opt} {os : List Opt} (h : o.stringKey ≠ []) : unnamed (o :: os) = unnamed os := by
  simp [unnamed, h]

theorem assignPositions_number (n : Nat) (os : List Opt) : assignPositions n os = number (fun _ => []) n os := by
  induction os generalizing n with
  | nil => rfl
  | cons o os ih =>
    rw [assignPositions, number]
    by_cases h : o.stringKey = []
    · rw [if_pos h, if_pos h, ← ih, h]
      rfl
    · rw [if_neg h, if_neg h, ih]

/-- The name for a position, as given by the positional description. -/
def posName (p : Positional) (i : Nat) : Str :=
  match p.nameForPosition i with
  | .ok n => n
  | .error _ => []

theorem full_mono (p : Positional) {a b : Nat} (h : a ≤ b) (hf : p.full a = true) : p.full b = true := by
  unfold Positional.full at *
  cases hm : p.maxTotalCount with
  | none => rw [hm] at hf; simp at hf
  | some m => rw [hm] at hf; simp at hf ⊢; omega

theorem nameForPosition_ok (p : Positional) (i : Nat) (h : p.full i = false) : p.nameForPosition i = .ok (posName p i) := by
  have : ∃ nm, p.nameForPosition i = .ok nm := by
    unfold Positional.nameForPosition
    split
    · exact ⟨_, rfl⟩
    · rename_i hn
      by_cases ht : p.trailing = []
      · exfalso
        unfold Positional.full Positional.maxTotalCount at h
        rw [if_pos ht] at h
        simp at h hn
        omega
      · rw [if_neg ht]; exact ⟨_, rfl⟩
  obtain ⟨nm, h⟩ := this
  simp [posName, h]

theorem namePositional_number (p : Positional) (n : Nat) (os : List Opt) (hw : ∀ o ∈ os, o.stringKey ≠ [] → o.positionKey = -1) :
    namePositional p n (number (fun _ => []) n os) =
      if unnamed os ≠ [] ∧ p.full (n + (unnamed os).length - 1) = true then .error .tooManyPositional
      else .ok (number (posName p) n os) := by
  induction os generalizing n with
  | nil => simp [number, namePositional, unnamed]
  | cons o os ih =>
    rw [number, number]
    by_cases h : o.stringKey = []
    · rw [if_pos h, if_pos h, unnamed_cons_nil h, namePositional, if_pos (by simp only; omega)]
      by_cases hf : p.full n = true
      · rw [if_pos hf, if_pos]
        exact ⟨by simp, full_mono p (by simp) hf⟩
      · rw [if_neg hf, nameForPosition_ok p n (by simpa using hf)]
        simp only
        rw [ih (n + 1) fun o ho => hw o (by simp [ho])]
        have e : n + 1 + (unnamed os).length - 1 = n + (o :: unnamed os).length - 1 := by simp only [List.length_cons]; omega
        rw [e]
        by_cases h2 : p.full (n + (o :: unnamed os).length - 1) = true
        · rw [if_pos (show o :: unnamed os ≠ [] ∧ _ from ⟨by simp, h2⟩), if_pos]
          refine ⟨?_, h2⟩
          intro h0
          rw [h0] at h2
          exact hf (by simpa using h2)
        · rw [if_neg (fun h => h2 h.2), if_neg (fun h => h2 h.2)]
    · rw [if_neg h, if_neg h, unnamed_cons_ne h, namePositional, if_neg (by simp [hw o (by simp) h])]
      rw [ih n fun o ho => hw o (by simp [ho])]
      by_cases h2 : unnamed os ≠ [] ∧ p.full (n + (unnamed os).length - 1) = true
      · rw [if_pos h2, if_pos h2]
      · rw [if_neg h2, if_neg h2]

/-- More than the positional description allows. -/
def tooMany (p : Positional) (n : Nat) : Bool :=
  match p.maxTotalCount with
  | some m => decide (m < n)
  | none => false

theorem tooMany_iff (p : Positional) (n : Nat) : tooMany p n = true ↔ n ≠ 0 ∧ p.full (n - 1) = true := by
  unfold tooMany Positional.full
  cases p.maxTotalCount with
  | none => simp
  | some m => simp; omega

/-- Everything after the second pass. -/
theorem finalize_eq (c : Cmdline) (os r2 : List Opt) (h : c.regroup 0 os = .ok r2)
    (hw : ∀ o ∈ r2, o.stringKey ≠ [] → o.positionKey = -1) :
    c.finalize os =
      match c.positional with
      | none => .ok ((number (fun _ => []) 0 r2).map c.setCase)
      | some p =>
        if tooMany p (unnamed r2).length then .error .tooManyPositional else .ok ((number (posName p) 0 r2).map c.setCase) := by
  unfold finalize applyPositional
  rw [h]
  simp only
  have e : assignPositions 0 r2 = number (fun _ => []) 0 r2 := assignPositions_number 0 r2
  rw [e]
  cases hp : c.positional with
  | none => rfl
  | some p =>
    simp only
    rw [namePositional_number p 0 r2 hw]
    by_cases ht : tooMany p (unnamed r2).length = true
    · rw [if_pos ht, if_pos]
      have := (tooMany_iff _ _).1 ht
      exact ⟨by intro h0; simp [h0] at this, by simpa using this.2⟩
    · rw [if_neg ht, if_neg]
      rintro ⟨h0, hf⟩
      exact ht ((tooMany_iff _ _).2 ⟨by simpa using h0, by simpa using hf⟩)

theorem finalize_regroup (c : Cmdline) (os res : List Opt) (h : c.finalize os = .ok res) : ∃ r2, c.regroup 0 os = .ok r2 := by
  unfold finalize at h
  split at h
  · cases h
  · exact ⟨_, by assumption⟩

/-! ### The options after each pass -/

/-- The kinds of options made by the first pass, when there is no style parser. -/
inductive Made (c : Cmdline) (args : List Str) : Opt → Prop
  /-- a positional argument -/
  | plain (tok : Str) (ht : tok ∈ args) (hf : c.front tok = .ok []) (hd : tok ≠ ['-', '-']) : Made c args (plain tok)
  /-- an argument after the terminator -/
  | after (tok : Str) (ht : tok ∈ args) : Made c args (afterDashes tok)
  /-- `--=v` or the like, treated as positional argument -/
  | nameless (v : Str) (tok : Str) (ht : tok ∈ args) (hw : Written c tok [] [v] ['-' :: '-' :: '=' :: v])
      (hf : c.front tok = .ok [{ value := [v], originalTokens := ['-' :: '-' :: '=' :: v] }]) :
      Made c args { value := [v], originalTokens := ['-' :: '-' :: '=' :: v] }
  /-- an unknown option -/
  | unknown (tok name : Str) (value tokens : List Str) (ht : tok ∈ args) (hw : Written c tok name value tokens)
      (hn : name ≠ []) (hl : c.lookup name = .ok none) (hu : c.allowUnregistered = true) :
      Made c args { stringKey := name, value := value, originalTokens := tokens, unregistered := true }
  /-- a known option, with the values `taken` from the following tokens -/
  | known (tok name : Str) (value tokens : List Str) (d : OptionDesc) (taken : List Str) (ht : tok ∈ args)
      (hw : Written c tok name value tokens)
      (hn : name ≠ []) (hl : c.lookup name = .ok (some d)) (htk : taken.length = d.semantic.minTokens - value.length)
      (hx : ¬ (value ≠ [] ∧ d.semantic.maxTokens = 0)) :
      Made c args { stringKey := d.key name, value := value ++ taken, originalTokens := tokens ++ taken }

theorem Made.mono {c : Cmdline} {args args' : List Str} {o : Opt} (h : Made c args o) (hs : ∀ t ∈ args, t ∈ args') : Made c args' o := by
  cases h with
  | plain tok ht hf hd => exact .plain tok (hs _ ht) hf hd
  | after tok ht => exact .after tok (hs _ ht)
  | nameless v tok ht hw hf => exact .nameless v tok (hs _ ht) hw hf
  | unknown tok name value tokens ht hw hn hl hu => exact .unknown tok name value tokens (hs _ ht) hw hn hl hu
  | known tok name value tokens d taken ht hw hn hl htk hx => exact .known tok name value tokens d taken (hs _ ht) hw hn hl htk hx

theorem Finished.made {c : Cmdline} {args : List Str} {tok : Str} {l : List Opt} {o o' : Opt} {taken : List Str} (ht : tok ∈ args)
    (hf : c.front tok = .ok l) (ho : o ∈ l) (h : Finished c o o' taken) : Made c args o' := by
  obtain ⟨hw, he⟩ := c.front_written tok l hf o ho
  have hone := c.front_nameless tok l hf o ho
  generalize o.stringKey = key at hw he
  generalize o.value = value at hw he
  generalize o.originalTokens = tokens at hw he
  subst he
  cases h with
  | unnamed h =>
    simp only at h
    subst h
    obtain ⟨v, t, rfl, rfl, h0, ht'⟩ := Written.empty hw
    subst ht'
    exact .nameless v tok ht hw (hf.trans (by rw [hone rfl]))
  | unknown h hl hu => exact .unknown tok _ _ _ ht hw h hl hu
  | known d taken h hl htk hx => exact Made.known tok _ _ _ d taken ht hw h hl htk hx

theorem AllFinished.made {c : Cmdline} {args : List Str} {tok : Str} {l : List Opt} {os os' : List Opt} {taken : List Str} (ht : tok ∈ args)
    (hf : c.front tok = .ok l) (h : AllFinished c os os' taken) (ho : ∀ o ∈ os, o ∈ l) : ∀ o' ∈ os', Made c args o' := by
  induction h with
  | one h =>
    intro o' ho'
    simp at ho'
    subst ho'
    exact h.made ht hf (ho _ (by simp))
  | cons h t ih =>
    intro o' ho'
    rcases List.mem_cons.1 ho' with rfl | ho'
    · exact h.made ht hf (ho _ (by simp))
    · exact ih (fun o h => ho o (by simp [h])) _ ho'

theorem Pass.made {c : Cmdline} {args : List Str} {os : List Opt} (h : Pass c args os) : ∀ o ∈ os, Made c args o := by
  induction h with
  | nil => simp
  | plain hf hd t ih =>
    intro o ho
    rcases List.mem_cons.1 ho with rfl | ho
    · exact .plain _ (by simp) hf hd
    · exact (ih o ho).mono fun t ht => by simp [ht]
  | dashes hf =>
    intro o ho
    obtain ⟨t, ht, rfl⟩ := List.mem_map.1 ho
    exact .after t (by simp [ht])
  | @option tok rest l os rest' more hf hl h t ih =>
    intro o ho
    obtain ⟨taken, e, hall⟩ := c.finishAll_finished _ _ _ _ _ hl h
    rcases List.mem_append.1 ho with ho | ho
    · exact hall.made (by simp) hf (fun o h => h) o ho
    · exact (ih o ho).mono fun t ht => by simp [e, ht]

theorem flatMap_value_length (ps : List Opt) (h : ∀ p ∈ ps, Loose p) : (ps.flatMap (·.value)).length = ps.length := by
  induction ps with
  | nil => rfl
  | cons p ps ih =>
    simp only [List.flatMap_cons, List.length_append, List.length_cons, ih fun q hq => h q (by simp [hq]), (h p (by simp)).2.2.1]
    omega

/-- The options after the second pass. -/
theorem Regrouped.mem {c : Cmdline} {os os' : List Opt} (h : Regrouped c os os') : ∀ o' ∈ os', ∃ o ∈ os, ∃ ps : List Opt,
    (∀ p ∈ ps, p ∈ os ∧ Loose p) ∧ o' = with_ o ps ∧
      (ps = [] ∨ ∃ d, o.stringKey ≠ [] ∧ c.lookup o.stringKey = .ok (some d) ∧ d.semantic.minTokens < d.semantic.maxTokens ∧
        o.value.length < d.semantic.maxTokens ∧
        (d.semantic.maxTokens - o.value.length < 2147483648 → ps.length ≤ d.semantic.maxTokens - o.value.length)) := by
  induction h with
  | nil => simp
  | @keep o os os' t ih =>
    intro o' ho'
    rcases List.mem_cons.1 ho' with rfl | ho'
    · exact ⟨_, List.mem_cons_self .., [], by simp, by simp [with_], .inl rfl⟩
    · obtain ⟨o, ho, ps, hp, h⟩ := ih o' ho'
      exact ⟨o, by simp [ho], ps, fun p hp' => ⟨by simp [(hp p hp').1], (hp p hp').2⟩, h⟩
  | @merge o ps os os' d hk hl hm hv hp hn t ih =>
    intro o' ho'
    rcases List.mem_cons.1 ho' with rfl | ho'
    · exact ⟨o, List.mem_cons_self .., ps, fun p hp' => ⟨by simp [hp'], hp p hp'⟩, rfl, .inr ⟨d, hk, hl, hm, hv, hn⟩⟩
    · obtain ⟨o, ho, ps', hp, h⟩ := ih o' ho'
      exact ⟨o, by simp [ho], ps', fun p hp' => ⟨by simp [(hp p hp').1], (hp p hp').2⟩, h⟩

/-- Named options carry no position until the last pass. -/
theorem Made.position {c : Cmdline} {args : List Str} {o : Opt} (h : Made c args o) (hk : o.stringKey ≠ []) : o.positionKey = -1 := by
  cases h <;> first | rfl | exact absurd rfl hk

theorem number_mem (name : Nat → Str) (n : Nat) (os : List Opt) (o : Opt) (h : o ∈ number name n os) :
    (o ∈ os ∧ o.stringKey ≠ []) ∨ ∃ q ∈ os, ∃ i, q.stringKey = [] ∧ o = { q with positionKey := (i : Int), stringKey := name i } := by
  induction os generalizing n with
  | nil => simp [number] at h
  | cons q os ih =>
    rw [number] at h
    by_cases hk : q.stringKey = []
    · rw [if_pos hk] at h
      rcases List.mem_cons.1 h with rfl | h
      · exact .inr ⟨q, by simp, n, hk, rfl⟩
      · rcases ih _ h with ⟨h1, h2⟩ | ⟨q', h1, h2⟩
        · exact .inl ⟨by simp [h1], h2⟩
        · exact .inr ⟨q', by simp [h1], h2⟩
    · rw [if_neg hk] at h
      rcases List.mem_cons.1 h with rfl | h
      · exact .inl ⟨by simp, hk⟩
      · rcases ih _ h with ⟨h1, h2⟩ | ⟨q', h1, h2⟩
        · exact .inl ⟨by simp [h1], h2⟩
        · exact .inr ⟨q', by simp [h1], h2⟩

theorem setCase_stringKey (c : Cmdline) (o : Opt) : (c.setCase o).stringKey = o.stringKey := by
  unfold setCase; split <;> rfl
theorem setCase_positionKey (c : Cmdline) (o : Opt) : (c.setCase o).positionKey = o.positionKey := by
  unfold setCase; split <;> rfl
theorem setCase_value (c : Cmdline) (o : Opt) : (c.setCase o).value = o.value := by
  unfold setCase; split <;> rfl
theorem setCase_originalTokens (c : Cmdline) (o : Opt) : (c.setCase o).originalTokens = o.originalTokens := by
  unfold setCase; split <;> rfl
theorem setCase_unregistered (c : Cmdline) (o : Opt) : (c.setCase o).unregistered = o.unregistered := by
  unfold setCase; split <;> rfl

/-- The passes of a successful parse. -/
theorem run_passes (c : Cmdline) (hs : c.styleParser = none) (args : List Str) (res : List Opt) (h : c.run args = .ok res) :
    ∃ os r2 name, Pass c args os ∧ Regrouped c os r2 ∧ c.regroup 0 os = .ok r2 ∧ res = (number name 0 r2).map c.setCase ∧
      (∀ o ∈ r2, o.stringKey ≠ [] → o.positionKey = -1) ∧
      match c.positional with
      | none => name = fun _ => []
      | some p => name = posName p ∧ tooMany p (unnamed r2).length = false := by
  obtain ⟨os, hp, hf⟩ := (c.run_pass hs args res).1 h
  obtain ⟨r2, hr⟩ := c.finalize_regroup _ _ hf
  have hrg := c.regroup_regrouped _ _ hr
  have hw : ∀ o ∈ r2, o.stringKey ≠ [] → o.positionKey = -1 := by
    intro o ho hk
    obtain ⟨o1, ho1, ps, _, rfl, _⟩ := hrg.mem o ho
    exact (hp.made o1 ho1).position hk
  rw [c.finalize_eq _ _ hr hw] at hf
  cases hpos : c.positional with
  | none =>
    rw [hpos] at hf
    cases hf
    exact ⟨os, r2, _, hp, hrg, hr, rfl, hw, rfl⟩
  | some p =>
    rw [hpos] at hf
    simp only at hf
    by_cases ht : tooMany p (unnamed r2).length = true
    · rw [if_pos ht] at hf; cases hf
    · rw [if_neg ht] at hf
      cases hf
      exact ⟨os, r2, _, hp, hrg, hr, rfl, hw, rfl, by simpa using ht⟩

/-- An option of a successful parse that is not positional. -/
theorem run_option (c : Cmdline) (hs : c.styleParser = none) (args : List Str) (res : List Opt) (h : c.run args = .ok res)
    (o : Opt) (ho : o ∈ res) (hpos : o.positionKey = -1) :
    ∃ o1 ps, Made c args o1 ∧ (∀ p ∈ ps, Made c args p ∧ Loose p) ∧ o1.stringKey ≠ [] ∧ o = c.setCase (with_ o1 ps) ∧
      (ps = [] ∨ ∃ d, c.lookup o1.stringKey = .ok (some d) ∧ d.semantic.minTokens < d.semantic.maxTokens ∧
        o1.value.length < d.semantic.maxTokens ∧
        (d.semantic.maxTokens - o1.value.length < 2147483648 → ps.length ≤ d.semantic.maxTokens - o1.value.length)) := by
  obtain ⟨os, r2, name, hp, hrg, _, rfl, hw, _⟩ := c.run_passes hs args res h
  obtain ⟨o2, ho2, rfl⟩ := List.mem_map.1 ho
  rcases number_mem _ _ _ _ ho2 with ⟨ho2, hk⟩ | ⟨q, hq, i, hk, rfl⟩
  · obtain ⟨o1, ho1, ps, hps, rfl, hm⟩ := hrg.mem o2 ho2
    refine ⟨o1, ps, hp.made o1 ho1, fun p hp' => ⟨hp.made p (hps p hp').1, (hps p hp').2⟩, hk, rfl, ?_⟩
    rcases hm with hm | ⟨d, _, hl, hm⟩
    · exact .inl hm
    · exact .inr ⟨d, hl, hm⟩
  · rw [setCase_positionKey] at hpos
    simp only at hpos
    omega

end Cmdline
end PO
