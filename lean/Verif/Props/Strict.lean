import Verif.Props.Parse
/-
C74: refusing unregistered options, in terms of allowing them.
-/
namespace PO
open Spec

namespace Cmdline

/-- The same parser, with unregistered options allowed. -/
def lenient (c : Cmdline) : Cmdline := { c with allowUnregistered := true }

/-- The same parser, with unregistered options refused. -/
def strict (c : Cmdline) : Cmdline := { c with allowUnregistered := false }

theorem shortLoop_allow (c : Cmdline) (b : Bool) (tok name adj : Str) :
    shortLoop { c with allowUnregistered := b } tok name adj = c.shortLoop tok name adj := by
  induction adj generalizing name with
  | nil => rfl
  | cons a adj ih =>
    rw [shortLoop, shortLoop]
    simp only [ih]
    rfl

theorem parsers_allow (c : Cmdline) (b : Bool) : parsers { c with allowUnregistered := b } = c.parsers := by
  have h1 : parseShort { c with allowUnregistered := b } = c.parseShort := by
    funext args
    cases args with
    | nil => rfl
    | cons tok rest =>
      rw [parseShort, parseShort, shortLoop_allow]
  have h2 : parseLong { c with allowUnregistered := b } = c.parseLong := by
    funext args
    cases args <;> rfl
  have h3 : parseDisguised { c with allowUnregistered := b } = c.parseDisguised := by
    funext args
    cases args with
    | nil => rfl
    | cons tok rest => rw [parseDisguised, parseDisguised, h2]; rfl
  unfold parsers
  rw [h1, h2, h3]

theorem grab_allow (c : Cmdline) (b : Bool) (ps : List StyleParser) (n : Nat) (other : List Str) (opt : Opt) (orig : Str) :
    grab { c with allowUnregistered := b } ps n other opt orig = c.grab ps n other opt orig := by
  induction n generalizing other opt orig with
  | zero => rw [grab, grab]
  | succ n ih =>
    cases other with
    | nil => rw [grab, grab]
    | cons t ts =>
      rw [grab, grab]
      simp only [ih]
      rfl

theorem grab_unregistered (c : Cmdline) (ps : List StyleParser) (n : Nat) (other : List Str) (opt : Opt) (orig : Str) (o : Opt) (rest : List Str)
    (h : c.grab ps n other opt orig = .ok (o, rest)) : o.unregistered = opt.unregistered := by
  induction n generalizing other opt orig with
  | zero => rw [grab] at h; cases h; rfl
  | succ n ih =>
    cases other with
    | nil => rw [grab] at h; cases h; rfl
    | cons t ts =>
      rw [grab] at h
      split at h
      · cases h
      · exact (ih _ _ _ h).trans rfl
      · split at h
        · cases h
        · cases h
        · exact (ih _ _ _ h).trans rfl

/-- An `unknown_option` exception. -/
def IsUnknown (f : Fail) : Prop := ∃ e, f = .opt e ∧ e.cls = .unknownOption

theorem isUnknown_context (n t : Str) (s : Nat) : IsUnknown (errUnknown.addContext n t s) := ⟨_, rfl, rfl⟩

/-- The strict outcome `x` in terms of the lenient one `y`. -/
def Stricter {α : Type} (unreg : α → Prop) (x y : Except Fail α) : Prop :=
  (x = y ∧ ∀ r, y = .ok r → ¬ unreg r) ∨ (∃ f, x = .error f ∧ IsUnknown f) ∧ ∀ r, y = .ok r → unreg r

/-- Some option is flagged as unregistered. -/
def AnyUnregistered (os : List Opt) : Prop := ∃ o ∈ os, o.unregistered = true

/-- No style parser flags anything. -/
def Unflagged (os : List Opt) : Prop := ∀ o ∈ os, o.unregistered = false

theorem parseLong_unflagged (c : Cmdline) (args : List Str) (os : List Opt) (rest : List Str) (h : c.parseLong args = .ok (os, rest)) :
    Unflagged os := by
  cases args with
  | nil => cases h
  | cons tok ts =>
    rw [parseLong] at h
    split at h
    · split at h
      · dsimp only at h
        split at h
        · cases h
        · cases h; intro o ho; rw [List.mem_singleton] at ho; subst ho; rfl
      · cases h; intro o ho; rw [List.mem_singleton] at ho; subst ho; rfl
    · cases h; nofun

theorem shortLoop_unflagged (c : Cmdline) (tok name adj : Str) (os : List Opt) (h : c.shortLoop tok name adj = .ok os) : Unflagged os := by
  induction adj generalizing name os with
  | nil =>
    rw [shortLoop] at h
    split at h
    · cases h
    · cases h; intro o ho; rw [List.mem_singleton] at ho; subst ho; rfl
  | cons a adj ih =>
    rw [shortLoop] at h
    split at h
    · cases h
    · split at h
      · split at h
        · cases h
        · rename_i os' e
          cases h
          intro o ho
          rcases List.mem_cons.1 ho with rfl | ho
          · rfl
          · exact ih _ _ e o ho
      · cases h; intro o ho; rw [List.mem_singleton] at ho; subst ho; rfl

theorem parsers_unflagged (c : Cmdline) (hs : c.styleParser = none) (p : StyleParser) (hp : p ∈ c.parsers) (args : List Str) (os : List Opt)
    (rest : List Str) (h : p args = .ok (os, rest)) : Unflagged os := by
  unfold parsers at hp
  rw [hs] at hp
  simp only [List.nil_append, List.mem_append, List.mem_singleton, or_assoc] at hp
  rcases hp with hp | hp | hp | hp | hp | rfl
  · split at hp
    · rename_i f _
      rw [List.mem_singleton] at hp
      subst hp
      cases args with
      | nil => cases h
      | cons tok ts =>
        rw [parseAdditional] at h
        split at h
        · cases h; nofun
        · cases h; intro o ho; rw [List.mem_singleton] at ho; subst ho; rfl
    · cases hp
  · split at hp
    · rw [List.mem_singleton] at hp; subst hp
      exact c.parseLong_unflagged _ _ _ h
    · cases hp
  · split at hp
    · rw [List.mem_singleton] at hp; subst hp
      cases args with
      | nil => cases h
      | cons tok ts =>
        rw [parseDisguised] at h
        split at h
        · split at h
          · cases h
          · split at h
            · cases h
            · rename_i e
              cases h
              exact c.parseLong_unflagged _ _ _ e
          · cases h; nofun
        · cases h; nofun
    · cases hp
  · split at hp
    · rw [List.mem_singleton] at hp; subst hp
      cases args with
      | nil => cases h
      | cons tok ts =>
        rw [parseShort] at h
        split at h
        · split at h
          · cases h
          · rename_i e
            cases h
            exact c.shortLoop_unflagged _ _ _ _ e
        · cases h; nofun
    · cases hp
  · split at hp
    · rw [List.mem_singleton] at hp; subst hp
      cases args with
      | nil => cases h
      | cons tok ts =>
        rw [parseDos] at h
        split at h
        · cases h; intro o ho; rw [List.mem_singleton] at ho; subst ho; rfl
        · cases h; nofun
    · cases hp
  · cases args with
    | nil => cases h
    | cons tok ts =>
      rw [parseTerminator] at h
      split at h
      · cases h
        intro o ho
        obtain ⟨a, _, rfl⟩ := List.mem_map.1 ho
        rfl
      · cases h; nofun

/-- What is flagged is named. -/
def FlagNamed (os : List Opt) : Prop := ∀ o ∈ os, o.unregistered = true → o.stringKey ≠ []

theorem finishOption_stricter (c : Cmdline) (ps : List StyleParser) (o : Opt) (ho : o.unregistered = false) (other : List Str) :
    Stricter (fun r => AnyUnregistered [r.1]) (c.strict.finishOption ps o other) (c.lenient.finishOption ps o other) := by
  unfold finishOption
  by_cases h0 : o.stringKey = []
  · rw [if_pos h0, if_pos h0]
    left
    refine ⟨rfl, ?_⟩
    rintro r h ⟨o', ho', h1⟩
    cases h
    rw [List.mem_singleton] at ho'
    subst ho'
    rw [ho] at h1
    cases h1
  · rw [if_neg h0, if_neg h0]
    have hl : c.strict.lookup o.stringKey = c.lenient.lookup o.stringKey := rfl
    rw [hl]
    cases c.lenient.lookup o.stringKey with
    | error f => exact .inl ⟨rfl, nofun⟩
    | ok d =>
      cases d with
      | none =>
        right
        refine ⟨⟨_, rfl, isUnknown_context _ _ _⟩, ?_⟩
        intro r h
        cases h
        exact ⟨_, List.mem_singleton.2 rfl, rfl⟩
      | some d =>
        left
        dsimp only
        refine ⟨?_, ?_⟩
        · split
          · split
            · rfl
            · rw [show c.strict.grab = c.lenient.grab from by
                funext a b d e f
                exact (grab_allow _ _ _ _ _ _ _).trans (grab_allow _ _ _ _ _ _ _).symm]
          · rfl
        · rintro ⟨o', rest⟩ h ⟨o'', ho'', h1⟩
          rw [List.mem_singleton] at ho''
          subst ho''
          split at h
          · split at h
            · cases h
            · have := grab_unregistered _ _ _ _ _ _ _ _ h
              dsimp only at this h1
              rw [h1, ho] at this
              cases this
          · cases h

theorem AnyUnregistered.append {a b : List Opt} : AnyUnregistered (a ++ b) ↔ AnyUnregistered a ∨ AnyUnregistered b := by
  unfold AnyUnregistered
  constructor
  · rintro ⟨o, ho, h⟩
    rcases List.mem_append.1 ho with ho | ho
    · exact .inl ⟨o, ho, h⟩
    · exact .inr ⟨o, ho, h⟩
  · rintro (⟨o, ho, h⟩ | ⟨o, ho, h⟩)
    · exact ⟨o, List.mem_append_left _ ho, h⟩
    · exact ⟨o, List.mem_append_right _ ho, h⟩

theorem AnyUnregistered.cons {a : Opt} {b : List Opt} : AnyUnregistered (a :: b) ↔ AnyUnregistered [a] ∨ AnyUnregistered b :=
  AnyUnregistered.append (a := [a])

theorem finishAll_stricter (c : Cmdline) (ps : List StyleParser) (os : List Opt) (ho : Unflagged os) (args : List Str) :
    Stricter (fun r => AnyUnregistered r.1) (c.strict.finishAll ps os args) (c.lenient.finishAll ps os args) := by
  induction os with
  | nil => exact .inl ⟨rfl, by rintro r h ⟨o, h1, _⟩; cases h; cases h1⟩
  | cons o os ih =>
    have h1 := fun other => c.finishOption_stricter ps o (ho o (by simp)) other
    have h2 := ih fun o' h' => ho o' (by simp [h'])
    cases os with
    | nil =>
      rw [finishAll, finishAll]
      rcases h1 args with ⟨e, h⟩ | ⟨⟨f, e, hf⟩, h⟩
      · rw [e]
        cases hy : c.lenient.finishOption ps o args with
        | error f => exact .inl ⟨rfl, nofun⟩
        | ok r =>
          refine .inl ⟨rfl, ?_⟩
          intro r' e'
          cases e'
          exact h r hy
      · rw [e]
        refine .inr ⟨⟨f, rfl, hf⟩, ?_⟩
        intro r hr
        split at hr
        · cases hr
        · rename_i o' args' e'
          cases hr
          exact h _ e'
    | cons o1 os =>
      have hfa : ∀ c : Cmdline, c.finishAll ps (o :: o1 :: os) args =
          match c.finishOption ps o [] with
          | .error f => .error f
          | .ok (o', _) =>
            match c.finishAll ps (o1 :: os) args with
            | .error f => .error f
            | .ok (os', args') => .ok (o' :: os', args') := fun c => by
        rw [finishAll]
        · rfl
        · intro h; cases h
      rw [hfa, hfa]
      · rcases h1 [] with ⟨e, h⟩ | ⟨⟨f, e, hf⟩, h⟩
        · rw [e]
          cases hy : c.lenient.finishOption ps o [] with
          | error f => exact .inl ⟨rfl, nofun⟩
          | ok r =>
            dsimp only
            rcases h2 with ⟨e2, h2⟩ | ⟨⟨f, e2, hf⟩, h2⟩
            · rw [e2]
              cases hz : c.lenient.finishAll ps (o1 :: os) args with
              | error f => exact .inl ⟨rfl, nofun⟩
              | ok r2 =>
                refine .inl ⟨rfl, ?_⟩
                intro r' e'
                cases e'
                dsimp only
                rw [AnyUnregistered.cons]
                exact fun hh => hh.elim (h r hy) (h2 r2 hz)
            · rw [e2]
              refine .inr ⟨⟨f, rfl, hf⟩, ?_⟩
              intro r' hr
              split at hr
              · cases hr
              · rename_i os' args' e'
                cases hr
                dsimp only
                rw [AnyUnregistered.cons]
                exact .inr (h2 _ e')
        · rw [e]
          refine .inr ⟨⟨f, rfl, hf⟩, ?_⟩
          intro r' hr
          split at hr
          · cases hr
          · rename_i o' args' e'
            split at hr
            · cases hr
            · cases hr
              dsimp only
              rw [AnyUnregistered.cons]
              exact .inl (h _ e')

theorem tryParsers_stricter (c : Cmdline) (all ps : List StyleParser) (hp : ∀ p ∈ ps, ∀ args os rest, p args = .ok (os, rest) → Unflagged os)
    (args : List Str) :
    Stricter (fun r => AnyUnregistered r.1) (c.strict.tryParsers all ps args) (c.lenient.tryParsers all ps args) := by
  induction ps generalizing args with
  | nil =>
    cases args with
    | nil => exact .inl ⟨rfl, nofun⟩
    | cons a args =>
      refine .inl ⟨rfl, ?_⟩
      rintro r h ⟨o, h1, h2⟩
      cases h
      rw [List.mem_singleton] at h1
      subst h1
      cases h2
  | cons p ps ih =>
    rw [tryParsers, tryParsers]
    cases hpe : p args with
    | error f => exact .inl ⟨rfl, nofun⟩
    | ok r =>
      obtain ⟨next, args1⟩ := r
      dsimp only
      rcases c.finishAll_stricter all next (hp p (by simp) _ _ _ hpe) args1 with ⟨e, h⟩ | ⟨⟨f, e, hf⟩, h⟩
      · rw [e]
        cases hy : c.lenient.finishAll all next args1 with
        | error f => exact .inl ⟨rfl, nofun⟩
        | ok r =>
          obtain ⟨next', args2⟩ := r
          dsimp only
          have h := h _ hy
          by_cases hl : args2.length ≠ args.length
          · rw [if_pos hl, if_pos hl]
            refine .inl ⟨rfl, ?_⟩
            intro r' e'
            cases e'
            exact h
          · rw [if_neg hl, if_neg hl]
            rcases ih (fun p' h' => hp p' (by simp [h'])) args2 with ⟨e2, h2⟩ | ⟨⟨f, e2, hf⟩, h2⟩
            · rw [e2]
              cases hz : c.lenient.tryParsers all ps args2 with
              | error f => exact .inl ⟨rfl, nofun⟩
              | ok r2 =>
                refine .inl ⟨rfl, ?_⟩
                intro r' e'
                cases e'
                dsimp only
                rw [AnyUnregistered.append]
                exact fun hh => hh.elim h (h2 r2 hz)
            · rw [e2]
              refine .inr ⟨⟨f, rfl, hf⟩, ?_⟩
              intro r' hr
              split at hr
              · cases hr
              · rename_i more args3 e'
                cases hr
                dsimp only
                rw [AnyUnregistered.append]
                exact .inr (h2 _ e')
      · rw [e]
        refine .inr ⟨⟨f, rfl, hf⟩, ?_⟩
        intro r' hr
        split at hr
        · cases hr
        · rename_i next' args2 e'
          have h := h _ e'
          split at hr
          · cases hr; exact h
          · split at hr
            · cases hr
            · cases hr
              dsimp only
              rw [AnyUnregistered.append]
              exact .inl h

theorem loop_stricter (c : Cmdline) (hs : c.styleParser = none) (fuel : Nat) (args : List Str) :
    Stricter AnyUnregistered (c.strict.loop fuel args) (c.lenient.loop fuel args) := by
  induction fuel generalizing args with
  | zero =>
    cases args with
    | nil => rw [loop, loop]; exact .inl ⟨rfl, by rintro r h ⟨o, h1, _⟩; cases h; cases h1⟩
    | cons a args => rw [loop, loop]; exact .inl ⟨rfl, nofun⟩
  | succ fuel ih =>
    cases args with
    | nil => rw [loop, loop]; exact .inl ⟨rfl, by rintro r h ⟨o, h1, _⟩; cases h; cases h1⟩
    | cons a args =>
      rw [loop, loop]
      have hstep : Stricter (fun r => AnyUnregistered r.1) (c.strict.step (a :: args)) (c.lenient.step (a :: args)) := by
        unfold step
        rw [show c.strict.parsers = c.parsers from c.parsers_allow false, show c.lenient.parsers = c.parsers from c.parsers_allow true]
        exact c.tryParsers_stricter _ _ (fun p hp args os rest h => c.parsers_unflagged hs p hp args os rest h) _
      rcases hstep with ⟨e, h⟩ | ⟨⟨f, e, hf⟩, h⟩
      · rw [e]
        cases hy : c.lenient.step (a :: args) with
        | error f => exact .inl ⟨rfl, nofun⟩
        | ok r =>
          obtain ⟨os, args'⟩ := r
          dsimp only
          have h := h _ hy
          rcases ih args' with ⟨e2, h2⟩ | ⟨⟨f, e2, hf⟩, h2⟩
          · rw [e2]
            cases hz : c.lenient.loop fuel args' with
            | error f => exact .inl ⟨rfl, nofun⟩
            | ok r2 =>
              refine .inl ⟨rfl, ?_⟩
              intro r' e'
              cases e'
              rw [AnyUnregistered.append]
              exact fun hh => hh.elim h (h2 r2 hz)
          · rw [e2]
            refine .inr ⟨⟨f, rfl, hf⟩, ?_⟩
            intro r' hr
            split at hr
            · cases hr
            · rename_i more e'
              cases hr
              rw [AnyUnregistered.append]
              exact .inr (h2 _ e')
      · rw [e]
        refine .inr ⟨⟨f, rfl, hf⟩, ?_⟩
        intro r' hr
        split at hr
        · cases hr
        · rename_i os args' e'
          have h := h _ e'
          split at hr
          · cases hr
          · cases hr
            rw [AnyUnregistered.append]
            exact .inl h

theorem absorb_keeps (lim : Option Nat) (o : Opt) (ps : List Opt) (hu : FlagNamed ps) (o' : Opt) (k : Nat) (h : absorb lim o ps = .ok (o', k)) :
    o'.unregistered = o.unregistered ∧ ¬ AnyUnregistered (ps.take k) := by
  have hn : ¬ AnyUnregistered [] := by rintro ⟨o, h, _⟩; cases h
  induction ps generalizing lim o o' k with
  | nil => rw [absorb] at h; cases h; exact ⟨rfl, hn⟩
  | cons p ps ih =>
    rw [absorb] at h
    split at h
    · cases h; exact ⟨rfl, hn⟩
    · split at h
      · cases h; exact ⟨rfl, hn⟩
      · rename_i hk
        split at h
        · cases h; exact ⟨rfl, hn⟩
        · split at h
          · split at h
            · split at h
              · cases h
              · rename_i o1 k1 e
                cases h
                obtain ⟨h1, h3⟩ := ih _ _ (fun q hq => hu q (by simp [hq])) _ _ e
                refine ⟨h1, ?_⟩
                rw [List.take_succ_cons, AnyUnregistered.cons]
                rintro (⟨q, hq, hq2⟩ | hh)
                · rw [List.mem_singleton] at hq
                  subst hq
                  exact hk (hu q (by simp) hq2)
                · exact h3 hh
            · cases h
          · cases h

theorem regroup_unregistered (c : Cmdline) (os : List Opt) (hu : FlagNamed os) (k : Nat) (r : List Opt) (h : c.regroup k os = .ok r) :
    AnyUnregistered r ↔ AnyUnregistered (os.drop k) := by
  induction os generalizing k r with
  | nil => rw [regroup] at h; cases h; simp
  | cons o os ih =>
    have hu' : FlagNamed os := fun q hq => hu q (by simp [hq])
    have ih := ih hu'
    cases k with
    | succ k => rw [regroup] at h; exact ih _ _ h
    | zero =>
      have keep : ∀ r', (match c.regroup 0 os with | .error f => Except.error f | .ok os => .ok (o :: os)) = .ok r' →
          (AnyUnregistered r' ↔ AnyUnregistered (o :: os)) := by
        intro r' h'
        split at h'
        · cases h'
        · rename_i os' e
          cases h'
          rw [AnyUnregistered.cons, AnyUnregistered.cons (b := os), ih _ _ e]
          rfl
      rw [List.drop_zero]
      rw [regroup] at h
      dsimp only at h
      split at h
      · exact keep _ h
      · split at h
        · split at h <;> cases h
        · cases h
        · exact keep _ h
        · split at h
          · split at h
            · cases h
            · rename_i o' k e
              obtain ⟨h1, h3⟩ := absorb_keeps _ _ _ hu' _ _ e
              split at h
              · cases h
              · rename_i os' e'
                cases h
                rw [AnyUnregistered.cons, AnyUnregistered.cons (b := os), ih _ _ e']
                have hd : AnyUnregistered os ↔ AnyUnregistered (os.drop k) := by
                  conv => lhs; rw [← List.take_append_drop k os]
                  rw [AnyUnregistered.append]
                  exact ⟨fun hh => hh.elim (fun x => absurd x h3) id, .inr⟩
                rw [hd]
                have : AnyUnregistered [o'] ↔ AnyUnregistered [o] := by
                  unfold AnyUnregistered
                  simp only [List.mem_singleton, exists_eq_left, h1]
                rw [this]
          · exact keep _ h

theorem assignPositions_unregistered (n : Int) (os : List Opt) : AnyUnregistered (assignPositions n os) ↔ AnyUnregistered os := by
  induction os generalizing n with
  | nil => rw [assignPositions]
  | cons o os ih =>
    rw [assignPositions]
    split
    · rw [AnyUnregistered.cons, AnyUnregistered.cons (b := os), ih]
      unfold AnyUnregistered
      simp only [List.mem_singleton, exists_eq_left]
    · rw [AnyUnregistered.cons, AnyUnregistered.cons (b := os), ih]

theorem namePositional_unregistered (p : Positional) (n : Nat) (os r : List Opt) (h : namePositional p n os = .ok r) :
    AnyUnregistered r ↔ AnyUnregistered os := by
  induction os generalizing n r with
  | nil => rw [namePositional] at h; cases h; rfl
  | cons o os ih =>
    rw [namePositional] at h
    split at h
    · split at h
      · cases h
      · split at h
        · cases h
        · split at h
          · cases h
          · rename_i e
            cases h
            rw [AnyUnregistered.cons, AnyUnregistered.cons (b := os), ih _ _ e]
            unfold AnyUnregistered
            simp only [List.mem_singleton, exists_eq_left]
    · split at h
      · cases h
      · rename_i e
        cases h
        rw [AnyUnregistered.cons, AnyUnregistered.cons (b := os), ih _ _ e]

theorem finalize_unregistered (c : Cmdline) (os res : List Opt) (hu : FlagNamed os) (h : c.finalize os = .ok res) :
    AnyUnregistered res ↔ AnyUnregistered os := by
  unfold finalize at h
  split at h
  · cases h
  · rename_i r2 e
    dsimp only at h
    split at h
    · cases h
    · rename_i r4 e4
      cases h
      have h1 : AnyUnregistered (r4.map c.setCase) ↔ AnyUnregistered r4 := by
        unfold AnyUnregistered
        constructor
        · rintro ⟨o, ho, hf⟩
          obtain ⟨o', ho', rfl⟩ := List.mem_map.1 ho
          exact ⟨o', ho', by rwa [setCase_unregistered] at hf⟩
        · rintro ⟨o, ho, hf⟩
          exact ⟨_, List.mem_map_of_mem ho, by rwa [setCase_unregistered]⟩
      have h2 : AnyUnregistered r4 ↔ AnyUnregistered r2 := by
        unfold applyPositional at e4
        split at e4
        · cases e4; exact assignPositions_unregistered _ _
        · exact (namePositional_unregistered _ _ _ _ e4).trans (assignPositions_unregistered _ _)
      have h3 := c.regroup_unregistered os hu 0 r2 e
      exact h1.trans (h2.trans h3)

theorem run_stricter (c : Cmdline) (hs : c.styleParser = none) (args : List Str) :
    Stricter AnyUnregistered (c.strict.run args) (c.lenient.run args) := by
  unfold run runFuel
  have hfin : c.strict.finalize = c.lenient.finalize := by
    funext os
    have hr : ∀ (b : Bool) (k : Nat) (os : List Opt), regroup { c with allowUnregistered := b } k os = c.regroup k os := by
      intro b k os
      induction os generalizing k with
      | nil => cases k <;> rw [regroup, regroup]
      | cons o os ih =>
        cases k with
        | succ k => rw [regroup, regroup]; exact ih k
        | zero =>
          rw [regroup, regroup]
          simp only [ih]
          rfl
    unfold finalize
    rw [show c.strict.regroup 0 os = c.regroup 0 os from hr false 0 os, show c.lenient.regroup 0 os = c.regroup 0 os from hr true 0 os]
    rfl
  have hl := c.loop_stricter hs (args.length + 1) args
  have hnamed : ∀ os, c.lenient.loop (args.length + 1) args = .ok os → FlagNamed os := by
    intro os h o ho hf
    have hp := c.lenient.loop_pass hs _ _ _ h
    cases hp.made o ho with
    | unknown tok name value tokens ht hw hn => exact hn
    | _ => cases hf
  rcases hl with ⟨e, h⟩ | ⟨⟨f, e, hf⟩, h⟩
  · rw [e]
    cases hy : c.lenient.loop (args.length + 1) args with
    | error f => exact .inl ⟨rfl, nofun⟩
    | ok os =>
      dsimp only
      rw [hfin]
      refine .inl ⟨rfl, ?_⟩
      intro r hr
      rw [c.lenient.finalize_unregistered os r (hnamed os hy) hr]
      exact h os hy
  · rw [e]
    refine .inr ⟨⟨f, rfl, hf⟩, ?_⟩
    intro r hr
    split at hr
    · cases hr
    · rename_i os hy
      rw [c.lenient.finalize_unregistered os r (hnamed os hy) hr]
      exact h os hy

end Cmdline

/-- **C74:** refusing unregistered options gives the result that allowing them gives if that has none, `unknown_option` if it has
one, and otherwise the same failure or `unknown_option`. -/
theorem C74_strict (c : Cmdline) (hs : c.styleParser = none) (args : List Str) :
    (∀ res, Cmdline.run { c with allowUnregistered := true } args = .ok res → (∀ o ∈ res, o.unregistered = false) →
      Cmdline.run { c with allowUnregistered := false } args = .ok res) ∧
    (∀ res, Cmdline.run { c with allowUnregistered := true } args = .ok res → (∃ o ∈ res, o.unregistered = true) →
      ∃ e, Cmdline.run { c with allowUnregistered := false } args = .error (.opt e) ∧ e.cls = .unknownOption) ∧
    ∀ f, Cmdline.run { c with allowUnregistered := true } args = .error f →
      Cmdline.run { c with allowUnregistered := false } args = .error f ∨
      ∃ e, Cmdline.run { c with allowUnregistered := false } args = .error (.opt e) ∧ e.cls = .unknownOption := by
  have h := c.run_stricter hs args
  refine ⟨?_, ?_, ?_⟩
  · intro res hr hn
    rcases h with ⟨e, _⟩ | ⟨_, h⟩
    · exact e.trans hr
    · obtain ⟨o, ho, hu⟩ := h res hr
      rw [hn o ho] at hu
      cases hu
  · intro res hr hu
    rcases h with ⟨_, h⟩ | ⟨⟨f, e, e', he, hc⟩, _⟩
    · exact absurd hu (h res hr)
    · subst he
      exact ⟨e', e, hc⟩
  · intro f hf
    rcases h with ⟨e, _⟩ | ⟨⟨f', e, e', he, hc⟩, _⟩
    · exact .inl (e.trans hf)
    · subst he
      exact .inr ⟨e', e, hc⟩

/-- Hence allowing unregistered options changes nothing for a command line that is accepted without. -/
theorem C74_allowing_adds (c : Cmdline) (hs : c.styleParser = none) (args : List Str) (res : List Opt)
    (h : Cmdline.run { c with allowUnregistered := false } args = .ok res) :
    Cmdline.run { c with allowUnregistered := true } args = .ok res := by
  rcases c.run_stricter hs args with ⟨e, _⟩ | ⟨⟨f, e, _⟩, _⟩
  · exact e.symm.trans h
  · rw [show c.strict.run args = .ok res from h] at e
    cases e

/-- All three parts occur: only declared options; an unknown one; a failure that comes before an unknown option, and one that comes after. -/
def strictExample : Cmdline := { desc := [Test.od "foo,f" (Test.sem Test.vstr) ""] }

example : ((Cmdline.run { strictExample with allowUnregistered := true } [Test.L "--foo=1", Test.L "x"]).map (·.map (·.unregistered))) =
    .ok [false, false] := by rfl
example : ((Cmdline.run { strictExample with allowUnregistered := true } [Test.L "--foo=1", Test.L "-z"]).map (·.map (·.unregistered))) =
    .ok [false, true] := by rfl
example : (Cmdline.run { strictExample with allowUnregistered := true } [Test.L "--foo=", Test.L "-z"]) =
    Cmdline.run { strictExample with allowUnregistered := false } [Test.L "--foo=", Test.L "-z"] := by rfl
example : (Cmdline.run { strictExample with allowUnregistered := true } [Test.L "-z", Test.L "--foo="]) =
      .error (errSyntax .emptyAdjacentParameter (Test.L "foo") (Test.L "foo") 1) ∧
    ∃ e, Cmdline.run { strictExample with allowUnregistered := false } [Test.L "-z", Test.L "--foo="] = .error (.opt e) ∧ e.cls = .unknownOption :=
  ⟨rfl, _, rfl, rfl⟩

end PO
