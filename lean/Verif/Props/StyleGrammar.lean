import Verif.Lemmas.StyleGrammar
import Verif.Props.StyleParser
/-
C142: which command lines a program with a style parser of its own accepts, and what they mean; which it refuses, and with which exception.
-/
namespace PO
open Spec
namespace Cmdline

/-- There is one way to read the tokens. -/
theorem readsBy_unique {c : Cmdline} {p : StyleParser} (hs : c.styleParser = some p) (ho : Orderly p) {args : List Str} {os os' : List Opt}
    (h : ReadsBy c p args os) (h' : ReadsBy c p args os') : os = os' := by
  have e := c.passBy_loop p hs ho _ _ ((c.passBy_reads p hs ho _ _).2 h) _ (Nat.le_refl _)
  have e' := c.passBy_loop p hs ho _ _ ((c.passBy_reads p hs ho _ _).2 h') _ (Nat.le_refl _)
  rw [e] at e'
  exact Except.ok.inj e'

theorem runsOut_not_ub {c : Cmdline} {p : StyleParser} (hub : ∀ args u, p args ≠ .error (.ub u)) {own key : Str} {taken : List Str} {v : Str} {f : Fail}
    (h : RunsOut c p own key taken v f) (u : UB) : f ≠ .ub u := by
  cases h with
  | @refused f b hf _ =>
    cases hf with
    | own h =>
      cases f with
      | ub u' => exact absurd h (hub _ u')
      | _ => simp [Fail.addContext]
    | malformed _ h => simp [complaint, Fail.addContext]
  | option => simp [complaint]
  | options => simp [complaint]

theorem stuckBy_not_ub {c : Cmdline} {p : StyleParser} (hub : ∀ args u, p args ≠ .error (.ub u)) {o : Opt} {other : List Str} {f : Fail}
    (h : StuckBy c p o other f) (u : UB) : f ≠ .ub u := by
  cases h with
  | runsOut d taken rest v f h hd hm hx e hlen ht hf => exact runsOut_not_ub hub hf u
  | _ => simp [complaint]

theorem stuckAllBy_not_ub {c : Cmdline} {p : StyleParser} (hub : ∀ args u, p args ≠ .error (.ub u)) {os : List Opt} {other : List Str} {f : Fail}
    (h : StuckAllBy c p os other f) (u : UB) : f ≠ .ub u := by
  induction h with
  | one h => exact stuckBy_not_ub hub h u
  | head _ h => exact stuckBy_not_ub hub h u
  | tail _ _ ih => exact ih

theorem breaksBy_not_ub {c : Cmdline} {p : StyleParser} (hub : ∀ args u, p args ≠ .error (.ub u)) {args : List Str} {f : Fail}
    (h : BreaksBy c p args f) (u : UB) : f ≠ .ub u := by
  induction h with
  | fails h =>
    rintro rfl
    exact hub _ _ h
  | malformed => simp [complaint]
  | stuck _ _ h => exact stuckAllBy_not_ub hub h u
  | stuckOwn _ _ h => exact stuckAllBy_not_ub hub h u
  | plain _ _ _ _ ih => exact ih
  | option _ _ _ _ ih => exact ih
  | own _ _ _ _ ih => exact ih

end Cmdline

/-- **C142, success:** with a style parser that does what the comment in the code asks for, the parser accepts exactly the command lines of the grammar,
and returns exactly the options the grammar derives: at each place the style parser is asked first, about all tokens that are left; what it returns is
completed, gathered, numbered and named like what the library finds. -/
theorem C142_grammar (c : Cmdline) (p : StyleParser) (hs : c.styleParser = some p) (ho : Orderly p) (args : List Str)
    (hlen : ∀ os, ReadsBy c p args os → (os.filter (·.stringKey = [])).length < 2147483648) (res : List Opt) :
    c.run args = .ok res ↔ ∃ os os', ReadsBy c p args os ∧ GathersAll c os os' ∧ Labels c 0 os' res :=
  c.run_grammarBy p hs ho args hlen res

/-- **C142, failure:** and it fails exactly as the rules for refusal say. -/
theorem C142_refusal (c : Cmdline) (p : StyleParser) (hs : c.styleParser = some p) (ho : Orderly p) (args : List Str)
    (hlen : ∀ os, ReadsBy c p args os → (os.filter (·.stringKey = [])).length < 2147483648) (f : Fail) :
    c.run args = .error f ↔ RefusedBy c p args f :=
  c.run_refusedBy p hs ho args hlen f

/-- **C142, undefined behaviour:** if the style parser itself has none, undefined behaviour comes only from the second pass, and exactly if, after reading,
an option without tokens is reported under an ambiguous name, or an option with room for more values comes to an option without name that has not
one value and one token. -/
theorem C142_undefined_iff (c : Cmdline) (p : StyleParser) (hs : c.styleParser = some p) (ho : Orderly p) (hub : ∀ args u, p args ≠ .error (.ub u))
    (args : List Str) (hlen : ∀ os, ReadsBy c p args os → (os.filter (·.stringKey = [])).length < 2147483648) (u : UB) :
    c.run args = .error (.ub u) ↔ ∃ os, ReadsBy c p args os ∧ ClashesAll c os (.ub u) := by
  rw [c.run_refusedBy p hs ho args hlen]
  constructor
  · intro h
    generalize hf : Fail.ub u = f at h
    cases h with
    | reading h => exact absurd hf.symm (Cmdline.breaksBy_not_ub hub h u)
    | gathering h hc => exact ⟨_, h, hf ▸ hc⟩
    | labelling => cases hf
  · rintro ⟨os, h, hc⟩
    exact .gathering h hc

/-! ### Examples -/

open Ex.StyleParser

/-- The bound holds if it holds for one reading. -/
theorem Cmdline.readsBy_bound {c : Cmdline} {p : StyleParser} (hs : c.styleParser = some p) (ho : Orderly p) {args : List Str} {os : List Opt}
    (h : c.loop args.length args = .ok os) (hlen : (os.filter (·.stringKey = [])).length < 2147483648) :
    ∀ os, ReadsBy c p args os → (os.filter (·.stringKey = [])).length < 2147483648 := by
  intro os' h'
  have := c.passBy_loop p hs ho _ _ ((c.passBy_reads p hs ho _ _).2 h') _ (Nat.le_refl _)
  rw [h] at this
  cases this
  exact hlen

/-- `@r x`, derived: the style parser returns two options, the library finds a positional argument. -/
example : ({ desc := options, styleParser := some at_ } : Cmdline).run [Test.L "@r", ['x']] =
    .ok [{ stringKey := Test.L "foo", value := [['1']] }, { stringKey := Test.L "bar", value := [['1']], originalTokens := [Test.L "@r"] },
      { value := [['x']], originalTokens := [['x']], positionKey := 0 }] := by
  refine (C142_grammar { desc := options, styleParser := some at_ } at_ rfl at_orderly.1 _ (Cmdline.readsBy_bound rfl at_orderly.1 rfl (by decide)) _).2
    ⟨[{ stringKey := Test.L "foo", value := [['1']] }, { stringKey := Test.L "bar", value := [['1']], originalTokens := [Test.L "@r"] }] ++
      [{ value := [['x']], originalTokens := [['x']] }], [{ stringKey := Test.L "foo", value := [['1']] }, { stringKey := Test.L "bar", value := [['1']], originalTokens := [Test.L "@r"] }, { value := [['x']], originalTokens := [['x']] }], ?_, ?_, ?_⟩
  · refine .own (taken := []) (rest := [['x']]) rfl (by simp) (.cons (.known options[0] [] (by decide) (.inl rfl) rfl (by simp) (by decide))
      (.one (.known options[1] [] (by decide) (.inl rfl) rfl (by simp) (by decide)))) ?_
    exact .plain rfl (((Cmdline.front_plain _ _).1 rfl)) (by decide) .nil
  · exact .keep (by decide) (.inr ⟨options[0], .inl rfl, by unfold HasRoom; decide⟩)
      (.keep (by decide) (.inr ⟨options[1], .inl rfl, by unfold HasRoom; decide⟩) (.positional rfl .nil))
  · exact .named (by decide) (.named (by decide) (.positional [] rfl rfl .nil))

/-- `--bar @r --bar`: the second `--bar` has no value. The exception is about it, although the style parser is asked about the tokens before. -/
example : RefusedBy { desc := options, styleParser := some at_ } at_ [Test.L "--bar", Test.L "@r", Test.L "--bar"]
    (complaint { desc := options } (.cmdlineSyntax .missingParameter) (Test.L "bar") (Test.L "--bar")) := by
  refine (C142_refusal _ at_ rfl at_orderly.1 _ ?_ _).1 rfl
  intro os h
  have := ({ desc := options, styleParser := some at_ } : Cmdline).passBy_loop at_ rfl at_orderly.1 _ _
    ((Cmdline.passBy_reads _ at_ rfl at_orderly.1 _ _).2 h) 3 (by simp)
  cases this

/-- The violation of C142 about assertions, by the rule. -/
example : ∃ os, ReadsBy { desc := [Test.od "num,n" (Test.sem { Test.vvec with multitoken := true })], styleParser := some pair } pair
      [Test.L "-n", ['1'], ['+'], ['x']] os ∧
    ClashesAll { desc := [Test.od "num,n" (Test.sem { Test.vvec with multitoken := true })], styleParser := some pair } os (.ub .valueNotSingle) := by
  refine (C142_undefined_iff _ pair rfl pair_orderly.1 ?_ _ (Cmdline.readsBy_bound rfl pair_orderly.1 rfl (by decide)) _).1 rfl
  intro args u
  unfold pair
  split <;> simp

/-- A style parser that throws about a token that is to be a value: the exception names the option that needs it. -/
example : (({ desc := options, styleParser := some fun args => match args with
      | [['?']] => .error (errSyntax .unrecognizedLine (Test.L "z") (Test.L "?"))
      | args => .ok ([], args) } : Cmdline).run [Test.L "-f", ['?']]) =
    .error (complaint { desc := options } (.cmdlineSyntax .unrecognizedLine) (Test.L "foo") (Test.L "-f")) := by rfl

end PO
