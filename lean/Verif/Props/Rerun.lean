import Verif.Lemmas.Rerun
import Verif.Tests.Util
/-
C99: running a parser again.
-/
namespace PO
open Spec

/-! ### C99 -/

/-- The object does what the function of Model/Cmdline does. -/
theorem C99_outcome (c : Cmdline) (hs : c.styleParser = none) (args : List Str) : (c.runSt args).1 = c.run args := c.runSt_run hs args

/-- **C99** as one would like it: running a parser again gives the same outcome. -/
def Spec.C99_claim : Prop := ∀ (c : Cmdline) (args : List Str), c.styleParser = none → c.run (c.runSt args).2 = c.run args

/-- What happens instead: a parser that has succeeded finds nothing when run again. -/
theorem C99_used_up (c : Cmdline) (hs : c.styleParser = none) (args : List Str) (r : List Opt) (h : c.run args = .ok r) :
    (c.runSt args).2 = [] ∧ c.run (c.runSt args).2 = .ok [] := by
  have hl : (c.runSt args).2 = [] := by
    rw [← c.runSt_run hs] at h
    unfold Cmdline.runSt at h ⊢
    cases hx : c.loopSt (args.length + 1) args with
    | mk x l =>
      rw [hx] at h
      cases x with
      | error f => cases h
      | ok os => exact c.loopSt_ok _ _ _ _ hx
  refine ⟨hl, ?_⟩
  rw [hl]
  unfold Cmdline.run Cmdline.runFuel Cmdline.loop
  simp only [Cmdline.finalize, Cmdline.regroup, Cmdline.assignPositions, Cmdline.applyPositional]
  cases c.positional <;> rfl

/-- A parser that has failed goes on behind the option that was refused; only after an ambiguous name, or a missing value after `=`, it
may find that token again, and if that was a disguised long option, find it rewritten to one with two dashes. -/
theorem C99_left (c : Cmdline) (args : List Str) (f : Fail) (left : List Str) (h : c.runSt args = (.error f, left)) :
    ∃ pre a as, args = pre ++ a :: as ∧ LeftAt c f a as left := by
  unfold Cmdline.runSt at h
  cases hx : c.loopSt (args.length + 1) args with
  | mk x l =>
    rw [hx] at h
    cases x with
    | error g => cases h; exact c.loopSt_left _ _ (by omega) _ _ hx
    | ok os =>
      have hl := c.loopSt_ok _ _ _ _ hx
      subst hl
      cases args with
      | nil =>
        rw [Cmdline.loopSt] at hx
        cases hx
        simp only [Prod.mk.injEq] at h
        have := h.1
        simp only [Cmdline.finalize, Cmdline.regroup, Cmdline.assignPositions, Cmdline.applyPositional] at this
        cases hp : c.positional <;> rw [hp] at this <;> cases this
      | cons a as =>
        simp only [Prod.mk.injEq] at h
        rw [← h.2]
        exact ⟨(a :: as).dropLast, (a :: as).getLast (by simp), [], (List.dropLast_concat_getLast (by simp)).symm, .inl ⟨List.nil_suffix, fun _ => rfl⟩⟩

/-- So a parser that is run again after a failure makes progress, unless the exception is one of these two kinds. -/
theorem C99_progress (c : Cmdline) (args : List Str) (f : Fail) (left : List Str) (h : c.runSt args = (.error f, left)) (hf : ¬ Sticky f) :
    left <:+ args ∧ left.length < args.length := by
  obtain ⟨pre, a, as, rfl, ⟨hl, _⟩ | ⟨hs, _⟩⟩ := C99_left c args f left h
  · refine ⟨hl.trans ((List.suffix_cons _ _).trans (List.suffix_append _ _)), ?_⟩
    have := hl.length_le
    simp only [List.length_append, List.length_cons]
    omega
  · exact absurd hs hf

/-- After an unknown option, or a value for an option that takes none, exactly the tokens behind the refused one are left. -/
theorem C99_behind (c : Cmdline) (args : List Str) (f : Fail) (left : List Str) (h : c.runSt args = (.error f, left)) (hf : Standalone f) :
    ∃ pre a, args = pre ++ a :: left := by
  obtain ⟨pre, a, as, rfl, ⟨_, hl⟩ | ⟨⟨e, he, hs⟩, _⟩⟩ := C99_left c args f left h
  · exact ⟨pre, a, by rw [hl hf]⟩
  · exact absurd hf (Cmdline.not_plain_sticky ⟨e, he, hs⟩)

namespace Cmdline

/-- Does the first token start with two dashes? -/
def dashed : List Str → Bool
  | ('-' :: '-' :: _) :: _ => true
  | _ => false

def weight (s : List Str) : Nat := 2 * s.length - if dashed s then 1 else 0

theorem weight_le (s : List Str) : weight s ≤ 2 * s.length := by unfold weight; omega
theorem weight_cons (a : Str) (s : List Str) : 2 * s.length + 1 ≤ weight (a :: s) := by unfold weight; simp only [List.length_cons]; split <;> omega

theorem rerun_step (c : Cmdline) (args : List Str) : (c.runSt args).2 = args ∨ weight (c.runSt args).2 < weight args := by
  cases hx : c.runSt args with
  | mk x left =>
    cases x with
    | ok r =>
      have hl : left = [] := by
        unfold runSt at hx
        cases hy : c.loopSt (args.length + 1) args with
        | mk y l =>
          rw [hy] at hx
          cases y with
          | error f => cases hx
          | ok os =>
            have := c.loopSt_ok _ _ _ _ hy
            simp only [Prod.mk.injEq] at hx
            rw [← hx.2, this]
      subst hl
      cases args with
      | nil => exact .inl rfl
      | cons a as => right; have := weight_cons a as; show weight [] < _; have : weight [] = 0 := rfl; omega
    | error f =>
      obtain ⟨pre, a, as, rfl, ⟨hl, _⟩ | ⟨hs, rfl | ⟨a', ha, rfl⟩⟩⟩ := C99_left c args f left hx
      · right
        have h1 := hl.length_le
        have h2 := weight_le left
        cases pre with
        | nil => have := weight_cons a as; simp only [List.nil_append]; omega
        | cons b pre =>
          have := weight_cons b (pre ++ a :: as)
          simp only [List.length_append, List.length_cons] at this
          simp only [List.cons_append]; omega
      · cases pre with
        | nil => exact .inl rfl
        | cons b pre =>
          right
          have := weight_cons b (pre ++ a :: as)
          have h2 := weight_le (a :: as)
          simp only [List.length_append, List.length_cons] at this h2
          simp only [List.cons_append]; omega
      · right
        cases pre with
        | nil =>
          obtain ⟨he, lead, rest, rfl, hlead, rfl⟩ := ha
          have hd : dashed ((lead :: rest) :: as) = false := by
            rcases hlead with ⟨rfl, hr⟩ | rfl
            · cases rest with
              | nil => rfl
              | cons x r =>
                have hx : x ≠ '-' := by simpa using hr
                unfold dashed
                split
                · rename_i heq; simp only [List.cons.injEq] at heq; exact absurd heq.1.2.1 hx
                · rfl
            · unfold dashed
              split
              · rename_i heq; simp at heq
              · rfl
          simp only [List.nil_append, weight, hd, List.length_cons]
          simp [dashed]
          omega
        | cons b pre =>
          have := weight_cons b (pre ++ a :: as)
          have h2 := weight_le (a' :: as)
          simp only [List.length_append, List.length_cons] at this h2
          simp only [List.cons_append]; omega

end Cmdline

/-- A program that runs the same parser until it stops throwing either gets there or gets the same exception forever, after at most
twice as many runs as there are tokens. -/
theorem C99_settles (c : Cmdline) (args : List Str) (n : Nat) (hn : 2 * args.length ≤ n) : c.rerun args (n + 1) = c.rerun args n := by
  have key : ∀ n, c.rerun args (n + 1) = c.rerun args n ∨ Cmdline.weight (c.rerun args n) + n ≤ 2 * args.length := by
    intro n
    induction n with
    | zero => right; exact Cmdline.weight_le args
    | succ n ih =>
      rcases ih with h | h
      · left
        show (c.runSt (c.rerun args (n + 1))).2 = c.rerun args (n + 1)
        rw [h]
        exact h
      · rcases c.rerun_step (c.rerun args n) with h1 | h1
        · left
          show (c.runSt (c.runSt (c.rerun args n)).2).2 = (c.runSt (c.rerun args n)).2
          rw [h1, h1]
        · right
          show Cmdline.weight (c.runSt (c.rerun args n)).2 + (n + 1) ≤ _
          omega
  rcases key n with h | h
  · exact h
  · have h0 : Cmdline.weight (c.rerun args n) = 0 := by omega
    have h1 : c.rerun args n = [] := by
      cases hr : c.rerun args n with
      | nil => rfl
      | cons a as => rw [hr] at h0; have := Cmdline.weight_cons a as; omega
    show (c.runSt (c.rerun args n)).2 = c.rerun args n
    rw [h1]
    rfl

/-! Examples and the negation -/

def rerunExample : Cmdline := { desc := [Test.od "all,a" Test.unt, Test.od "name" (Test.sem Test.vstr)], additional := none }

/-- The second run after a success has lost everything; the one after an unknown option accepts the rest; the one after `--name=` fails
in the same way. -/
example : (rerunExample.run [Test.L "--all"]).toOption.map (·.map (·.stringKey)) = some [Test.L "all"] ∧
    rerunExample.run (rerunExample.rerun [Test.L "--all"] 1) = .ok [] ∧
    (rerunExample.run [Test.L "--bad", Test.L "--all"]).toOption = none ∧
    (rerunExample.run (rerunExample.rerun [Test.L "--bad", Test.L "--all"] 1)).toOption.map (·.map (·.stringKey)) = some [Test.L "all"] ∧
    rerunExample.rerun [Test.L "--all", Test.L "--name=", Test.L "x"] 1 = [Test.L "--name=", Test.L "x"] ∧
    rerunExample.rerun [Test.L "--all", Test.L "--name=", Test.L "x"] 2 = [Test.L "--name=", Test.L "x"] := by
  exact ⟨by rfl, by rfl, by rfl, by rfl, by rfl, by rfl⟩

/-- **C99** is false in the code. -/
theorem C99_negation : ¬ C99_claim := by
  intro h
  have := h rerunExample [Test.L "--all"] rfl
  have e1 : rerunExample.run (rerunExample.runSt [Test.L "--all"]).2 = .ok [] := by rfl
  have e2 : (rerunExample.run [Test.L "--all"]).toOption.map (·.length) = some 1 := by rfl
  rw [← this, e1] at e2
  simp [Except.toOption] at e2

/-- What does hold: a run that succeeds is followed by one that succeeds with nothing, so no exception comes late; and a run that fails
without taking a token away is followed by the same failure. -/
theorem C99_again_partial (c : Cmdline) (hs : c.styleParser = none) (args : List Str) :
    (∀ r, c.run args = .ok r → c.run (c.rerun args 1) = .ok []) ∧
    (∀ f, c.run args = .error f → c.rerun args 1 = args → ∀ n, c.run (c.rerun args n) = .error f) := by
  refine ⟨fun r h => (C99_used_up c hs args r h).2, ?_⟩
  intro f hf h n
  have : c.rerun args n = args := by
    induction n with
    | zero => rfl
    | succ n ih =>
      show (c.runSt (c.rerun args n)).2 = args
      rw [ih]
      exact h
  rw [this, hf]

/-- A command line that was refused can be accepted when the parser is run again, with nothing left out: the refused token is now a
positional argument that nobody has written. -/
theorem C99_accepted_later : ∃ (c : Cmdline) (tok : Str) (e : OptErr), c.styleParser = none ∧ c.run [tok] = .error (.opt e) ∧
    e.cls = .cmdlineSyntax .emptyAdjacentParameter ∧ c.rerun [tok] 1 = ['-' :: tok] ∧
    (c.run (c.rerun [tok] 1)).toOption.map (·.map fun o => (o.stringKey, o.value)) = some [([], ['-' :: tok])] :=
  ⟨{ desc := [Test.od "name" (Test.sem Test.vstr)], style := Style.allowLongDisguise ||| Style.longAllowAdjacent, additional := none },
    Test.L "-name=", _, rfl, rfl, rfl, by rfl, by rfl⟩

end PO
