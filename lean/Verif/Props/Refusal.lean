import Verif.Lemmas.Refusal
import Verif.Props.Grammar
/-
C63: which command lines are refused, and how.
-/
namespace PO
open Spec

/-- **C63.** The parser throws an exception exactly if the rules give it: a token at fault, read from left to right
(`Breaks`), an ambiguous name that only shows once everything is read (`Clashes`), or too many positional arguments. -/
theorem C63_refused (c : Cmdline) (hs : c.styleParser = none) (hne : ∀ d ∈ c.desc, ∀ name, name ≠ [] → reportedKey d name ≠ [])
    (args : List Str) (hlen : args.length < 2147483648) (f : Fail) : c.run args = .error f ↔ Refused c args f :=
  c.run_refused hs hne args hlen f

/-- Either a command line is derived by the grammar, or it is refused; never both, and not in two ways. -/
theorem C63_accepted_or_refused (c : Cmdline) (hs : c.styleParser = none) (hne : ∀ d ∈ c.desc, ∀ name, name ≠ [] → reportedKey d name ≠ [])
    (args : List Str) (hlen : args.length < 2147483648) :
    ((∃ os os' res, Reads c args os ∧ Gathers c os os' ∧ Labels c 0 os' res) ∨ ∃ f, Refused c args f) ∧
    (∀ f os os' res, Refused c args f → ¬ (Reads c args os ∧ Gathers c os os' ∧ Labels c 0 os' res)) ∧
    (∀ f f', Refused c args f → Refused c args f' → f = f') := by
  simp only [← C63_refused c hs hne args hlen]
  refine ⟨?_, ?_, ?_⟩
  · cases h : c.run args with
    | error f => exact .inr ⟨f, rfl⟩
    | ok res =>
      obtain ⟨os, os', h⟩ := (C61_grammar c hs hne args hlen res).1 h
      exact .inl ⟨os, os', res, h⟩
  · intro f os os' res hf h
    rw [(C61_grammar c hs hne args hlen res).2 ⟨os, os', h⟩] at hf
    cases hf
  · intro f f' h h'
    rw [h] at h'
    cases h'
    rfl

theorem Cmdline.clashes_ub {c : Cmdline} {os : List Opt} {u : UB} (h : Clashes c os (.ub u)) :
    u = .emptyOriginalTokens ∧ ∃ o ∈ os, o.stringKey ≠ [] ∧ o.originalTokens = [] ∧ ∃ alts, Ambiguous c o.stringKey alts := by
  generalize hf : Fail.ub u = f at h
  induction h with
  | here => cases hf
  | undefined h ha ht =>
    cases hf
    exact ⟨rfl, _, by simp, h, ht, _, ha⟩
  | positional _ _ ih =>
    obtain ⟨h, o, ho, r⟩ := ih hf
    exact ⟨h, o, by simp [ho], r⟩
  | keep _ _ _ ih =>
    obtain ⟨h, o, ho, r⟩ := ih hf
    exact ⟨h, o, by simp [ho], r⟩
  | take _ _ _ _ _ _ _ ih =>
    obtain ⟨h, o, ho, r⟩ := ih hf
    exact ⟨h, o, by simp [ho], r⟩

/-- The only undefined behaviour: a switch from a group of short options, or an option made by an additional parser, whose
reported name is ambiguous. -/
theorem C63_undefined (c : Cmdline) (hs : c.styleParser = none) (hne : ∀ d ∈ c.desc, ∀ name, name ≠ [] → reportedKey d name ≠ [])
    (args : List Str) (hlen : args.length < 2147483648) (u : UB) (h : c.run args = .error (.ub u)) :
    u = .emptyOriginalTokens ∧ ∃ os, Reads c args os ∧ Clashes c os (.ub u) ∧
      ∃ o ∈ os, o.stringKey ≠ [] ∧ o.originalTokens = [] ∧ ∃ alts, Ambiguous c o.stringKey alts := by
  have h := (C63_refused c hs hne args hlen _).1 h
  generalize hf : Fail.ub u = f at h
  cases h with
  | reading => cases hf
  | labelling => cases hf
  | gathering hr hc =>
    cases hf
    obtain ⟨h1, h2⟩ := Cmdline.clashes_ub hc
    exact ⟨h1, _, hr, hc, h2⟩

/-- **C21, exactly** (for option sets without empty canonical names): parsing has undefined behaviour iff the tokens can all be read
and among the options read the first one with an ambiguous name has no original tokens. -/
theorem C21_undefined_iff (c : Cmdline) (hs : c.styleParser = none) (hne : ∀ d ∈ c.desc, ∀ name, name ≠ [] → reportedKey d name ≠ [])
    (args : List Str) (hlen : args.length < 2147483648) (u : UB) :
    c.run args = .error (.ub u) ↔ u = .emptyOriginalTokens ∧ ∃ os, Reads c args os ∧ Clashes c os (.ub u) := by
  constructor
  · intro h
    obtain ⟨h1, os, h2, h3, -⟩ := C63_undefined c hs hne args hlen u h
    exact ⟨h1, os, h2, h3⟩
  · rintro ⟨rfl, os, h2, h3⟩
    exact (C63_refused c hs hne args hlen _).2 (.gathering h2 h3)

/-- There is no undefined behaviour if every named option that is read has original tokens, whether names are ambiguous or not. -/
theorem C21_tokens_partial (c : Cmdline) (hs : c.styleParser = none) (hne : ∀ d ∈ c.desc, ∀ name, name ≠ [] → reportedKey d name ≠ [])
    (args : List Str) (hlen : args.length < 2147483648) (h : ∀ os, Reads c args os → ∀ o ∈ os, o.stringKey ≠ [] → o.originalTokens ≠ []) (u : UB) :
    c.run args ≠ .error (.ub u) := by
  intro hu
  obtain ⟨-, os, h2, -, o, ho, hk, ht, -⟩ := C63_undefined c hs hne args hlen u hu
  exact h os h2 o ho hk ht

theorem refusal_keys : ∀ d ∈ grammarExample.desc, ∀ name, name ≠ [] → reportedKey d name ≠ [] :=
  keys_nonempty _ (by
    intro d hd
    simp only [grammarExample, List.mem_cons, List.not_mem_nil, or_false] at hd
    rcases hd with rfl | rfl | rfl <;> decide)

/-- A value is missing at the end. -/
example : Refused grammarExample [Test.L "x", Test.L "--out"]
    (complaint grammarExample (.cmdlineSyntax .missingParameter) (Test.L "out") (Test.L "--out")) :=
  (C63_refused _ rfl refusal_keys _ (by decide) _).1 rfl

/-- The same, derived by hand: `x` is plain; `--out` spells an option, which needs one value and finds none. -/
example : Breaks grammarExample [Test.L "x", Test.L "--out"] (.cmdlineSyntax .missingParameter) (Test.L "out") (Test.L "--out") := by
  refine .plain ((grammarExample.front_plain _).1 rfl) (by decide) (.stuck (items := [⟨Test.L "out", [], [Test.L "--out"]⟩]) ?_ (.one ?_))
  · exact .long _ (by intro f h; cases h) (by unfold Enabled; decide) rfl (by decide) (by decide)
  · exact .missing (i := ⟨Test.L "out", [], [Test.L "--out"]⟩) (Test.od "out,o" (Test.sem Test.vstr)) (by decide) (.inl rfl) (by decide)

/-- An unknown option is reported with its token. -/
example : Refused grammarExample [Test.L "-v", Test.L "--fast", Test.L "--", Test.L "--out="]
    (complaint grammarExample .unknownOption (Test.L "fast") (Test.L "--fast")) :=
  (C63_refused _ rfl refusal_keys _ (by decide) _).1 rfl

end PO
