import Verif.Lemmas.GrammarAll
import Verif.Props.Refusal
import Verif.Props.Raw
/-
C61, C63 and C21 for all option sets, also those with options that are reported without a name.
-/
namespace PO
open Spec

/-- **C61** for all option sets. -/
theorem C61_grammar_all (c : Cmdline) (hs : c.styleParser = none) (args : List Str) (hlen : textLength args < 2147483648) (res : List Opt) :
    c.run args = .ok res ↔ ∃ os os', Reads c args os ∧ GathersAll c os os' ∧ Labels c 0 os' res :=
  c.run_grammarAll hs args hlen res

/-- **C63** for all option sets. -/
theorem C63_refused_all (c : Cmdline) (hs : c.styleParser = none) (args : List Str) (hlen : textLength args < 2147483648) (f : Fail) :
    c.run args = .error f ↔ RefusedAll c args f :=
  c.run_refusedAll hs args hlen f

/-- Either a command line is derived by the grammar, or it is refused; never both, and not in two ways. -/
theorem C63_all_cases (c : Cmdline) (hs : c.styleParser = none) (args : List Str) (hlen : textLength args < 2147483648) :
    ((∃ os os' res, Reads c args os ∧ GathersAll c os os' ∧ Labels c 0 os' res) ∨ ∃ f, RefusedAll c args f) ∧
    (∀ f os os' res, RefusedAll c args f → ¬ (Reads c args os ∧ GathersAll c os os' ∧ Labels c 0 os' res)) ∧
    (∀ f f', RefusedAll c args f → RefusedAll c args f' → f = f') := by
  simp only [← C63_refused_all c hs args hlen]
  refine ⟨?_, ?_, ?_⟩
  · cases h : c.run args with
    | error f => exact .inr ⟨f, rfl⟩
    | ok res =>
      obtain ⟨os, os', h⟩ := (C61_grammar_all c hs args hlen res).1 h
      exact .inl ⟨os, os', res, h⟩
  · intro f os os' res h h'
    rw [(C61_grammar_all c hs args hlen res).2 ⟨os, os', h'⟩] at h
    cases h
  · intro f f' h h'
    rw [h] at h'
    cases h'
    rfl

/-- **C21, exactly**, for all option sets: parsing has undefined behaviour iff the tokens can all be read and what is read has, before
anything else at fault, a named option with an ambiguous name and no original tokens, or an option with room before one without name
that has not one value and one token. -/
theorem C21_undefined_all_iff (c : Cmdline) (hs : c.styleParser = none) (args : List Str) (hlen : textLength args < 2147483648) (u : UB) :
    c.run args = .error (.ub u) ↔ ∃ os, Reads c args os ∧ ClashesAll c os (.ub u) := by
  rw [C63_refused_all c hs args hlen]
  constructor
  · intro h
    generalize hf : Fail.ub u = f at h
    cases h with
    | reading => cases hf
    | labelling => cases hf
    | gathering h hc => exact ⟨_, h, hc⟩
  · rintro ⟨os, h, hc⟩
    exact .gathering h hc

theorem Spec.ClashesAll.cause {c : Cmdline} {os : List Opt} {f : Fail} (h : ClashesAll c os f) :
    ∀ u, f = .ub u → (∃ o ∈ os, o.stringKey ≠ [] ∧ o.originalTokens = [] ∧ u = .emptyOriginalTokens ∧ ∃ alts, Ambiguous c o.stringKey alts) ∨
      ∃ p ∈ os, Loose p ∧ ¬ OneEach p := by
  induction h with
  | here => intro u h; cases h
  | @undefined o os alts h ha ht => intro u hu; cases hu; exact .inl ⟨o, by simp, h, ht, rfl, alts, ha⟩
  | @assertion o ps p os d h hd hr hp hroom hl hs => intro u _; exact .inr ⟨p, by simp, hl, hs⟩
  | positional _ _ ih =>
    intro u hu
    rcases ih u hu with ⟨o, ho, h⟩ | ⟨o, ho, h⟩
    · exact .inl ⟨o, by simp [ho], h⟩
    · exact .inr ⟨o, by simp [ho], h⟩
  | keep _ _ _ ih =>
    intro u hu
    rcases ih u hu with ⟨o, ho, h⟩ | ⟨o, ho, h⟩
    · exact .inl ⟨o, by simp [ho], h⟩
    · exact .inr ⟨o, by simp [ho], h⟩
  | take _ _ _ _ _ _ _ ih =>
    intro u hu
    rcases ih u hu with ⟨o, ho, h⟩ | ⟨o, ho, h⟩
    · exact .inl ⟨o, by simp [ho], h⟩
    · exact .inr ⟨o, by simp [ho], h⟩

/-- **C21, part that holds,** for all option sets: no undefined behaviour if every named option read has original tokens, and every one without
name has one value and one token. Missing: the other command lines, see `C21_negation` and `C21_negation_empty`. -/
theorem C21_all_partial (c : Cmdline) (hs : c.styleParser = none) (args : List Str) (hlen : textLength args < 2147483648)
    (h : ∀ os, Reads c args os → ∀ o ∈ os, if o.stringKey = [] then o.value.length = 1 ∧ o.originalTokens.length = 1 else o.originalTokens ≠ [])
    (u : UB) : c.run args ≠ .error (.ub u) := by
  intro hu
  obtain ⟨os, hr, hc⟩ := (C21_undefined_all_iff c hs args hlen u).1 hu
  rcases hc.cause u rfl with ⟨o, ho, hk, ht, -⟩ | ⟨p, hp, hl, hs⟩
  · have := h os hr o ho
    rw [if_neg hk] at this
    exact this ht
  · have := h os hr p hp
    rw [if_pos hl.1] at this
    exact hs this

/-- **C91, the command line, exactly,** for all option sets: no assertion failing before. -/
theorem C91_run_out_of_range_all (c : Cmdline) (hm : ∀ d ∈ c.desc, d.semantic.maxTokens ≤ 4294967295) (hs : c.styleParser = none)
    (args : List Str) (hlen : textLength args < 2147483648) (k : Oob) :
    Raw.run c args = .error (.oob k) ↔ k = .index ∧ ∃ os, Reads c args os ∧ ClashesAll c os (.ub .emptyOriginalTokens) := by
  rw [Raw.run_eq c hm, Raw.of_oob]
  constructor
  · rintro ⟨u, h, ha⟩
    obtain ⟨os, hr, hc⟩ := (C21_undefined_all_iff c hs args hlen u).1 h
    clear h
    have hu : u = .emptyOriginalTokens := by
      clear hr
      generalize hf : Fail.ub u = f at hc
      induction hc with
      | here => cases hf
      | undefined => cases hf; rfl
      | assertion =>
        cases hf
        split at ha <;> simp [Raw.access] at ha
      | positional _ _ ih => exact ih hf
      | keep _ _ _ ih => exact ih hf
      | take _ _ _ _ _ _ _ ih => exact ih hf
    subst hu
    simp only [Raw.access, Option.some.injEq] at ha
    exact ⟨ha.symm, os, hr, hc⟩
  · rintro ⟨rfl, h⟩
    exact ⟨.emptyOriginalTokens, (C21_undefined_all_iff c hs args hlen _).2 h, rfl⟩

/-- An option with a declared name, `--num`, and one that is reported without one, declared `,foo`. -/
def namelessExample : Cmdline :=
  { desc := [Test.od "num" (Test.sem { Test.vvec with multitoken := true }), Test.od ",foo" Test.unt, Test.od ",bar" (Test.sem Test.vstr)] }

/-- `--foo` before `--num` is a positional argument without values. -/
example : ∃ os os', Reads namelessExample [Test.L "--foo", Test.L "--num", Test.L "1", Test.L "2"] os ∧ GathersAll namelessExample os os' ∧
    Labels namelessExample 0 os' [{ value := [], originalTokens := [Test.L "--foo"], positionKey := 0 },
      { stringKey := Test.L "num", value := [Test.L "1", Test.L "2"], originalTokens := [Test.L "--num", Test.L "1", Test.L "2"] }] :=
  (C61_grammar_all namelessExample rfl _ (by decide) _).1 rfl

/-- `--num` takes `--bar=7` like a positional argument. -/
example : ∃ os os', Reads namelessExample [Test.L "--num", Test.L "1", Test.L "--bar=7"] os ∧ GathersAll namelessExample os os' ∧
    Labels namelessExample 0 os' [{ stringKey := Test.L "num", value := [Test.L "1", Test.L "7"], originalTokens := [Test.L "--num", Test.L "1", Test.L "--bar=7"] }] :=
  (C61_grammar_all namelessExample rfl _ (by decide) _).1 rfl

/-- The assertion about the values. -/
example : RefusedAll namelessExample [Test.L "--num", Test.L "1", Test.L "--foo"] (.ub .valueNotSingle) :=
  (C63_refused_all namelessExample rfl _ (by decide) _).1 rfl

/-- The assertion about the tokens. -/
example : ∃ os, Reads namelessExample [Test.L "--num", Test.L "1", Test.L "--bar", Test.L "7"] os ∧
    ClashesAll namelessExample os (.ub .originalNotSingle) :=
  (C21_undefined_all_iff namelessExample rfl _ (by decide) _).1 rfl

end PO
