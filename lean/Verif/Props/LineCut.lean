import Verif.Props.Prefixes
import Verif.Props.StoreCut
/-
C163: command lines that are cut off, for options that take a fixed number of values.
-/
namespace PO
open Spec Prefixes

namespace LineCut
variable {c : Cmdline}

theorem gathers_fixed (hf : ∀ d ∈ c.desc, d.semantic.maxTokens ≤ d.semantic.minTokens) {os os' : List Opt} (h : GathersAll c os os') : os' = os := by
  induction h with
  | nil => rfl
  | positional _ _ ih => rw [ih]
  | keep _ _ _ ih => rw [ih]
  | take d _ hd hr =>
    have := hf d hd.mem
    have := hr.1
    omega

theorem gathers_some (hf : ∀ d ∈ c.desc, d.semantic.maxTokens ≤ d.semantic.minTokens) {os os' : List Opt} (h : GathersAll c os os') (xs ys : List Opt)
    (e : os = xs ++ ys) : GathersAll c xs xs := by
  obtain ⟨xs', h1, -⟩ := gathers_prefix h xs ys e
  have := gathers_fixed hf h1
  rwa [this] at h1

theorem labels_some {n : Nat} {xs ys r : List Opt} (h : Labels c n (xs ++ ys) r) : ∃ r1 r2, r = r1 ++ r2 ∧ Labels c n xs r1 := by
  induction xs generalizing n r with
  | nil => exact ⟨[], r, rfl, .nil⟩
  | cons x xs ih =>
    cases h with
    | named h t =>
      obtain ⟨r1, r2, rfl, h1⟩ := ih t
      exact ⟨_, r2, rfl, .named h h1⟩
    | positional name h hn t =>
      obtain ⟨r1, r2, rfl, h1⟩ := ih t
      exact ⟨_, r2, rfl, .positional name h hn h1⟩

theorem run_some (hs : c.styleParser = none) (hf : ∀ d ∈ c.desc, d.semantic.maxTokens ≤ d.semantic.minTokens) {a : List Str}
    (hlen : textLength a < 2147483648) {xs ys os' r : List Opt} (h : Reads c a xs) (hg : GathersAll c (xs ++ ys) os') (hl : Labels c 0 os' r) :
    ∃ r1 r2, c.run a = .ok r1 ∧ r = r1 ++ r2 := by
  have h1 := gathers_some hf hg xs ys rfl
  have := gathers_fixed hf hg
  subst this
  obtain ⟨r1, r2, rfl, h3⟩ := labels_some hl
  exact ⟨r1, r2, (C61_grammar_all c hs a hlen r1).2 ⟨xs, xs, h, h1, h3⟩, rfl⟩

theorem parse_ok_iff {args : List Str} {p : Parsed} : c.parse args = .ok p ↔ ∃ r, c.run args = .ok r ∧ p = { desc := c.desc, options := r, pre := c.canonicalPrefix } := by
  unfold Cmdline.parse
  cases c.run args with
  | error f => simp
  | ok r =>
    simp only [Except.ok.injEq]
    exact ⟨fun h => ⟨r, rfl, h.symm⟩, fun ⟨_, e, h⟩ => by rw [h, e]⟩

end LineCut
open LineCut StoreCut

/-- **C163.** If every option takes a fixed number of values, the beginning of an accepted command line is accepted, with exactly the first of the options; or only values at
its end are missing. -/
theorem C163_prefix (c : Cmdline) (hs : c.styleParser = none) (hf : ∀ d ∈ c.desc, d.semantic.maxTokens ≤ d.semantic.minTokens) (a b : List Str)
    (hlen : textLength (a ++ b) < 2147483648) (p : Parsed) (h : c.parse (a ++ b) = .ok p) :
    (∃ pa os, c.parse a = .ok pa ∧ p = { pa with options := pa.options ++ os }) ∨
    (∃ f, c.parse a = .error f ∧ MissingValue c f) ∧ ∃ b1 b2 pa os, b = b1 ++ b2 ∧ b1 ≠ [] ∧ c.parse (a ++ b1) = .ok pa ∧ p = { pa with options := pa.options ++ os } := by
  obtain ⟨r, h0, rfl⟩ := parse_ok_iff.1 h
  obtain ⟨os, os', h1, h2, h3⟩ := (C61_grammar_all c hs _ hlen r).1 h0
  have hla : textLength a < 2147483648 := by rw [textLength_append] at hlen; omega
  rcases reads_prefix h1 a b rfl with ⟨xs, ys, rfl, hr⟩ | ⟨⟨n, t, hb⟩, b1, b2, xs, ys, rfl, hb1, rfl, hr⟩
  · obtain ⟨r1, r2, h4, rfl⟩ := run_some hs hf hla hr h2 h3
    exact .inl ⟨_, r2, parse_ok_iff.2 ⟨r1, h4, rfl⟩, rfl⟩
  · have hx := (C63_refused_all c hs a hla _).2 (.reading hb)
    refine .inr ⟨⟨_, ?_, n, t, rfl⟩, ?_⟩
    · unfold Cmdline.parse
      rw [hx]
    · obtain ⟨r1, r2, h4, rfl⟩ := run_some hs hf (by rw [← List.append_assoc, textLength_append] at hlen; omega) hr h2 h3
      exact ⟨b1, b2, _, r2, rfl, hb1, parse_ok_iff.2 ⟨r1, h4, rfl⟩, rfl⟩

/-- If the command line can also be stored, so can what is accepted of it, and a name that the rest does not set has the same record. -/
theorem C163_stored (c : Cmdline) (hs : c.styleParser = none) (hf : ∀ d ∈ c.desc, d.semantic.maxTokens ≤ d.semantic.minTokens) (a b : List Str)
    (hlen : textLength (a ++ b) < 2147483648) (p : Parsed) (h : c.parse (a ++ b) = .ok p) (xm m : VarMap) (utf8 : Bool) (hm : store p xm utf8 = (m, none)) :
    (∃ pa os m', c.parse a = .ok pa ∧ p.options = pa.options ++ os ∧ store pa xm utf8 = (m', none) ∧ ∀ name, ¬ Mentions os name → m'.map.get? name = m.map.get? name) ∨
    ∃ f, c.parse a = .error f ∧ MissingValue c f := by
  rcases C163_prefix c hs hf a b hlen p h with ⟨pa, os, h1, rfl⟩ | ⟨h1, -⟩
  · obtain ⟨m', h2, h3, -⟩ := C162_stored { pa with options := pa.options ++ os } pa.options os rfl xm m utf8 hm
    exact .inl ⟨pa, os, m', h1, rfl, h2, h3⟩
  · exact .inr h1

/-- What the beginning of a command line makes `store` complain about, it complains about however the command line goes on, as long as that is accepted. -/
theorem C163_failed (c : Cmdline) (hs : c.styleParser = none) (hf : ∀ d ∈ c.desc, d.semantic.maxTokens ≤ d.semantic.minTokens) (a b : List Str)
    (hlen : textLength (a ++ b) < 2147483648) (p pa : Parsed) (h : c.parse a = .ok pa) (h' : c.parse (a ++ b) = .ok p) (xm m : VarMap) (utf8 : Bool) (f : Fail)
    (hm : store pa xm utf8 = (m, some f)) : store p xm utf8 = (m, some f) := by
  rcases C163_prefix c hs hf a b hlen p h' with ⟨pa', os, h1, rfl⟩ | ⟨⟨g, h1, -⟩, -⟩
  · rw [h] at h1; cases h1
    exact C162_failed { pa with options := pa.options ++ os } pa.options os rfl xm m utf8 f hm
  · rw [h] at h1; cases h1

/-- The condition is needed: an option that takes any number of values can have fewer of them. -/
theorem C163_needed : ∃ (c : Cmdline) (a b : List Str) (p pa : Parsed), c.styleParser = none ∧ c.parse (a ++ b) = .ok p ∧ c.parse a = .ok pa ∧
    ¬ ∃ os, p.options = pa.options ++ os := by
  refine ⟨{ desc := [⟨[], [str% "x"], [], ({ type := .vector .str, multitoken := true } : TypedValue).toSemantic Test.env⟩] },
    [str% "--x", str% "1"], [str% "2"], _, _, rfl, rfl, rfl, ?_⟩
  rintro ⟨os, h⟩
  exact absurd (show some [str% "1", str% "2"] = some [str% "1"] from congrArg (fun l => l.head?.map (·.value)) h) (by decide)

/-! ### Examples -/

/-- `--level` with a value, and the switch `--verbose`. -/
def Ex.cutLine : Cmdline where
  desc := [⟨[], [str% "level"], [], ({ type := .scalar .str } : TypedValue).toSemantic Test.env⟩,
    ⟨[], [str% "verbose"], [], (boolSwitch none).toSemantic Test.env⟩]

theorem Ex.cutLine_fixed : ∀ d ∈ Ex.cutLine.desc, d.semantic.maxTokens ≤ d.semantic.minTokens := by decide

example : ∃ pa m', Ex.cutLine.parse [str% "--level", str% "1"] = .ok pa ∧ store pa {} = (m', none) := by
  rcases C163_stored Ex.cutLine rfl Ex.cutLine_fixed [str% "--level", str% "1"] [str% "--verbose"] (by decide) _ rfl {} _ false rfl with
    ⟨pa, os, m', h1, -, h2, -⟩ | ⟨f, h, -⟩
  · exact ⟨pa, m', h1, h2⟩
  · have : (Ex.cutLine.parse [str% "--level", str% "1"]).toOption.isSome = true := by decide
    rw [h] at this
    cases this

/-- Between the option and its value. -/
example : ∃ f, Ex.cutLine.parse [str% "--level"] = .error f ∧ MissingValue Ex.cutLine f := by
  rcases C163_prefix Ex.cutLine rfl Ex.cutLine_fixed [str% "--level"] [str% "1", str% "--verbose"] (by decide) _ rfl with ⟨pa, os, h, -⟩ | ⟨h, -⟩
  · have : (Ex.cutLine.parse [str% "--level"]).toOption.isSome = false := by decide
    rw [h] at this
    cases this
  · exact h

end PO
