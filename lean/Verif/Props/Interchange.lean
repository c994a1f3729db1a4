import Verif.Spec.Interchange
import Verif.Props.Spelling
/-
C98: the names of an option are interchangeable.
-/
namespace PO
open Spec

namespace Cmdline

theorem front_spelt (c : Cmdline) (tok n : Str) (vs : List Str) (h : Spelt c tok n vs) (hu : Unclaimed c tok) :
    n ≠ [] ∧ c.front tok = .ok [{ stringKey := n, value := vs, originalTokens := [tok] }] := by
  cases h with
  | long _ hl ht h0 hn => subst ht; exact ⟨h0, c.front_long_name hl n hn h0 hu⟩
  | longEq _ v hl ht h0 hn hv => subst ht; exact ⟨h0, c.front_long_eq hl n v hn hv hu⟩
  | short a hs hd ht ha d hds =>
    subst ht
    refine ⟨by simp, ?_⟩
    rw [c.front_short hs hd a [] ha hu, Cmdline.shortLoop, c.findShort_denotes a d hds]
  | shortEq a v hs hd ht ha hv d hds hm =>
    subst ht
    refine ⟨by simp, ?_⟩
    rw [c.front_short hs hd a v ha hu]
    cases v with
    | nil => exact absurd rfl hv
    | cons b v =>
      rw [Cmdline.shortLoop, c.findShort_denotes a d hds]
      simp only
      rw [if_neg]
      unfold Cmdline.takesNoValue
      simp [hm]

/-- Finishing depends on the name only through the option it stands for and the name that is reported. -/
theorem finish_named (c : Cmdline) (ps : List StyleParser) (o o' : Opt) (d : OptionDesc) (other : List Str) (h0 : o.stringKey ≠ []) (h0' : o'.stringKey ≠ [])
    (hl : c.lookup o.stringKey = .ok (some d)) (hl' : c.lookup o'.stringKey = .ok (some d)) (hk : reportedKey d o.stringKey ≠ [])
    (hkk : reportedKey d o.stringKey = reportedKey d o'.stringKey) (hs : strip { o with stringKey := [] } = strip { o' with stringKey := [] }) :
    Same (fun a b => Like a.1 b.1 ∧ a.2 = b.2) (c.finishOption ps o other) (c.finishOption ps o' other) := by
  have hv : o.value = o'.value := congrArg (·.value) hs
  unfold finishOption
  rw [if_neg h0, if_neg h0', hl, hl']
  simp only
  rw [← hv]
  by_cases hm : o.value.length + other.length ≥ d.semantic.minTokens
  · rw [if_pos hm, if_pos hm]
    by_cases hx : o.value ≠ [] ∧ d.semantic.maxTokens = 0
    · rw [if_pos hx, if_pos hx]; trivial
    · rw [if_neg hx, if_neg hx]
      have hkey : d.key o.stringKey ≠ [] := by rw [key_eq]; exact hk
      refine c.grab_like ps _ _ _ _ _ _ ⟨?_, .inr hkey⟩ hkey
      simp only [strip, Opt.mk.injEq] at hs ⊢
      simp [hs, key_eq, hkk]
  · rw [if_neg hm, if_neg hm]; trivial

theorem first_finish (c : Cmdline) (hs : c.styleParser = none) (tok tok' : Str) (o o' : Opt) (rest : List Str)
    (f : c.front tok = .ok [o]) (f' : c.front tok' = .ok [o'])
    (h : Same (fun a b => Like a.1 b.1 ∧ a.2 = b.2) (c.finishOption c.parsers o rest) (c.finishOption c.parsers o' rest)) :
    Same Likes (c.first (tok :: rest)) (c.first (tok' :: rest)) := by
  rw [c.first_cons hs _ _ _ _ f, c.first_cons hs _ _ _ _ f', finishAll, finishAll]
  revert h
  generalize c.finishOption c.parsers o rest = r
  generalize c.finishOption c.parsers o' rest = r'
  intro h
  cases r with
  | error e => cases r' with
    | error e' => trivial
    | ok b => exact h.elim
  | ok a => cases r' with
    | error e' => exact h.elim
    | ok b =>
      obtain ⟨a1, a2⟩ := a
      obtain ⟨b1, b2⟩ := b
      obtain ⟨h1, rfl⟩ := h
      simp only
      generalize c.first a2 = q
      cases q with
      | error e => trivial
      | ok more => exact .cons h1 (Likes.refl _)

theorem lookup_case (c : Cmdline) (n n' : Str) (hf : fold (active c.style Style.longCaseInsensitive) n = fold (active c.style Style.longCaseInsensitive) n') :
    (∀ r, c.lookup n = .ok r ↔ c.lookup n' = .ok r) := by
  have hE : ∀ si, exacts c.desc n (active c.style Style.longCaseInsensitive) si = exacts c.desc n' (active c.style Style.longCaseInsensitive) si := by
    intro si; unfold exacts; congr 1; funext d
    simp only [Exact, hf]
  have hA : ∀ ap si, approximates c.desc n ap (active c.style Style.longCaseInsensitive) si = approximates c.desc n' ap (active c.style Style.longCaseInsensitive) si := by
    intro ap si; unfold approximates; congr 1; funext d
    rw [decide_eq_decide]
    simp only [Exact, Approximate, hf]
  intro r
  unfold lookup
  rw [C01_lookup_decision, C01_lookup_decision, hE, hA]
  rcases exacts c.desc n' _ _ with _ | ⟨d, _ | ⟨d', ds⟩⟩
  · rcases approximates c.desc n' _ _ _ with _ | ⟨a, _ | ⟨a', as⟩⟩ <;> simp
  · simp
  · simp

end Cmdline

/-! ### C98 -/

/-- **C98.** Two tokens that give the same declared option under different names -- its long names, abbreviations of them, its short
name -- and with the same value in the token, if any, can be exchanged for each other anywhere on a command line: it is accepted or
refused as before, and means the same. Whatever number of values the option takes. -/
theorem C98_interchangeable (c : Cmdline) (hs : c.styleParser = none) (pre rest : List Str) (r : List Opt) (hpre : c.run pre = .ok r)
    (hdash : ['-', '-'] ∉ pre) (tok tok' n n' : Str) (vs : List Str) (d : OptionDesc) (h : Spelt c tok n vs) (h' : Spelt c tok' n' vs)
    (hd : Denotes c n d) (hd' : Denotes c n' d) (hk : reportedKey d n = reportedKey d n') (hne : reportedKey d n ≠ [])
    (hu : Unclaimed c tok) (hu' : Unclaimed c tok') :
    meaning (c.run (pre ++ tok :: rest)) = meaning (c.run (pre ++ tok' :: rest)) := by
  obtain ⟨os, hp, _⟩ := (c.run_pass hs pre r).1 hpre
  obtain ⟨h0, hf⟩ := c.front_spelt tok n vs h hu
  obtain ⟨h0', hf'⟩ := c.front_spelt tok' n' vs h' hu'
  refine Cmdline.meaning_eq (c.run_like hs pre _ _ os hp hdash (c.first_finish hs _ _ _ _ rest hf hf' ?_))
  exact c.finish_named _ _ _ d rest h0 h0' (Cmdline.lookup_denotes.2 hd) (Cmdline.lookup_denotes.2 hd') hne hk rfl

/-- With case-insensitive long names, letter case of a long name does not matter, wherever it is on the command line; in particular it
is refused in one case if it is refused in another. -/
theorem C98_letter_case (c : Cmdline) (hs : c.styleParser = none) (hi : Enabled c Style.longCaseInsensitive)
    (hun : c.allowUnregistered = false) (hfam : NoFamilies c.desc) (hne : ∀ d ∈ c.desc, ∀ name, name ≠ [] → reportedKey d name ≠ [])
    (pre rest : List Str) (r : List Opt) (hpre : c.run pre = .ok r) (hdash : ['-', '-'] ∉ pre)
    (tok tok' n n' : Str) (vs : List Str) (h : Spelt c tok n vs) (h' : Spelt c tok' n' vs)
    (hc : n.map Char.toLower = n'.map Char.toLower) (hu : Unclaimed c tok) (hu' : Unclaimed c tok') :
    meaning (c.run (pre ++ tok :: rest)) = meaning (c.run (pre ++ tok' :: rest)) := by
  obtain ⟨os, hp, _⟩ := (c.run_pass hs pre r).1 hpre
  obtain ⟨h0, hf⟩ := c.front_spelt tok n vs h hu
  obtain ⟨h0', hf'⟩ := c.front_spelt tok' n' vs h' hu'
  have hlk := c.lookup_case n n' (by rw [show active c.style Style.longCaseInsensitive = true from hi]; exact hc)
  refine Cmdline.meaning_eq (c.run_like hs pre _ _ os hp hdash (c.first_finish hs _ _ _ _ rest hf hf' ?_))
  cases hn : c.lookup n with
  | error e =>
    cases hn' : c.lookup n' with
    | error e' =>
      unfold Cmdline.finishOption
      rw [if_neg h0, if_neg h0']
      simp only
      rw [hn, hn']
      trivial
    | ok q => rw [(hlk q).2 hn'] at hn; cases hn
  | ok q =>
    have hn' := (hlk q).1 hn
    cases q with
    | none =>
      unfold Cmdline.finishOption
      rw [if_neg h0, if_neg h0']
      simp only
      rw [hn, hn', hun]
      trivial
    | some d =>
      have hm := (Cmdline.lookup_denotes.1 hn).mem
      refine c.finish_named _ _ _ d rest h0 h0' hn hn' (hne d hm n h0) ?_ rfl
      unfold reportedKey
      cases hh : d.longNames.head? with
      | none => rfl
      | some m => simp only; rw [if_neg (hfam d hm m hh), if_neg (hfam d hm m hh)]

def interExample : Cmdline :=
  { desc := [Test.od "number,N,n" (Test.sem Test.vstr), Test.od "all,a" Test.unt],
    style := Style.unixStyle ||| Style.longCaseInsensitive, additional := none }

/-- The four ways to write the number; and the other names. -/
example : (∀ p ∈ [(Test.L "--number=5", Test.L "number"), (Test.L "--num=5", Test.L "num"), (Test.L "--NUMBER=5", Test.L "NUMBER"), (Test.L "-n5", Test.L "-n")],
      Spelt interExample p.1 p.2 [['5']] ∧ Denotes interExample p.2 (Test.od "number,N,n" (Test.sem Test.vstr)) ∧
      reportedKey (Test.od "number,N,n" (Test.sem Test.vstr)) p.2 = Test.L "number" ∧ Unclaimed interExample p.1 ∧
      meaning (interExample.run [['x'], p.1, Test.L "--all"]) =
        some [([], [['x']], 0, false, false), (Test.L "number", [['5']], -1, false, true), (Test.L "all", [], -1, false, true)]) ∧
    NoFamilies interExample.desc := by
  refine ⟨?_, by unfold NoFamilies; decide⟩
  intro p hp
  simp only [List.mem_cons, List.not_mem_nil, or_false] at hp
  rcases hp with rfl | rfl | rfl | rfl
  · exact ⟨.longEq _ _ (by unfold Enabled; decide) rfl (by decide) (by decide) (by decide), Cmdline.lookup_denotes.1 rfl, by decide, (fun f h => by cases h), by rfl⟩
  · exact ⟨.longEq _ _ (by unfold Enabled; decide) rfl (by decide) (by decide) (by decide), Cmdline.lookup_denotes.1 rfl, by decide, (fun f h => by cases h), by rfl⟩
  · exact ⟨.longEq _ _ (by unfold Enabled; decide) rfl (by decide) (by decide) (by decide), Cmdline.lookup_denotes.1 rfl, by decide, (fun f h => by cases h), by rfl⟩
  · exact ⟨.shortEq _ _ (by unfold Enabled; decide) (by unfold Enabled; decide) rfl (by decide) (by decide) (Test.od "number,N,n" (Test.sem Test.vstr)) rfl (by decide),
      Cmdline.lookup_denotes.1 rfl, by decide, (fun f h => by cases h), by rfl⟩

/-- For members of a family, letter case is kept, so it does matter although the names are matched without it. -/
theorem C98_family_case : ∃ (c : Cmdline) (n n' : Str), c.styleParser = none ∧ Enabled c Style.longCaseInsensitive ∧ c.allowUnregistered = false ∧
    n.map Char.toLower = n'.map Char.toLower ∧ Spelt c ('-' :: '-' :: n ++ str% "=1") n [['1']] ∧ Spelt c ('-' :: '-' :: n' ++ str% "=1") n' [['1']] ∧
    (∃ d, Denotes c n d ∧ Denotes c n' d) ∧
    meaning (c.run ['-' :: '-' :: n ++ str% "=1"]) = some [(n, [['1']], -1, false, true)] ∧
    meaning (c.run ['-' :: '-' :: n' ++ str% "=1"]) = some [(n', [['1']], -1, false, true)] ∧ n ≠ n' := by
  refine ⟨{ desc := [Test.od "foo*" (Test.sem Test.vstr)], style := Style.unixStyle ||| Style.longCaseInsensitive, additional := none },
    str% "foox", str% "FooX", rfl, by unfold Enabled; decide, rfl, by decide, ?_, ?_, ⟨Test.od "foo*" (Test.sem Test.vstr), ?_, ?_⟩, by rfl, by rfl, by decide⟩
  · exact .longEq _ _ (by unfold Enabled; decide) rfl (by decide) (by decide) (by decide)
  · exact .longEq _ _ (by unfold Enabled; decide) rfl (by decide) (by decide) (by decide)
  · exact Cmdline.lookup_denotes.1 rfl
  · exact Cmdline.lookup_denotes.1 rfl

end PO
