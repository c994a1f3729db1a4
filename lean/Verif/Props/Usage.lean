import Verif.Spec.Usage
import Verif.Props.Refusal
import Verif.Props.Format
import Verif.Props.HelpText
/-
C94: what the help says about an option is how the command line is read.
-/
namespace PO
open Spec

section
variable (c : Cmdline) (hs : c.styleParser = none) (hne : ∀ d ∈ c.desc, ∀ name, name ≠ [] → reportedKey d name ≠ [])
include hs hne

/-- One option with the values it needs. -/
theorem one_ok {tok name : Str} {vals taken : List Str} (hlen : (tok :: taken).length < 2147483648) {d : OptionDesc} (h : Spells c tok [⟨name, vals, [tok]⟩]) (h0 : name ≠ [])
    (hd : Denotes c name d) (hk : Denotes c (reportedKey d name) d) (hk0 : reportedKey d name ≠ [])
    (ht : taken.length = d.semantic.minTokens - vals.length) (htake : ∀ v ∈ taken, Takeable c v) (hx : d.semantic.maxTokens = 0 → vals = []) :
    ReadAs c (tok :: taken) (reportedKey d name) (vals ++ taken) := by
  have hr : Reads c (tok :: taken ++ []) ([{ stringKey := reportedKey d name, value := vals ++ taken, originalTokens := [tok] ++ taken }] ++ []) :=
    .option h (.one (.known d taken h0 hd ht htake hx)) .nil
  rw [List.append_nil, List.append_nil] at hr
  refine ⟨{ stringKey := reportedKey d name, value := vals ++ taken, originalTokens := [tok] ++ taken,
            caseInsensitive := caseFlag c (reportedKey d name) }, (C61_grammar c hs hne _ hlen _).2 ⟨_,
    [{ stringKey := reportedKey d name, value := vals ++ taken, originalTokens := [tok] ++ taken }], hr, ?_, .named hk0 .nil⟩, rfl, rfl, rfl⟩
  by_cases hroom : HasRoom d { stringKey := reportedKey d name, value := vals ++ taken, originalTokens := [tok] ++ taken }
  · have := Gathers.take (c := c) (ps := []) d hk0 hk hroom (by simp) (.inr ⟨by simpa using hroom.2, by simp⟩) .nil
    simpa using this
  · exact .keep hk0 (.inr ⟨d, hk, hroom⟩) .nil

/-- One option that lacks a value. -/
theorem one_missing {tok name : Str} {d : OptionDesc} (h : Spells c tok [⟨name, [], [tok]⟩]) (h0 : name ≠ [])
    (hd : Denotes c name d) (hm : 0 < d.semantic.minTokens) : RefusedAs c [tok] (.cmdlineSyntax .missingParameter) tok := by
  refine ⟨_, (C63_refused c hs hne [tok] (by simp) _).2
    (.reading (.stuck h (.one (.missing d h0 hd (by simpa using hm))))), rfl, ?_⟩
  simp [Item.token]

/-- A switch with a value. -/
theorem one_extra {tok name v : Str} {d : OptionDesc} (h : Spells c tok [⟨name, [v], [tok]⟩]) (h0 : name ≠ [])
    (hd : Denotes c name d) (hm : d.semantic.minTokens ≤ 1) (hx : d.semantic.maxTokens = 0) :
    RefusedAs c [tok] (.cmdlineSyntax .extraParameter) tok := by
  refine ⟨_, (C63_refused c hs hne [tok] (by simp) _).2
    (.reading (.stuck h (.one (.extra d h0 hd (by simpa using hm) (by simp) hx)))), rfl, ?_⟩
  simp [Item.token]

end

/-- What is shown tells how many values are needed. -/
structure Tells (d : OptionDesc) : Prop where
  none : d.formatParameter = [] → d.semantic.minTokens = 0 ∧ d.semantic.maxTokens = 0
  optional : str% "[=" <+: d.formatParameter → d.semantic.minTokens = 0 ∧ 1 ≤ d.semantic.maxTokens
  required : d.formatParameter ≠ [] → ¬ str% "[=" <+: d.formatParameter → d.semantic.minTokens = 1 ∧ 1 ≤ d.semantic.maxTokens

/-- A value declared with `value<T>()`, such that: an implicit value has a text; `multitoken` is not combined with
`zero_tokens`; and the name chosen with `value_name` does not start with a bracket. -/
structure Honest (t : TypedValue) : Prop where
  implicit : ∀ v s, t.implicit = some (v, s) → s ≠ []
  tokens : ¬ (t.zeroTokens = true ∧ t.multitoken = true)
  name : t.valueName.head? ≠ some '['

theorem tells_typed {d : OptionDesc} {env : Env} {t : TypedValue} (hd : d.semantic = t.toSemantic env) (h : Honest t) : Tells d := by
  have hname : d.semantic.name = t.name := by rw [hd]; rfl
  have hmin : d.semantic.minTokens = t.minTokens := by rw [hd]; rfl
  have hmax : d.semantic.maxTokens = t.maxTokens := by rw [hd]; rfl
  have hf : d.formatParameter = if t.maxTokens ≠ 0 then t.name else [] := by
    unfold OptionDesc.formatParameter; rw [hname, hmax]
  have hvar : ∀ b, ¬ str% "[=" <+: (if t.valueName = [] then str% "arg" else t.valueName) ++ b := by
    intro b hp
    have hn := h.name
    split at hp
    · obtain ⟨u, hu⟩ := hp; simp at hu
    · cases hv : t.valueName with
      | nil => contradiction
      | cons x xs =>
        rw [hv] at hp hn
        obtain ⟨u, hu⟩ := hp
        simp only [List.cons_append, List.cons.injEq] at hu
        rw [List.head?_cons, ← hu.1] at hn
        exact hn rfl
  have hvar0 : (if t.valueName = [] then str% "arg" else t.valueName) ≠ [] := by
    split
    · decide
    · assumption
  have hplain : t.implicit = none → t.name ≠ [] ∧ ¬ str% "[=" <+: t.name := by
    intro hi
    unfold TypedValue.name
    rw [hi]
    dsimp only
    rw [if_neg (by simp)]
    generalize (if t.valueName = [] then str% "arg" else t.valueName) = var at hvar hvar0
    cases t.dflt with
    | none => exact ⟨hvar0, by have := hvar []; rwa [List.append_nil] at this⟩
    | some p =>
      dsimp only
      split
      · exact ⟨by simp [hvar0], by simp only [List.append_assoc]; exact hvar _⟩
      · exact ⟨hvar0, by have := hvar []; rwa [List.append_nil] at this⟩
  have himp : t.implicit ≠ none → str% "[=" <+: t.name := by
    intro hi
    unfold TypedValue.name
    cases hi' : t.implicit with
    | none => exact absurd hi' hi
    | some p =>
      obtain ⟨v, s⟩ := p
      dsimp only
      rw [if_pos (h.implicit v s hi')]
      cases t.dflt with
      | none => simp [List.prefix_iff_eq_append]
      | some p =>
        dsimp only
        split <;> simp [List.prefix_iff_eq_append]
  have hnil : t.name ≠ [] := by
    by_cases hi : t.implicit = none
    · exact (hplain hi).1
    · intro h0; have := himp hi; rw [h0] at this; cases List.prefix_nil.1 this
  have htok := h.tokens
  refine ⟨?_, ?_, ?_⟩
  · rw [hf, hmin, hmax]
    intro h1
    split at h1
    · exact absurd h1 hnil
    · rename_i hm
      have hm : t.maxTokens = 0 := Classical.not_not.1 hm
      refine ⟨?_, hm⟩
      unfold TypedValue.maxTokens at hm
      unfold TypedValue.minTokens
      split at hm
      · exact absurd hm (by decide)
      · split at hm
        · rename_i hz; simp [hz]
        · cases hm
  · rw [hf, hmin, hmax]
    intro h1
    split at h1
    · rename_i hm
      refine ⟨?_, by omega⟩
      cases hi : t.implicit with
      | none => exact absurd h1 (hplain hi).2
      | some p => simp [TypedValue.minTokens, hi]
    · cases List.prefix_nil.1 h1
  · rw [hf, hmin, hmax]
    intro h1 h2
    split at h1
    · rename_i hm
      rw [if_pos hm] at h2
      refine ⟨?_, by omega⟩
      cases hi : t.implicit with
      | some p => exact absurd (himp (by simp [hi])) h2
      | none =>
        unfold TypedValue.minTokens
        unfold TypedValue.maxTokens at hm
        rw [hi]
        cases hz : t.zeroTokens with
        | false => rfl
        | true =>
          have hmt : t.multitoken = false := by
            cases hmt : t.multitoken with
            | false => rfl
            | true => exact absurd ⟨hz, hmt⟩ htok
          simp [hz, hmt] at hm
    · exact absurd rfl h1

theorem tells_untyped {d : OptionDesc} {env : Env} {z : Bool} (hd : d.semantic = untypedValue env z) : Tells d := by
  have hf : d.formatParameter = if z then [] else str% "arg" := by
    unfold OptionDesc.formatParameter; rw [hd]; cases z <;> rfl
  have hmin : d.semantic.minTokens = if z then 0 else 1 := by rw [hd]; cases z <;> rfl
  have hmax : d.semantic.maxTokens = if z then 0 else 1 := by rw [hd]; cases z <;> rfl
  refine ⟨?_, ?_, ?_⟩ <;> rw [hf, hmin, hmax] <;> cases z <;> decide

/-- The ways to declare the value of an option that come with the library. -/
inductive Ordinary (d : OptionDesc) : Prop
  | typed (env : Env) (t : TypedValue) (h : d.semantic = t.toSemantic env) (ht : Honest t)
  | untyped (env : Env) (z : Bool) (h : d.semantic = untypedValue env z)

theorem Ordinary.tells {d : OptionDesc} : Ordinary d → Tells d
  | .typed _ _ h ht => tells_typed h ht
  | .untyped _ _ h => tells_untyped h

theorem unclaimed_of (c : Cmdline) (ha : c.additional = none) (tok : Str) : Unclaimed c tok := by intro f hf; rw [ha] at hf; cases hf

section
variable (c : Cmdline) (hs : c.styleParser = none) (ha : c.additional = none)
  (hne : ∀ d ∈ c.desc, ∀ name, name ≠ [] → reportedKey d name ≠ []) (d : OptionDesc) (ho : Ordinary d) (n : Str)
include hs ha hne ho

/-- **C94 (partial), the long name.** The help shows `--n` and after it what is `formatParameter`. If no other option has
this name, then: if nothing is shown, `--n` is read as this option, and refused with a value; if `[=…` is shown, `--n` and `--n=v` are
read; otherwise `--n` alone is refused, and `--n=v` and `--n v` are read. -/
theorem C94_long_partial (hl : Enabled c Style.allowLong) (hd : exacts c.desc n (active c.style Style.longCaseInsensitive) (active c.style Style.shortCaseInsensitive) = [d])
    (hn : d.longNames.head? = some n) (h0 : n ≠ []) (he : '=' ∉ n) :
    (d.shortName = [] → d.formatName = .ok (str% "--" ++ n)) ∧
    (d.shortName ≠ [] → d.formatName = .ok (d.shortName ++ str% " [ --" ++ n ++ str% " ]")) ∧
    Keeps c n (str% "--" ++ n) (fun v => str% "--" ++ n ++ '=' :: v) d.formatParameter ∧
    (d.formatParameter = [] → ∀ v, v ≠ [] →
      RefusedAs c [str% "--" ++ n ++ '=' :: v] (.cmdlineSyntax .extraParameter) (str% "--" ++ n ++ '=' :: v)) := by
  have hu := unclaimed_of c ha
  have hkey : reportedKey d n = n := by
    unfold reportedKey; rw [hn]; dsimp only; split <;> rfl
  have hden : Denotes c n d := .inl hd
  have hk : Denotes c (reportedKey d n) d := by rw [hkey]; exact hden
  have hbare : Spells c (str% "--" ++ n) [⟨n, [], [str% "--" ++ n]⟩] := .long n (hu _) hl rfl he h0
  have hadj : ∀ v, v ≠ [] → Spells c (str% "--" ++ n ++ '=' :: v) [⟨n, [v], [str% "--" ++ n ++ '=' :: v]⟩] :=
    fun v hv => .longEq n v (hu _) hl rfl he hv
  obtain ⟨t1, t2, t3⟩ := ho.tells
  have ok := fun {tok : Str} {vals taken : List Str} => one_ok c hs hne (tok := tok) (name := n) (vals := vals) (taken := taken) (d := d)
  rw [hkey] at ok
  refine ⟨?_, ?_, ⟨?_, ?_, ?_⟩, ?_⟩
  · intro h
    unfold OptionDesc.formatName
    cases hls : d.longNames with
    | nil => rw [hls] at hn; cases hn
    | cons m ms => rw [hls] at hn; cases hn; simp [h]
  · intro h
    unfold OptionDesc.formatName
    cases hls : d.longNames with
    | nil => rw [hls] at hn; cases hn
    | cons m ms => rw [hls] at hn; cases hn; simp [h]
  · intro h
    exact ok (by simp) hbare h0 hden hden h0 (by simp [(t1 h).1]) (by simp) (fun _ => rfl)
  · intro h
    obtain ⟨h1, h2⟩ := t2 h
    exact ⟨ok (by simp) hbare h0 hden hden h0 (by simp [h1]) (by simp) (fun _ => rfl),
      fun v hv => ok (by simp) (hadj v hv) h0 hden hden h0 (by simp [h1]) (by simp) (by omega)⟩
  · intro h h'
    obtain ⟨h1, h2⟩ := t3 h h'
    exact ⟨one_missing c hs hne hbare h0 hden (by omega),
      fun v hv => ok (by simp) (hadj v hv) h0 hden hden h0 (by simp [h1]) (by simp) (by omega),
      fun v hv => ok (by simp) hbare h0 hden hden h0 (by simp [h1]) (by simpa using hv) (fun _ => rfl)⟩
  · intro h v hv
    obtain ⟨h1, h2⟩ := t1 h
    exact one_extra c hs hne (hadj v hv) h0 hden (by omega) h2

/-- **C94 (partial), the short name.** The same for the short name, unless disguised long options are enabled. The
option is reported under its long name, if it has one; this must not be the name of another option. -/
theorem C94_short_partial (hsh : Enabled c Style.allowShort ∧ Enabled c Style.allowDashForShort) (hdis : ¬ Enabled c Style.allowLongDisguise) (a : Char) (hash : a ≠ '-')
    (hd : ∀ li, exacts c.desc ['-', a] li (active c.style Style.shortCaseInsensitive) = [d]) (hn : d.shortName = ['-', a])
    (hk : Denotes c (reportedKey d ['-', a]) d) (hk0 : reportedKey d ['-', a] ≠ []) :
    (d.longNames = [] → d.formatName = .ok ['-', a]) ∧
    (∀ n, d.longNames.head? = some n → d.formatName = .ok (['-', a] ++ str% " [ --" ++ n ++ str% " ]")) ∧
    Keeps c (reportedKey d ['-', a]) ['-', a] (fun v => '-' :: a :: v) d.formatParameter := by
  have hu := unclaimed_of c ha
  have hden : Denotes c ['-', a] d := .inl (hd _)
  have hlet : DenotesLetter c a d := .inl (hd _)
  have hnd : ∀ tok, NotDisguised c tok := fun tok h => absurd h hdis
  have h0 : ['-', a] ≠ [] := by simp
  have hbare : Spells c ['-', a] [⟨['-', a], [], [['-', a]]⟩] := .short a [] _ (hu _) hsh rfl hash (hnd _) (.last a (.inl ⟨d, hlet⟩))
  have hadj : ∀ v, v ≠ [] → 1 ≤ d.semantic.maxTokens → Spells c ('-' :: a :: v) [⟨['-', a], [v], ['-' :: a :: v]⟩] := by
    intro v hv hm
    refine .short a v _ (hu _) hsh rfl hash (hnd _) (.value a v hv (.inl ⟨d, hlet⟩) ?_)
    rintro ⟨-, d', hd', hm'⟩
    rcases hd' with h | ⟨h, -⟩
    · rw [hd] at h; cases h; omega
    · rw [hd] at h; cases h
  obtain ⟨t1, t2, t3⟩ := ho.tells
  have ok := fun {tok : Str} {vals taken : List Str} => one_ok c hs hne (tok := tok) (name := ['-', a]) (vals := vals) (taken := taken) (d := d)
  refine ⟨?_, ?_, ?_, ?_, ?_⟩
  · intro h
    unfold OptionDesc.formatName
    simp [h, hn]
  · intro n h
    unfold OptionDesc.formatName
    cases hls : d.longNames with
    | nil => rw [hls] at h; cases h
    | cons m ms => rw [hls] at h; cases h; simp [hn]
  · intro h
    exact ok (by simp) hbare h0 hden hk hk0 (by simp [(t1 h).1]) (by simp) (fun _ => rfl)
  · intro h
    obtain ⟨h1, h2⟩ := t2 h
    exact ⟨ok (by simp) hbare h0 hden hk hk0 (by simp [h1]) (by simp) (fun _ => rfl),
      fun v hv => ok (by simp) (hadj v hv h2) h0 hden hk hk0 (by simp [h1]) (by simp) (by omega)⟩
  · intro h h'
    obtain ⟨h1, h2⟩ := t3 h h'
    exact ⟨one_missing c hs hne hbare h0 hden (by omega),
      fun v hv => ok (by simp) (hadj v hv h2) h0 hden hk hk0 (by simp [h1]) (by simp) (by omega),
      fun v hv => ok (by simp) hbare h0 hden hk hk0 (by simp [h1]) (by simpa using hv) (fun _ => rfl)⟩

end

theorem bracket_append (x b : Str) (hx : x ≠ []) (hb : b.head? ≠ some '=') : str% "[=" <+: x ++ b ↔ str% "[=" <+: x := by
  constructor
  · intro h
    obtain ⟨u, hu⟩ := h
    match x, hx with
    | [a], _ =>
      cases b with
      | nil => simp at hu
      | cons y b =>
        simp only [List.cons_append, List.nil_append, List.cons.injEq] at hu
        exact absurd (by rw [List.head?_cons, ← hu.2.1]) hb
    | a :: a' :: x, _ =>
      simp only [List.cons_append, List.nil_append, List.cons.injEq] at hu
      rw [← hu.1, ← hu.2.1]
      exact ⟨x, rfl⟩
  · intro h; exact h.trans (List.prefix_append _ _)

/-- What is shown for a typed value. -/
theorem name_shape (t : TypedValue) : t.name ≠ [] ∧
    (str% "[=" <+: t.name ↔ (∃ v s, t.implicit = some (v, s) ∧ s ≠ []) ∨ str% "[=" <+: t.valueName) := by
  have hvar0 : (if t.valueName = [] then str% "arg" else t.valueName) ≠ [] := by
    split
    · decide
    · assumption
  have hvar : str% "[=" <+: (if t.valueName = [] then str% "arg" else t.valueName) ↔ str% "[=" <+: t.valueName := by
    by_cases h : t.valueName = []
    · rw [if_pos h, h]; decide
    · rw [if_neg h]
  unfold TypedValue.name
  dsimp only
  generalize (if t.valueName = [] then str% "arg" else t.valueName) = var at hvar hvar0
  have plain : ∀ dtext : Str, (if dtext ≠ [] then var ++ str% " (=" ++ dtext ++ str% ")" else var) ≠ [] ∧
      (str% "[=" <+: (if dtext ≠ [] then var ++ str% " (=" ++ dtext ++ str% ")" else var) ↔ str% "[=" <+: t.valueName) := by
    intro dtext
    by_cases h : dtext = []
    · rw [if_neg (by simpa using h)]; exact ⟨hvar0, hvar⟩
    · rw [if_pos h]
      refine ⟨by simp [hvar0], ?_⟩
      rw [List.append_assoc, List.append_assoc, bracket_append _ _ hvar0 (by simp)]
      exact hvar
  obtain ⟨dtext, hdt⟩ : ∃ dtext : Str, dtext = (match t.dflt with | some (_, s) => s | none => []) := ⟨_, rfl⟩
  have hshow : ∀ itext : Str, (itext ≠ [] ↔ ∃ v s, t.implicit = some (v, s) ∧ s ≠ []) →
      (if itext ≠ [] then
        if dtext ≠ [] then str% "[=" ++ var ++ str% "(=" ++ itext ++ str% ")]" ++ str% " (=" ++ dtext ++ str% ")"
        else str% "[=" ++ var ++ str% "(=" ++ itext ++ str% ")]"
      else if dtext ≠ [] then var ++ str% " (=" ++ dtext ++ str% ")" else var) ≠ [] ∧
      (str% "[=" <+: (if itext ≠ [] then
        if dtext ≠ [] then str% "[=" ++ var ++ str% "(=" ++ itext ++ str% ")]" ++ str% " (=" ++ dtext ++ str% ")"
        else str% "[=" ++ var ++ str% "(=" ++ itext ++ str% ")]"
      else if dtext ≠ [] then var ++ str% " (=" ++ dtext ++ str% ")" else var) ↔
        (∃ v s, t.implicit = some (v, s) ∧ s ≠ []) ∨ str% "[=" <+: t.valueName) := by
    intro itext hi
    by_cases h : itext = []
    · rw [if_neg (by simpa using h)]
      refine ⟨(plain dtext).1, (plain dtext).2.trans ⟨Or.inr, ?_⟩⟩
      rintro (h' | h')
      · exact absurd h (hi.2 h')
      · exact h'
    · rw [if_pos h]
      refine ⟨?_, fun _ => .inl (hi.1 h), fun _ => ?_⟩
      · split <;> simp
      · split <;> simp [List.prefix_iff_eq_append]
  cases hi : t.implicit with
  | none =>
    have := hshow [] (by rw [hi]; simp)
    rw [hi, hdt] at this
    exact this
  | some p =>
    obtain ⟨v, s⟩ := p
    have := hshow s (by rw [hi]; exact ⟨fun h => ⟨v, s, rfl, h⟩, by rintro ⟨_, _, h, h'⟩; cases h; exact h'⟩)
    rw [hi, hdt] at this
    exact this

/-- What is shown, against two ways to write an option: without a value, and with an adjacent one. -/
theorem keeps_iff (c : Cmdline) (hs : c.styleParser = none) (hne : ∀ d ∈ c.desc, ∀ name, name ≠ [] → reportedKey d name ≠ []) (d : OptionDesc) (env : Env)
    (t : TypedValue) (hsem : d.semantic = t.toSemantic env) (name bare : Str) (adj : Str → Str) (h0 : name ≠ []) (hden : Denotes c name d)
    (hk : Denotes c (reportedKey d name) d) (hk0 : reportedKey d name ≠ []) (hbare : Spells c bare [⟨name, [], [bare]⟩])
    (hadj : 1 ≤ d.semantic.maxTokens → ∀ v, v ≠ [] → Spells c (adj v) [⟨name, [v], [adj v]⟩]) :
    Keeps c (reportedKey d name) bare adj d.formatParameter ↔ ShownRight t := by
  have ok := fun {tok : Str} {vals taken : List Str} => one_ok c hs hne (tok := tok) (name := name) (vals := vals) (taken := taken) (d := d)
  have hmin : d.semantic.minTokens = t.minTokens := by rw [hsem]; rfl
  have hmax : d.semantic.maxTokens = t.maxTokens := by rw [hsem]; rfl
  have hf : d.formatParameter = if t.maxTokens ≠ 0 then t.name else [] := by
    unfold OptionDesc.formatParameter; rw [show d.semantic.name = t.name by rw [hsem]; rfl, hmax]
  obtain ⟨hn0, hshape⟩ := name_shape t
  have hmin0 : t.minTokens = 0 ↔ t.implicit ≠ none ∨ t.zeroTokens = true := by
    unfold TypedValue.minTokens
    cases t.zeroTokens <;> cases t.implicit <;> simp
  have hmin1 : t.minTokens ≤ 1 := by
    unfold TypedValue.minTokens
    split <;> omega
  by_cases hm : t.maxTokens = 0
  · -- no argument
    have hz : t.zeroTokens = true ∧ t.multitoken = false := by
      unfold TypedValue.maxTokens at hm
      cases hmt : t.multitoken with
      | true => rw [hmt] at hm; rw [if_pos rfl] at hm; exact absurd hm (by decide)
      | false =>
        rw [hmt] at hm
        cases hzt : t.zeroTokens with
        | true => exact ⟨rfl, rfl⟩
        | false => rw [hzt] at hm; cases hm
    refine ⟨fun _ => .inl hz, fun _ => ?_⟩
    rw [hf, if_neg (by simpa using hm)]
    refine ⟨fun _ => ?_, fun h => absurd (List.prefix_nil.1 h) (by simp), fun h => absurd rfl h⟩
    exact ok (by simp) hbare h0 hden hk hk0 (by rw [hmin, hmin0.2 (.inr hz.1)]; rfl) (by simp) (fun _ => rfl)
  · have hnz : ¬ (t.zeroTokens = true ∧ t.multitoken = false) := by
      rintro ⟨h1, h2⟩
      exact hm (by unfold TypedValue.maxTokens; rw [h1, h2]; rfl)
    rw [hf, if_pos hm]
    have hright : ShownRight t ↔ (str% "[=" <+: t.name ↔ t.minTokens = 0) := by
      unfold ShownRight
      rw [hshape, hmin0]
      exact ⟨fun h => h.resolve_left hnz, .inr⟩
    rw [hright]
    have hadj_ok : ∀ v, v ≠ [] → ReadAs c [adj v] (reportedKey d name) [v] := fun v hv =>
      ok (by simp) (hadj (by omega) v hv) h0 hden hk hk0 (by rw [hmin]; simp; omega) (by simp) (by omega)
    have bare_ok : t.minTokens = 0 → ReadAs c [bare] (reportedKey d name) [] := fun h =>
      ok (by simp) hbare h0 hden hk hk0 (by rw [hmin, h]; rfl) (by simp) (fun _ => rfl)
    have bare_bad : t.minTokens ≠ 0 → RefusedAs c [bare] (.cmdlineSyntax .missingParameter) bare := fun h =>
      one_missing c hs hne hbare h0 hden (by omega)
    have clash : ReadAs c [bare] (reportedKey d name) [] → RefusedAs c [bare] (.cmdlineSyntax .missingParameter) bare → False := by
      rintro ⟨o, h, _⟩ ⟨e, h', _⟩
      rw [h] at h'
      cases h'
    constructor
    · intro hk
      constructor
      · intro hp
        by_cases h : t.minTokens = 0
        · exact h
        · exact (clash (hk.optional hp).1 (bare_bad h)).elim
      · intro h
        by_cases hp : str% "[=" <+: t.name
        · exact hp
        · exact (clash (bare_ok h) (hk.required hn0 hp).1).elim
    · intro hi
      refine ⟨fun h => absurd h hn0, fun h => ⟨bare_ok (hi.1 h), hadj_ok⟩, fun _ h => ?_⟩
      have h1 : t.minTokens ≠ 0 := fun e => h (hi.2 e)
      refine ⟨bare_bad h1, hadj_ok, fun v hv => ?_⟩
      exact ok (by simp) hbare h0 hden hk hk0 (by rw [hmin]; simp; omega) (by simpa using hv) (fun _ => rfl)

/-- **C94, exactly.** If the long name is the option's alone, what the help shows after it is how the option is read if and only if the argument is shown as what it is. -/
theorem C94_iff (c : Cmdline) (hs : c.styleParser = none) (ha : c.additional = none)
    (hne : ∀ d ∈ c.desc, ∀ name, name ≠ [] → reportedKey d name ≠ []) (d : OptionDesc) (env : Env) (t : TypedValue) (hsem : d.semantic = t.toSemantic env) (n : Str)
    (hl : Enabled c Style.allowLong) (hd : exacts c.desc n (active c.style Style.longCaseInsensitive) (active c.style Style.shortCaseInsensitive) = [d])
    (hn : d.longNames.head? = some n) (h0 : n ≠ []) (he : '=' ∉ n) :
    Keeps c n (str% "--" ++ n) (fun v => str% "--" ++ n ++ '=' :: v) d.formatParameter ↔ ShownRight t := by
  have hu := unclaimed_of c ha
  have hkey : reportedKey d n = n := by
    unfold reportedKey; rw [hn]; dsimp only; split <;> rfl
  have hden : Denotes c n d := .inl hd
  have := keeps_iff c hs hne d env t hsem n (str% "--" ++ n) (fun v => str% "--" ++ n ++ '=' :: v) h0 hden (by rw [hkey]; exact hden) (by rw [hkey]; exact h0)
    (.long n (hu _) hl rfl he h0) (fun _ v hv => .longEq n v (hu _) hl rfl he hv)
  rwa [hkey] at this

/-- **C94, exactly, the short name.** The same for the short name (sticky values), unless disguised long options are enabled. -/
theorem C94_short_iff (c : Cmdline) (hs : c.styleParser = none) (ha : c.additional = none)
    (hne : ∀ d ∈ c.desc, ∀ name, name ≠ [] → reportedKey d name ≠ []) (d : OptionDesc) (env : Env) (t : TypedValue) (hsem : d.semantic = t.toSemantic env)
    (hsh : Enabled c Style.allowShort ∧ Enabled c Style.allowDashForShort) (hdis : ¬ Enabled c Style.allowLongDisguise) (a : Char) (hash : a ≠ '-')
    (hd : ∀ li, exacts c.desc ['-', a] li (active c.style Style.shortCaseInsensitive) = [d])
    (hk : Denotes c (reportedKey d ['-', a]) d) :
    Keeps c (reportedKey d ['-', a]) ['-', a] (fun v => '-' :: a :: v) d.formatParameter ↔ ShownRight t := by
  have hu := unclaimed_of c ha
  have hlet : DenotesLetter c a d := .inl (hd _)
  have hnd : ∀ tok, NotDisguised c tok := fun tok h => absurd h hdis
  have hin : d ∈ c.desc := (List.mem_filter.1 (show d ∈ exacts c.desc ['-', a] false _ by rw [hd]; simp)).1
  refine keeps_iff c hs hne d env t hsem ['-', a] ['-', a] (fun v => '-' :: a :: v) (by simp) (.inl (hd _)) hk (hne d hin _ (by simp))
    (.short a [] _ (hu _) hsh rfl hash (hnd _) (.last a (.inl ⟨d, hlet⟩))) fun hm v hv => ?_
  refine .short a v _ (hu _) hsh rfl hash (hnd _) (.value a v hv (.inl ⟨d, hlet⟩) ?_)
  rintro ⟨-, d', hd', hm'⟩
  rcases hd' with h | ⟨h, -⟩
  · rw [hd] at h; cases h; omega
  · rw [hd] at h; cases h

example : ¬ ShownRight { Test.vstr with implicit := some (.scalar (.str []), []) } ∧ ¬ ShownRight { Test.vvec with multitoken := true, zeroTokens := true } ∧
    ShownRight { Test.vstr with implicit := some (.scalar (.str ['3']), ['3']) } := by
  refine ⟨?_, ?_, .inr ⟨fun _ => .inl nofun, fun _ => .inl ⟨_, _, rfl, by decide⟩⟩⟩
  · rintro (⟨h, _⟩ | h)
    · cases h
    · rcases h.2 (.inl nofun) with ⟨_, _, h, h'⟩ | h
      · cases h; exact h' rfl
      · exact absurd h (by decide)
  · rintro (⟨_, h⟩ | h)
    · cases h
    · rcases h.2 (.inr rfl) with ⟨_, _, h, h'⟩ | h
      · cases h
      · exact absurd h (by decide)

def emptyImplicit : OptionDesc := Test.od "level" (Test.sem { Test.vstr with implicit := some (.scalar (.str []), []) })
def zeroMulti : OptionDesc := Test.od "in" (Test.sem { Test.vvec with multitoken := true, zeroTokens := true })

/-- **C94, negation.** An implicit value whose text is empty is not shown: the help says `--level arg`, but `--level` alone is read. -/
theorem C94_negation : ∃ (d : OptionDesc) (c : Cmdline), c.desc = [d] ∧ d.formatName = .ok (str% "--level") ∧ d.formatParameter = str% "arg" ∧
    ReadAs c [str% "--level"] (str% "level") [] :=
  ⟨emptyImplicit, { desc := [emptyImplicit] }, rfl, rfl, rfl, { stringKey := str% "level", originalTokens := [str% "--level"] }, by rfl, rfl, rfl, rfl⟩

/-- **C94, negation.** With `zero_tokens` and `multitoken` the argument that is shown need not be given. -/
theorem C94_negation_zero : ∃ (d : OptionDesc) (c : Cmdline), c.desc = [d] ∧ d.formatName = .ok (str% "--in") ∧ d.formatParameter = str% "arg" ∧
    ReadAs c [str% "--in"] (str% "in") [] :=
  ⟨zeroMulti, { desc := [zeroMulti] }, rfl, rfl, rfl, { stringKey := str% "in", originalTokens := [str% "--in"] }, by rfl, rfl, rfl, rfl⟩

/-- The three kinds of argument. -/
def usageExample : Cmdline :=
  { desc := [Test.od "verbose,v" Test.unt, Test.od "level,l" (Test.sem { Test.vstr with implicit := some (.scalar (.str ['3']), ['3']) }),
      Test.od "out,o" (Test.sem { Test.vstr with valueName := str% "file" })] }

example : usageExample.desc.map (·.formatName) = [.ok (str% "-v [ --verbose ]"), .ok (str% "-l [ --level ]"), .ok (str% "-o [ --out ]")] ∧
    usageExample.desc.map (·.formatParameter) = [[], str% "[=arg(=3)]", str% "file"] := ⟨rfl, rfl⟩

theorem usageExample_keys : ∀ d ∈ usageExample.desc, ∀ name, name ≠ [] → reportedKey d name ≠ [] :=
  keys_nonempty _ (by intro d hd; simp only [usageExample, List.mem_cons, List.not_mem_nil, or_false] at hd; rcases hd with rfl | rfl | rfl <;> decide)

/-- The help says `-o [ --out ] file`: `--out` needs a value. -/
example : RefusedAs usageExample [str% "--out"] (.cmdlineSyntax .missingParameter) (str% "--out") ∧
    ReadAs usageExample [str% "--out=x=y"] (str% "out") [str% "x=y"] ∧ ReadAs usageExample [str% "--out", str% "x"] (str% "out") [str% "x"] := by
  have h := (C94_long_partial usageExample rfl rfl usageExample_keys (Test.od "out,o" (Test.sem { Test.vstr with valueName := str% "file" }))
    (.typed _ _ rfl ⟨by nofun, by decide, by decide⟩) (str% "out") (by unfold Enabled; decide) rfl rfl (by decide) (by decide)).2.2.1
  have h := h.required (by decide) (by decide)
  refine ⟨h.1, h.2.1 (str% "x=y") (by decide), h.2.2 (str% "x") (.inl ?_)⟩
  refine ⟨?_, ?_, ?_, ?_, ?_⟩
  · intro f hf; cases hf
  · intro _ h; exact absurd h (by decide)
  · intro h; exact absurd h (by unfold Enabled; decide)
  · intro _ _ a t h; cases h
  · intro _ h; exact absurd h (by unfold Enabled; decide)

/-- The help says `-l [ --level ] [=arg(=3)]`: `-l` may have a value. -/
example : ReadAs usageExample [str% "-l"] (str% "level") [] ∧ ReadAs usageExample [str% "-l7"] (str% "level") [str% "7"] := by
  have h := (C94_short_partial usageExample rfl rfl usageExample_keys (Test.od "level,l" (Test.sem { Test.vstr with implicit := some (.scalar (.str ['3']), ['3']) }))
    (.typed _ _ rfl ⟨by intro v s h; cases h; decide, by decide, by decide⟩) (by unfold Enabled; decide) (by unfold Enabled; decide) 'l' (by decide)
    (fun li => by cases li <;> rfl) rfl (.inl rfl) (by decide)).2.2
  have h := h.optional (by decide)
  exact ⟨h.1, h.2 (str% "7") (by decide)⟩

def emptyImplicitShort : OptionDesc := Test.od "level,l" (Test.sem { Test.vstr with implicit := some (.scalar (.str []), []) })

/-- With an empty implicit value the help is wrong about the short name as well. -/
example : ¬ Keeps { desc := [emptyImplicitShort] } (str% "level") ['-', 'l'] (fun v => '-' :: 'l' :: v) emptyImplicitShort.formatParameter := by
  intro h
  have := (C94_short_iff { desc := [emptyImplicitShort] } rfl rfl (keys_nonempty _ (by intro d' hd; simp only [List.mem_cons, List.not_mem_nil, or_false] at hd; subst hd; decide)) emptyImplicitShort Test.env
    { Test.vstr with implicit := some (.scalar (.str []), []) } rfl (by unfold Enabled; decide) (by unfold Enabled; decide) 'l' (by decide)
    (fun li => by cases li <;> rfl) (.inl rfl)).1 h
  rcases this with ⟨h, _⟩ | h
  · cases h
  · rcases h.2 (.inl nofun) with ⟨_, _, h, h'⟩ | h
    · cases h; exact h' rfl
    · exact absurd h (by decide)

end PO
