import Verif.Props.RoundTrip
import Verif.Props.StoreGrammar
import Verif.Props.Config
import Verif.Props.ConfigGrammar
import Verif.Props.Environment
import Verif.Props.Split
/-
C85: it does not matter where a setting comes from.
-/
namespace PO
open Spec

/-- The effect of a store: the values and the finished names, or nothing if it throws. -/
def effect (p : Parsed) (xm : VarMap) (utf8 : Bool) : Option (SMap VarValue × SSet) :=
  match store p xm utf8 with
  | (m, none) => some (m.map, m.final)
  | (_, some _) => none

theorem mentions_values {a b : List Opt} {name : Str} (h : (occurrences a name).map (·.value) = (occurrences b name).map (·.value)) :
    Mentions a name ↔ Mentions b name := by
  rw [mentions_iff, mentions_iff]
  have := congrArg List.length h
  simp only [List.length_map] at this
  rw [← List.length_pos_iff, ← List.length_pos_iff, this]

/-- **C85.** Only the values of each single name matter, not how they were written, nor where they come from: two sources that give every
name the same values in the same order have the same effect on every variables map. -/
theorem C85_only_values (p p' : Parsed) (hd : p'.desc = p.desc)
    (ho : ∀ name, (occurrences p'.options name).map (·.value) = (occurrences p.options name).map (·.value)) (xm : VarMap) (hx : xm.Ordered)
    (utf8 : Bool) : effect p xm utf8 = effect p' xm utf8 := by
  have succ : ∀ (p p' : Parsed) (_ : p'.desc = p.desc)
      (_ : ∀ name, (occurrences p'.options name).map (·.value) = (occurrences p.options name).map (·.value)),
      (store p xm utf8).2 = none → (store p' xm utf8).2 = none := by
    intro p p' hd ho h
    rw [C65_succeeds] at h ⊢
    intro name hm hf
    obtain ⟨d, v, h1, h2⟩ := h name ((mentions_values (ho name)).1 hm) hf
    exact ⟨d, v, by rw [hd]; exact h1, by rw [ho name]; exact h2⟩
  have hiff : (store p xm utf8).2 = none ↔ (store p' xm utf8).2 = none := ⟨succ p p' hd ho, succ p' p hd.symm fun n => (ho n).symm⟩
  unfold effect
  cases h : store p xm utf8 with
  | mk m r =>
  cases h' : store p' xm utf8 with
  | mk m' r' =>
  rw [h, h'] at hiff
  cases r with
  | some f =>
    cases r' with
    | some f' => rfl
    | none => simp at hiff
  | none =>
  cases r' with
  | some f => simp at hiff
  | none =>
  have om := ordered_store hx p utf8
  have om' := ordered_store hx p' utf8
  rw [h] at om
  rw [h'] at om'
  have key : { m with required := [] } = ({ m' with required := [] } : VarMap) := by
    refine ordered_ext ⟨om.map, om.final, by simp⟩ ⟨om'.map, om'.final, by simp⟩ (fun k => ?_) (fun k => ?_) (fun k => rfl)
    all_goals
      obtain ⟨r1, r2⟩ := C65_result p' xm _ utf8 h' k
      obtain ⟨s1, s2⟩ := C65_result p xm _ utf8 h k
      by_cases hc : Mentions p.options k ∧ k ∉ xm.final
      · obtain ⟨d, a, ⟨y1, y2⟩, y3, y4⟩ := s1 hc.1 hc.2
        obtain ⟨d', a', ⟨z1, z2⟩, z3, z4⟩ := r1 ((mentions_values (ho k)).2 hc.1) hc.2
        rw [hd, y1] at z1; cases z1
        rw [ho k, y2] at z2; cases z2
        first | exact y3.trans z3.symm | exact y4.trans z4.symm
      · have hc' : ¬ Mentions p.options k ∨ k ∈ xm.final := by
          by_cases hm : Mentions p.options k
          · exact .inr (Decidable.byContradiction fun hn => hc ⟨hm, hn⟩)
          · exact .inl hm
        have a1 := s2 hc'
        have a2 := r2 (by rw [mentions_values (ho k)]; exact hc')
        rw [hd] at a2
        first | exact a1.1.trans a2.1.symm | exact a1.2.trans a2.2.symm
  injection key with k1 k2
  simp only
  rw [k1, k2]

theorem occurrences_keyed (os os' : List Opt) (h : os.map (fun o => (o.stringKey, o.value)) = os'.map (fun o => (o.stringKey, o.value)))
    (hu : ∀ o ∈ os, o.unregistered = false) (hu' : ∀ o ∈ os', o.unregistered = false) (name : Str) :
    (occurrences os name).map (·.value) = (occurrences os' name).map (·.value) := by
  induction os generalizing os' with
  | nil => cases os' <;> simp at h ⊢
  | cons o os ih =>
    cases os' with
    | nil => simp at h
    | cons o' os' =>
      rw [List.map_cons, List.map_cons, List.cons.injEq, Prod.mk.injEq] at h
      obtain ⟨⟨h1, h2⟩, h3⟩ := h
      have ih := ih os' h3 (fun q hq => hu q (by simp [hq])) fun q hq => hu' q (by simp [hq])
      unfold occurrences at ih ⊢
      rw [List.filter_cons, List.filter_cons, h1, hu o (by simp), hu' o' (by simp)]
      split
      · rw [List.map_cons, List.map_cons, ih, h2]
      · exact ih

/-- **C85, for the three sources.** The settings, written as options on the command line, as lines of a configuration file, or in the
environment, have the same effect on every variables map. -/
theorem C85_sources (c : Cmdline) (hs : c.styleParser = none) (ha : c.additional = none) (hl : Enabled c Style.allowLong)
    (hne : ∀ d ∈ c.desc, ∀ name, name ≠ [] → reportedKey d name ≠ []) (settings : List (Str × Str))
    (h : ∀ s ∈ settings, Expressible c (s.1, some s.2)) (hlen : settings.length < 2147483648)
    (hfile : (keyed (parseConfigFile [] c.desc false)).isSome = true) (hr : ∀ s ∈ settings, Representable s.1 s.2)
    (hacc : ∀ s ∈ settings, Accepts c.desc s.1)
    (vars : List (Str × Str)) (mapper : Str → Str) (hv : ∀ v ∈ vars, '=' ∉ v.1)
    (hmap : (vars.filter fun v => mapper v.1 ≠ []).map (fun v => (mapper v.1, v.2)) = settings) :
    ∃ p1 p2 p3, c.parse (settings.map fun s => str% "--" ++ s.1 ++ str% "=" ++ s.2) = .ok p1 ∧
      parseConfigFile (unlines (settings.map itemLine)) c.desc false = .ok p2 ∧
      parseEnvironment (vars.map envEntry) c.desc mapper = .ok p3 ∧
      ∀ (xm : VarMap), xm.Ordered → ∀ utf8, effect p1 xm utf8 = effect p2 xm utf8 ∧ effect p2 xm utf8 = effect p3 xm utf8 := by
  have hk2 := C26_no_section c.desc false hfile settings hr fun i hi => .inl (hacc i hi)
  cases h2 : parseConfigFile (unlines (settings.map itemLine)) c.desc false with
  | error f => rw [h2] at hk2; cases hk2
  | ok p2 =>
  rw [h2] at hk2
  have hk2 : p2.options.map (fun o => (o.stringKey, o.value)) = settings.map fun i => (i.1, [i.2]) := Option.some.inj hk2
  have hd2 : p2.desc = c.desc := by
    obtain ⟨_, _, _, _, _, _, _, _, _, e⟩ := (C64_accepted _ c.desc false p2).1 h2
    rw [e]
  have hu2 : ∀ o ∈ p2.options, o.unregistered = false := fun o ho => (C28_all_accepted _ c.desc p2 h2 o ho).2
  have h1 := C84_settings c hs ha hl hne (settings.map fun s => (s.1, some s.2)) (fun s hs => by
    obtain ⟨t, ht, rfl⟩ := List.mem_map.1 hs
    exact h t ht) (by simpa using hlen)
  rw [List.map_map, List.map_map] at h1
  have e1 : (settings.map fun s => str% "--" ++ s.1 ++ str% "=" ++ s.2) = settings.map (written ∘ fun s => (s.1, some s.2)) := by
    refine List.map_congr_left fun s _ => ?_
    simp [written]
  have hp1 : c.parse (settings.map fun s => str% "--" ++ s.1 ++ str% "=" ++ s.2) =
      .ok { desc := c.desc, options := settings.map (settingOption c ∘ fun s => (s.1, some s.2)), pre := c.canonicalPrefix } := by
    unfold Cmdline.parse
    rw [e1, h1]
  refine ⟨_, p2, _, hp1, rfl, C32_environment_mapper vars hv c.desc mapper, fun xm hx utf8 => ⟨?_, ?_⟩⟩
  · refine C85_only_values _ _ (by rw [hd2]) (fun name => ?_) xm hx utf8
    refine occurrences_keyed _ _ ?_ hu2 ?_ name
    · rw [hk2]
      simp [settingOption]
    · intro o ho
      obtain ⟨s, _, rfl⟩ := List.mem_map.1 ho
      rfl
  · refine C85_only_values _ _ (by rw [hd2]) (fun name => ?_) xm hx utf8
    refine occurrences_keyed _ _ ?_ ?_ hu2 name
    · rw [hk2, ← hmap]
      simp
    · intro o ho
      obtain ⟨s, _, rfl⟩ := List.mem_map.1 ho
      rfl

/-- Two options with a value, one of which may be given several times. -/
def sourcesExample : Cmdline := { desc := [Test.od "name,n" (Test.sem Test.vstr), Test.od "inc" (Test.sem Test.vvec)] }

def sourcesSettings : List (Str × Str) := [(Test.L "inc", Test.L "a b"), (Test.L "name", Test.L "-x=y"), (Test.L "inc", Test.L "c")]

/-- The environment variables, one of which is not for the program. -/
def sourcesVars : List (Str × Str) :=
  [(Test.L "X_INC", Test.L "a b"), (Test.L "PATH", Test.L "/bin"), (Test.L "X_NAME", Test.L "-x=y"), (Test.L "X_INC", Test.L "c")]

def sourcesMapper (s : Str) : Str := if s = Test.L "X_INC" then Test.L "inc" else if s = Test.L "X_NAME" then Test.L "name" else []

example : ∃ p1 p2 p3,
    sourcesExample.parse [Test.L "--inc=a b", Test.L "--name=-x=y", Test.L "--inc=c"] = .ok p1 ∧
    parseConfigFile (unlines [Test.L "inc=a b", Test.L "name=-x=y", Test.L "inc=c"]) sourcesExample.desc false = .ok p2 ∧
    parseEnvironment [Test.L "X_INC=a b", Test.L "PATH=/bin", Test.L "X_NAME=-x=y", Test.L "X_INC=c"] sourcesExample.desc sourcesMapper = .ok p3 ∧
    (effect p1 {} false).isSome = true ∧ effect p1 {} false = effect p2 {} false ∧ effect p2 {} false = effect p3 {} false := by
  have hs : ∀ s ∈ sourcesSettings, Expressible sourcesExample (s.1, some s.2) ∧ Representable s.1 s.2 ∧ Accepts sourcesExample.desc s.1 := by
    intro s hs
    simp only [sourcesSettings, List.mem_cons, List.not_mem_nil, or_false] at hs
    rcases hs with rfl | rfl | rfl
    · exact ⟨⟨by decide, by decide, _, .inl rfl, rfl, by decide⟩, ⟨by decide, by decide, by decide, by decide, by decide, by rintro c (h | h) <;> cases h <;> decide, by rintro c (h | h) <;> cases h <;> decide, by decide⟩,
        _, by simp [sourcesExample]; right; rfl, .inl ⟨by decide, by decide⟩⟩
    · exact ⟨⟨by decide, by decide, _, .inl rfl, rfl, by decide⟩, ⟨by decide, by decide, by decide, by decide, by decide, by rintro c (h | h) <;> cases h <;> decide, by rintro c (h | h) <;> cases h <;> decide, by decide⟩,
        _, by simp [sourcesExample]; left; rfl, .inl ⟨by decide, by decide⟩⟩
    · exact ⟨⟨by decide, by decide, _, .inl rfl, rfl, by decide⟩, ⟨by decide, by decide, by decide, by decide, by decide, by rintro c (h | h) <;> cases h <;> decide, by rintro c (h | h) <;> cases h <;> decide, by decide⟩,
        _, by simp [sourcesExample]; right; rfl, .inl ⟨by decide, by decide⟩⟩
  obtain ⟨p1, p2, p3, h1, h2, h3, h4⟩ := C85_sources sourcesExample rfl rfl (by unfold Enabled; decide)
    (keys_nonempty _ (by intro d hd; simp only [sourcesExample, List.mem_cons, List.not_mem_nil, or_false] at hd; rcases hd with rfl | rfl <;> decide))
    sourcesSettings (fun s h => (hs s h).1) (by decide) rfl (fun s h => (hs s h).2.1) (fun s h => (hs s h).2.2)
    sourcesVars sourcesMapper (by decide) (by decide)
  have hp : ∃ p, sourcesExample.parse [Test.L "--inc=a b", Test.L "--name=-x=y", Test.L "--inc=c"] = .ok p ∧ (effect p {} false).isSome = true := ⟨_, rfl, rfl⟩
  obtain ⟨p, hp, he⟩ := hp
  have e : p = p1 := Except.ok.inj (hp.symm.trans h1)
  exact ⟨p1, p2, p3, h1, h2, h3, e ▸ he, h4 {} ordered_empty false⟩

end PO
