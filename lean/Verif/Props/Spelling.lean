import Verif.Lemmas.CmdlineLike
/-
C13, C14, C15: different spellings of the same command line.
-/
namespace PO
open Spec

/-- What a parse means: the sequence of options, apart from the recorded tokens; `none` if parsing fails. -/
def Spec.meaning (r : Except Fail (List Opt)) : Option (List (Str × List Str × Int × Bool × Bool)) :=
  r.toOption.map (List.map fun o => (o.stringKey, o.value, o.positionKey, o.unregistered, o.caseInsensitive))

namespace Cmdline

theorem meaning_eq {r r' : Except Fail (List Opt)} (h : r.toOption.map (List.map strip) = r'.toOption.map (List.map strip)) :
    meaning r = meaning r' := by
  have key : ∀ r : Except Fail (List Opt), meaning r = (r.toOption.map (List.map strip)).map
      (List.map fun o => (o.stringKey, o.value, o.positionKey, o.unregistered, o.caseInsensitive)) := by
    intro r
    unfold meaning
    rw [Option.map_map]
    congr 1
    funext l
    simp [strip]
  rw [key, key, h]

theorem Same.refl_likes (r : Except Fail (List Opt)) : Same Likes r r := by
  cases r with
  | error f => trivial
  | ok l => exact Likes.refl l

theorem Same.trans_likes {r s t : Except Fail (List Opt)} (h1 : Same Likes r s) (h2 : Same Likes s t) : Same Likes r t := by
  cases r <;> cases s <;> cases t <;> simp only [Same] at h1 h2 ⊢
  exact h1.trans h2

/-- Two spellings of an option with one value, as seen by the first pass. -/
theorem first_value (c : Cmdline) (hs : c.styleParser = none) (name t1 t2 v : Str) (rest : List Str) (d : OptionDesc)
    (f1 : c.front t1 = .ok [{ stringKey := name, value := [v], originalTokens := [t1] }])
    (f2 : c.front t2 = .ok [{ stringKey := name, originalTokens := [t2] }]) (h0 : name ≠ []) (hd : Denotes c name d)
    (hmin : d.semantic.minTokens = 1) (hmax : d.semantic.maxTokens ≠ 0) (hk : reportedKey d name ≠ []) (hval : ValueLike c v) (hu : Unclaimed c v) :
    Same Likes (c.first (t1 :: rest)) (c.first (t2 :: v :: rest)) := by
  have hl := lookup_denotes.2 hd
  rw [c.first_cons hs _ _ _ _ f1, c.first_cons hs _ _ _ _ f2, c.finish_adjacent c.parsers _ d v rest h0 hl rfl hmin hmax,
    c.finish_separate hs _ d v rest h0 hl rfl hmin hval hu]
  simp only
  generalize c.first rest = r
  cases r with
  | error f => trivial
  | ok more =>
    refine .cons ⟨rfl, .inr ?_⟩ (Likes.refl _)
    simp only
    rw [key_eq]
    exact hk

end Cmdline

/-! ### C13 -/

/-- **C13.** For an option that needs one value, `--name=v` and `--name v` mean the same, whatever comes before and after. -/
theorem C13_adjacent_separate (c : Cmdline) (hs : c.styleParser = none) (hl : Enabled c Style.allowLong)
    (pre rest : List Str) (r : List Opt) (hpre : c.run pre = .ok r) (hdash : ['-', '-'] ∉ pre)
    (name v : Str) (d : OptionDesc) (h0 : name ≠ []) (hn : '=' ∉ name) (hv : v ≠ []) (hd : Denotes c name d) (hmin : d.semantic.minTokens = 1)
    (hmax : d.semantic.maxTokens ≠ 0) (hk : reportedKey d name ≠ []) (hval : ValueLike c v)
    (h1 : Unclaimed c ('-' :: '-' :: name ++ '=' :: v)) (h2 : Unclaimed c ('-' :: '-' :: name)) (h3 : Unclaimed c v) :
    meaning (c.run (pre ++ ('-' :: '-' :: name ++ '=' :: v) :: rest)) = meaning (c.run (pre ++ ('-' :: '-' :: name) :: v :: rest)) := by
  obtain ⟨os, hp, _⟩ := (c.run_pass hs pre r).1 hpre
  refine Cmdline.meaning_eq (c.run_like hs pre _ _ os hp hdash ?_)
  exact c.first_value hs name _ _ v rest d (c.front_long_eq hl name v hn hv h1) (c.front_long_name hl name hn h0 h2) h0 hd hmin hmax hk hval h3

def Spelling_demo : Cmdline :=
  { desc := [Test.od "number,n" (Test.sem Test.vint), Test.od "all,a" Test.unt, Test.od "brief,b" Test.unt], additional := none }

/-- The hypotheses hold for a negative number given to a guessed option. -/
example : Enabled Spelling_demo Style.allowLong ∧ (∃ r, Spelling_demo.run [Test.L "x"] = .ok r) ∧
    (∃ d, Denotes Spelling_demo (Test.L "num") d ∧ d.semantic.minTokens = 1 ∧ d.semantic.maxTokens ≠ 0 ∧ reportedKey d (Test.L "num") ≠ []) ∧
    ValueLike Spelling_demo (Test.L "-5") ∧
    (Spelling_demo.run [Test.L "x", Test.L "--num=-5", Test.L "-a"]).map (·.map fun o => (o.stringKey, o.value)) =
      .ok [([], [['x']]), (Test.L "number", [Test.L "-5"]), (Test.L "all", [])] ∧
    (Spelling_demo.run [Test.L "x", Test.L "--num", Test.L "-5", Test.L "-a"]).map (·.map fun o => (o.stringKey, o.value)) =
      .ok [([], [['x']]), (Test.L "number", [Test.L "-5"]), (Test.L "all", [])] := by
  refine ⟨by unfold Enabled; decide, ⟨_, rfl⟩, ?_, ?_, rfl, rfl⟩
  · exact ⟨Test.od "number,n" (Test.sem Test.vint), Cmdline.lookup_denotes.1 rfl, by decide, by decide, by decide⟩
  · refine .short '5' [] rfl (by decide) ?_ ?_ (by unfold Enabled; decide)
    · unfold UnknownShort Exact Approximate; decide
    · unfold Unknown Exact Approximate; decide

/-! ### C14 -/

/-- **C14.** For an option that needs one value, `-av` and `-a v` mean the same, whatever comes before and after. -/
theorem C14_adjacent_separate (c : Cmdline) (hs : c.styleParser = none)
    (he : Enabled c Style.allowShort ∧ Enabled c Style.allowDashForShort) (hdis : ¬ Enabled c Style.allowLongDisguise)
    (pre rest : List Str) (r : List Opt) (hpre : c.run pre = .ok r) (hdash : ['-', '-'] ∉ pre)
    (a : Char) (v : Str) (d : OptionDesc) (ha : a ≠ '-') (hv : v ≠ []) (hds : DenotesShort c a d) (hd : Denotes c ['-', a] d)
    (hmin : d.semantic.minTokens = 1) (hmax : d.semantic.maxTokens ≠ 0) (hk : reportedKey d ['-', a] ≠ []) (hval : ValueLike c v)
    (h1 : Unclaimed c ('-' :: a :: v)) (h2 : Unclaimed c ['-', a]) (h3 : Unclaimed c v) :
    meaning (c.run (pre ++ ('-' :: a :: v) :: rest)) = meaning (c.run (pre ++ ['-', a] :: v :: rest)) := by
  obtain ⟨os, hp, _⟩ := (c.run_pass hs pre r).1 hpre
  refine Cmdline.meaning_eq (c.run_like hs pre _ _ os hp hdash ?_)
  refine c.first_value hs ['-', a] _ _ v rest d ?_ ?_ (by simp) hd hmin hmax hk hval h3
  · rw [c.front_short he hdis a v ha h1]
    cases v with
    | nil => exact absurd rfl hv
    | cons b v =>
      rw [Cmdline.shortLoop, c.findShort_denotes a d hds]
      simp only
      rw [if_neg]
      unfold Cmdline.takesNoValue
      simp [hmax]
  · rw [c.front_short he hdis a [] ha h2, Cmdline.shortLoop, c.findShort_denotes a d hds]

example : Enabled Spelling_demo Style.allowShort ∧ Enabled Spelling_demo Style.allowDashForShort ∧ ¬ Enabled Spelling_demo Style.allowLongDisguise ∧
    (∃ r, Spelling_demo.run [Test.L "x"] = .ok r) ∧
    (∃ d, DenotesShort Spelling_demo 'n' d ∧ Denotes Spelling_demo (Test.L "-n") d ∧ d.semantic.minTokens = 1 ∧ d.semantic.maxTokens ≠ 0 ∧
      reportedKey d (Test.L "-n") ≠ []) ∧
    ValueLike Spelling_demo (Test.L "-5") ∧
    (Spelling_demo.run [Test.L "x", Test.L "-n-5", Test.L "-a"]).map (·.map fun o => (o.stringKey, o.value)) =
      .ok [([], [['x']]), (Test.L "number", [Test.L "-5"]), (Test.L "all", [])] ∧
    (Spelling_demo.run [Test.L "x", Test.L "-n", Test.L "-5", Test.L "-a"]).map (·.map fun o => (o.stringKey, o.value)) =
      .ok [([], [['x']]), (Test.L "number", [Test.L "-5"]), (Test.L "all", [])] := by
  refine ⟨by unfold Enabled; decide, by unfold Enabled; decide, by unfold Enabled; decide, ⟨_, rfl⟩, ?_, ?_, rfl, rfl⟩
  · exact ⟨Test.od "number,n" (Test.sem Test.vint), rfl, Cmdline.lookup_denotes.1 rfl, by decide, by decide, by decide⟩
  · refine .short '5' [] rfl (by decide) ?_ ?_ (by unfold Enabled; decide)
    · unfold UnknownShort Exact Approximate; decide
    · unfold Unknown Exact Approximate; decide

/-! ### C15 -/

/-- The letter of a switch: of a declared option that takes no value. -/
def Spec.SwitchLetter (c : Cmdline) (s : Char) : Prop :=
  s ≠ '-' ∧ ∃ d, DenotesShort c s d ∧ Denotes c ['-', s] d ∧ d.semantic.minTokens = 0 ∧ d.semantic.maxTokens = 0

theorem Cmdline.first_switches (c : Cmdline) (hs : c.styleParser = none) (hne : ∀ d ∈ c.desc, ∀ name, name ≠ [] → reportedKey d name ≠ [])
    (he : Enabled c Style.allowShort ∧ Enabled c Style.allowDashForShort) (hdis : ¬ Enabled c Style.allowLongDisguise) (hst : Enabled c Style.allowSticky)
    (z : Char) (t : Str) (hz : z ≠ '-') (rest : List Str) (ss : List Char) (hsw : ∀ s ∈ ss, SwitchLetter c s)
    (h1 : ∀ u, u <:+ ss ++ z :: t → Unclaimed c ('-' :: u)) (h2 : ∀ s ∈ ss, Unclaimed c ['-', s]) :
    Same Likes (c.first (('-' :: (ss ++ z :: t)) :: rest)) (c.first (ss.map (fun s => ['-', s]) ++ ('-' :: z :: t) :: rest)) := by
  induction ss with
  | nil => exact Same.refl_likes _
  | cons s ss ih =>
    have ih := ih (fun s h => hsw s (by simp [h])) (fun u hu => h1 u (hu.trans (List.suffix_cons _ _))) (fun s h => h2 s (by simp [h]))
    obtain ⟨hn, d, hds, hdn, hmin, hmax⟩ := hsw s (by simp)
    obtain ⟨a, u, hau, han⟩ : ∃ a u, ss ++ z :: t = a :: u ∧ a ≠ '-' := by
      cases ss with
      | nil => exact ⟨z, t, rfl, hz⟩
      | cons a ss => exact ⟨a, ss ++ z :: t, rfl, (hsw a (by simp)).1⟩
    rw [List.cons_append, hau]
    have g := c.first_group hs hne he hdis hst s a u rest d hn han hds hdn hmin hmax
      (by rw [← hau]; exact h1 _ (List.suffix_refl _)) (h2 s (by simp)) (by rw [← hau]; exact h1 _ (List.suffix_cons _ _))
    refine Same.trans_likes g ?_
    rw [List.map_cons, List.cons_append, ← hau]
    have f1 : c.front ['-', s] = .ok [{ stringKey := ['-', s], originalTokens := [['-', s]] }] := by
      rw [c.front_short he hdis s [] hn (h2 s (by simp)), shortLoop, c.findShort_denotes s d hds]
    have e : ∀ r, c.finishAll c.parsers [({ stringKey := ['-', s], originalTokens := [['-', s]] } : Opt)] r =
        .ok ([{ stringKey := d.key ['-', s], originalTokens := [['-', s]] }], r) := by
      intro r
      rw [finishAll, c.finish_switch c.parsers _ d r (by simp) (lookup_denotes.2 hdn) rfl hmin]
    rw [c.first_cons hs _ _ _ _ f1, c.first_cons hs _ _ _ _ f1, e, e]
    simp only
    revert ih
    generalize c.first _ = q
    generalize c.first _ = q'
    intro ih
    cases q <;> cases q' <;> simp only [Same] at ih ⊢
    exact (Likes.refl _).append ih

/-- **C15.** A group of short options whose letters, but for the last, are switches means the same as the options given separately. The last one
may have a value `t`, adjacent or not. -/
theorem C15_group_separate (c : Cmdline) (hs : c.styleParser = none) (hne : ∀ d ∈ c.desc, ∀ name, name ≠ [] → reportedKey d name ≠ [])
    (he : Enabled c Style.allowShort ∧ Enabled c Style.allowDashForShort) (hdis : ¬ Enabled c Style.allowLongDisguise) (hst : Enabled c Style.allowSticky)
    (pre rest : List Str) (r : List Opt) (hpre : c.run pre = .ok r) (hdash : ['-', '-'] ∉ pre)
    (ss : List Char) (hsw : ∀ s ∈ ss, SwitchLetter c s) (z : Char) (hz : z ≠ '-') (t : Str)
    (h1 : ∀ u, u <:+ ss ++ z :: t → Unclaimed c ('-' :: u)) (h2 : ∀ s ∈ ss, Unclaimed c ['-', s]) :
    meaning (c.run (pre ++ ('-' :: (ss ++ z :: t)) :: rest)) = meaning (c.run (pre ++ (ss.map (fun s => ['-', s]) ++ ('-' :: z :: t) :: rest))) := by
  obtain ⟨os, hp, _⟩ := (c.run_pass hs pre r).1 hpre
  exact Cmdline.meaning_eq (c.run_like hs pre _ _ os hp hdash (c.first_switches hs hne he hdis hst z t hz rest ss hsw h1 h2))

example : Enabled Spelling_demo Style.allowSticky ∧ (∀ s ∈ ['a', 'b'], SwitchLetter Spelling_demo s) ∧
    (∀ d ∈ Spelling_demo.desc, ∀ name, name ≠ [] → reportedKey d name ≠ []) ∧
    (Spelling_demo.run [Test.L "x", Test.L "-abn5", Test.L "-a"]).map (·.map fun o => (o.stringKey, o.value)) =
      .ok [([], [['x']]), (Test.L "all", []), (Test.L "brief", []), (Test.L "number", [Test.L "5"]), (Test.L "all", [])] ∧
    (Spelling_demo.run [Test.L "x", Test.L "-a", Test.L "-b", Test.L "-n5", Test.L "-a"]).map (·.map fun o => (o.stringKey, o.value)) =
      .ok [([], [['x']]), (Test.L "all", []), (Test.L "brief", []), (Test.L "number", [Test.L "5"]), (Test.L "all", [])] := by
  refine ⟨by unfold Enabled; decide, ?_, ?_, rfl, rfl⟩
  · intro s hs
    simp only [List.mem_cons, List.not_mem_nil, or_false] at hs
    rcases hs with rfl | rfl
    · exact ⟨by decide, Test.od "all,a" Test.unt, rfl, Cmdline.lookup_denotes.1 rfl, by decide, by decide⟩
    · exact ⟨by decide, Test.od "brief,b" Test.unt, rfl, Cmdline.lookup_denotes.1 rfl, by decide, by decide⟩
  · intro d hd name hn
    simp only [Spelling_demo, List.mem_cons, List.not_mem_nil, or_false] at hd
    rcases hd with rfl | rfl | rfl <;> exact fun h => by cases h

end PO
