import Verif.Lemmas.CmdlineParts
import Verif.Lemmas.CmdlineFail
import Verif.Model.Parsers
import Verif.Props.Parse
import Mathlib.Data.List.Perm.Basic
/-
C08, C11, C12, C19, C20, C23: where the tokens of a command line go.
-/
namespace PO
open Spec

/-- Came without an option name. -/
def Spec.positionals (res : List Opt) : List Opt := res.filter (·.positionKey ≠ -1)

namespace Cmdline

theorem positionals_setCase (c : Cmdline) (os : List Opt) : positionals (os.map c.setCase) = (positionals os).map c.setCase := by
  unfold positionals
  rw [List.filter_map]
  congr 1
  congr 1
  funext o
  simp [setCase_positionKey]

theorem positionals_number (c : Cmdline) (name : Nat → Str) (r2 : List Opt) (hw : ∀ o ∈ r2, o.stringKey ≠ [] → o.positionKey = -1) :
    positionals ((number name 0 r2).map c.setCase) =
      (unnamed r2).mapIdx fun i o => c.setCase { o with positionKey := (i : Int), stringKey := name i } := by
  rw [positionals_setCase]
  unfold positionals
  rw [number_positional name 0 r2 hw]
  apply List.ext_getElem?
  intro i
  rw [List.getElem?_map, List.getElem?_mapIdx, List.getElem?_mapIdx, Nat.zero_add]
  cases (unnamed r2)[i]? <;> rfl

theorem posName_eq (p : Positional) (n i : Nat) (h : tooMany p n = false) (hi : i < n) : p.nameForPosition i = .ok (posName p i) := by
  apply nameForPosition_ok
  unfold tooMany at h
  unfold Positional.full
  cases hm : p.maxTotalCount with
  | none => rfl
  | some m => rw [hm] at h; simp at h ⊢; omega

/-- Without the positional description. -/
theorem alike_positional (c : Cmdline) (p : Option Positional) : Alike { c with positional := p } c :=
  ⟨fun _ _ => rfl, rfl, rfl, rfl, rfl⟩

/-- Neither of the first two passes complains about the number of positional arguments. -/
theorem not_tooMany (c : Cmdline) (hs : c.styleParser = none) (hp : c.positional = none) (args : List Str) :
    c.run args ≠ .error .tooManyPositional := by
  unfold run runFuel
  intro h
  cases hl : c.loop (args.length + 1) args with
  | error f =>
    rw [hl] at h
    cases h
    have hk : Kind fun f => f ≠ .tooManyPositional :=
      ⟨fun f n t s h => by cases f <;> simp_all [Fail.addContext], fun alts => by simp [errAmbiguous], fun k n t s => by simp [errSyntax]⟩
    have hb : Behaved (fun _ => True) (fun f => f ≠ .tooManyPositional) c.parsers :=
      behaved hk (fun _ _ => trivial) (fun _ => by simp) c fun p hp => by rw [hs] at hp; cases hp
    rcases loop_err hk (fun _ _ => trivial) (fun _ => by simp) c (.inr (by simp [errUnknown])) hb _ _ _ hl with h | h
    · exact h rfl
    · cases h
  | ok os =>
    rw [hl] at h
    simp only at h
    unfold finalize applyPositional at h
    rw [hp] at h
    cases hr : c.regroup 0 os with
    | error f =>
      rw [hr] at h
      cases h
      rcases c.regroup_err _ _ _ hr with ⟨_, _, _, _, h⟩ | ⟨_, h⟩ <;> simp [errAmbiguous, Fail.addContext] at h
    | ok r => rw [hr] at h; cases h

end Cmdline

/-! ### C08 -/

/-- **C08, numbering and naming.** The `i`-th positional argument has position `i` and the name declared for it. -/
theorem C08_numbered (c : Cmdline) (hs : c.styleParser = none) (args : List Str) (res : List Opt) (h : c.run args = .ok res)
    (i : Nat) (o : Opt) (ho : (positionals res)[i]? = some o) :
    o.positionKey = i ∧ o.unregistered = false ∧
      match c.positional with
      | none => o.stringKey = []
      | some p => p.nameForPosition i = .ok o.stringKey := by
  obtain ⟨os, r2, name, hp, hrg, hr, rfl, hw, hn⟩ := c.run_passes hs args res h
  rw [c.positionals_number _ _ hw, List.getElem?_mapIdx] at ho
  cases hq : (Cmdline.unnamed r2)[i]? with
  | none => rw [hq] at ho; cases ho
  | some q =>
    rw [hq] at ho
    cases ho
    rw [Cmdline.setCase_positionKey, Cmdline.setCase_unregistered, Cmdline.setCase_stringKey]
    obtain ⟨hi, _⟩ := List.getElem?_eq_some_iff.1 hq
    have hmem : q ∈ Cmdline.unnamed r2 := List.mem_of_getElem? hq
    obtain ⟨hq2, hk⟩ := List.mem_filter.1 hmem
    simp only [decide_eq_true_eq] at hk
    refine ⟨rfl, ?_, ?_⟩
    · obtain ⟨o1, ho1, ps, _, rfl, hm⟩ := hrg.mem q hq2
      show o1.unregistered = false
      cases hp.made o1 ho1 with
      | unknown tok name value tokens ht hw hn hl hu => exact absurd hk hn
      | _ => rfl
    · cases hpos : c.positional with
      | none => rw [hpos] at hn; simp only at hn; rw [hn]
      | some p =>
        rw [hpos] at hn
        simp only at hn ⊢
        rw [hn.1]
        exact Cmdline.posName_eq p _ i hn.2 hi

/-- **C08, what is positional.** If no option has an empty canonical name, the positional arguments are the tokens not recognised
as option and not taken as values, the tokens after the terminator, and the `--=x` ones. -/
theorem C08_unnamed (c : Cmdline) (hs : c.styleParser = none) (hne : ∀ d ∈ c.desc, ∀ name, name ≠ [] → reportedKey d name ≠ [])
    (args : List Str) (res : List Opt) (h : c.run args = .ok res) (o : Opt) (ho : o ∈ res) (hp : o.positionKey ≠ -1) :
    (∃ tok ∈ args, o.value = [tok] ∧ o.originalTokens = [tok]) ∨
    (∃ tok ∈ args, ∃ v, Written c tok [] [v] o.originalTokens ∧ o.value = [v]) := by
  obtain ⟨os, r2, name, hpass, hrg, hr, rfl, hw, hn⟩ := c.run_passes hs args res h
  obtain ⟨o2, ho2, rfl⟩ := List.mem_map.1 ho
  rw [Cmdline.setCase_positionKey] at hp
  rw [Cmdline.setCase_value, Cmdline.setCase_originalTokens]
  rcases Cmdline.number_mem _ _ _ _ ho2 with ⟨h1, h2⟩ | ⟨q, hq, i, hk, rfl⟩
  · exact absurd (hw _ h1 h2) hp
  · obtain ⟨o1, ho1, ps, _, rfl, hm⟩ := hrg.mem q hq
    have hps : ps = [] := by
      rcases hm with hm | ⟨d, hk', _⟩
      · exact hm
      · exact absurd hk hk'
    subst hps
    rw [Cmdline.with_nil] at hk ⊢
    cases hpass.made o1 ho1 with
    | plain tok ht hf => exact .inl ⟨tok, ht, rfl, rfl⟩
    | after tok ht => exact .inl ⟨tok, ht, rfl, rfl⟩
    | nameless v tok ht hw => exact .inr ⟨tok, ht, v, hw, rfl⟩
    | unknown tok name value tokens ht hw hn hl hu => exact absurd hk hn
    | known tok name value tokens d taken ht hw hn hl htk hx =>
      have hd := Cmdline.lookup_denotes.1 hl
      exact absurd ((key_eq d name).symm.trans hk) (hne d hd.mem name hn)

/-- **C08, surplus.** With a positional description the parse fails with "too many positional options" exactly when, without the
description, it succeeds with more positional arguments than the description allows. -/
theorem C08_too_many (c : Cmdline) (hs : c.styleParser = none) (p : Positional) (hp : c.positional = some p) (args : List Str) :
    c.run args = .error .tooManyPositional ↔
      ∃ res m, { c with positional := none }.run args = .ok res ∧ p.maxTotalCount = some m ∧ m < (positionals res).length := by
  have hloop : ∀ fuel args, { c with positional := none }.loop fuel args = c.loop fuel args := fun f a => (c.alike_positional none).agree.loop f a
  have hreg : ∀ k os, { c with positional := none }.regroup k os = c.regroup k os := fun f a => (c.alike_positional none).agree.regroup f a
  constructor
  · intro h
    have h0 := Cmdline.not_tooMany { c with positional := none } hs rfl args
    unfold Cmdline.run Cmdline.runFuel at h h0 ⊢
    rw [hloop] at h0 ⊢
    cases hl : c.loop (args.length + 1) args with
    | error f => rw [hl] at h h0; cases h; exact absurd rfl h0
    | ok os =>
      rw [hl] at h h0
      simp only at h h0 ⊢
      cases hr : c.regroup 0 os with
      | error f =>
        unfold Cmdline.finalize at h h0
        rw [hreg, hr] at h0
        rw [hr] at h
        exact absurd h h0
      | ok r2 =>
        have hw : ∀ o ∈ r2, o.stringKey ≠ [] → o.positionKey = -1 := by
          intro o ho hk
          obtain ⟨o1, ho1, ps, _, rfl, _⟩ := (c.regroup_regrouped _ _ hr).mem o ho
          exact ((c.loop_pass hs _ _ _ hl).made o1 ho1).position hk
        rw [c.finalize_eq _ _ hr hw, hp] at h
        simp only at h
        have hfin := Cmdline.finalize_eq { c with positional := none } os r2 (by rw [hreg, hr]) hw
        simp only at hfin
        by_cases ht : Cmdline.tooMany p (Cmdline.unnamed r2).length = true
        · unfold Cmdline.tooMany at ht
          cases hm : p.maxTotalCount with
          | none => rw [hm] at ht; simp at ht
          | some m =>
            rw [hm] at ht
            refine ⟨_, m, hfin, rfl, ?_⟩
            rw [Cmdline.positionals_number _ _ _ hw]
            simpa using ht
        · rw [if_neg ht] at h; cases h
  · rintro ⟨res, m, h, hm, hlt⟩
    obtain ⟨os, hpass, hf⟩ := (Cmdline.run_pass { c with positional := none } hs args res).1 h
    unfold Cmdline.run Cmdline.runFuel at h ⊢
    rw [hloop] at h
    cases hl : c.loop (args.length + 1) args with
    | error f => rw [hl] at h; cases h
    | ok os =>
      rw [hl] at h
      simp only at h ⊢
      cases hr : c.regroup 0 os with
      | error f =>
        unfold Cmdline.finalize at h
        rw [hreg, hr] at h
        cases h
      | ok r2 =>
        have hw : ∀ o ∈ r2, o.stringKey ≠ [] → o.positionKey = -1 := by
          intro o ho hk
          obtain ⟨o1, ho1, ps, _, rfl, _⟩ := (c.regroup_regrouped _ _ hr).mem o ho
          exact ((c.loop_pass hs _ _ _ hl).made o1 ho1).position hk
        rw [Cmdline.finalize_eq { c with positional := none } os r2 (by rw [hreg, hr]) hw] at h
        simp only at h
        cases h
        rw [Cmdline.positionals_number _ _ _ hw] at hlt
        rw [c.finalize_eq _ _ hr hw, hp]
        simp only
        rw [if_pos]
        unfold Cmdline.tooMany
        rw [hm]
        simpa using hlt

example : (({ desc := [Test.od "foo,f" (Test.sem Test.vint)], positional := some { names := [Test.L "in"], trailing := Test.L "rest" } } : Cmdline).run
    [Test.L "x", Test.L "--foo", Test.L "1", Test.L "y", Test.L "--", Test.L "-z"]).map (·.map fun o => (o.positionKey, o.stringKey, o.value)) =
    .ok [(0, Test.L "in", [Test.L "x"]), (-1, Test.L "foo", [Test.L "1"]), (1, Test.L "rest", [Test.L "y"]), (2, Test.L "rest", [Test.L "-z"])] := by rfl

example : ({ desc := [], positional := some { names := [Test.L "in"] } } : Cmdline).run [Test.L "x", Test.L "y"] = .error .tooManyPositional := by rfl

/-- Without its name, if it is positional. -/
def Spec.anonymous (o : Opt) : Opt := if o.positionKey = -1 then o else { o with stringKey := [], caseInsensitive := false }

theorem number_anonymous (c : Cmdline) (name : Nat → Str) (n : Nat) (os : List Opt) :
    (Cmdline.number name n os).map (anonymous ∘ c.setCase) = (Cmdline.number (fun _ => []) n os).map (anonymous ∘ c.setCase) := by
  induction os generalizing n with
  | nil => rfl
  | cons o os ih =>
    rw [Cmdline.number, Cmdline.number]
    by_cases hk : o.stringKey = []
    · rw [if_pos hk, if_pos hk, List.map_cons, List.map_cons, ih]
      congr 1
      simp only [Function.comp_apply, anonymous, Cmdline.setCase_positionKey]
      have h1 : ((n : Int) = -1) = False := by simp
      simp only [h1, if_false, Cmdline.setCase_value, Cmdline.setCase_originalTokens, Cmdline.setCase_unregistered]
    · rw [if_neg hk, if_neg hk, List.map_cons, List.map_cons, ih]

/-- **C08, nothing else.** Giving a description that allows the positional arguments only changes their names. -/
theorem C08_only_names (c : Cmdline) (hs : c.styleParser = none) (p : Positional) (hp : c.positional = some p) (args : List Str)
    (res0 : List Opt) (h : { c with positional := none }.run args = .ok res0) (hm : ∀ m, p.maxTotalCount = some m → (positionals res0).length ≤ m) :
    ∃ res, c.run args = .ok res ∧ res.map anonymous = res0.map anonymous := by
  obtain ⟨os, r2, name, hpass, _, hr, rfl, hw, hn⟩ := Cmdline.run_passes { c with positional := none } hs args res0 h
  simp only at hn
  subst hn
  rw [Cmdline.positionals_number _ _ _ hw] at hm
  have hl := Cmdline.pass_loop { c with positional := none } hs _ _ hpass (args.length + 1) (by omega)
  rw [(c.alike_positional none).agree.loop] at hl
  rw [(c.alike_positional none).agree.regroup] at hr
  refine ⟨(Cmdline.number (Cmdline.posName p) 0 r2).map c.setCase, ?_, ?_⟩
  · unfold Cmdline.run Cmdline.runFuel
    rw [hl]
    simp only
    rw [c.finalize_eq _ _ hr hw, hp]
    simp only
    rw [if_neg]
    unfold Cmdline.tooMany
    cases hmt : p.maxTotalCount with
    | none => simp
    | some m => have := hm m hmt; simp at this ⊢; omega
  · rw [(c.alike_positional none).setCase, List.map_map, List.map_map]
    exact number_anonymous c _ 0 r2

/-! ### C11 -/

/-- **C11.** The original tokens of the options, in order, are the command line, or the command line up to a terminator followed by
what comes after it, one positional argument per token. -/
theorem C11_tokens_conserved (c : Cmdline) (hs : c.styleParser = none) (ha : c.additional = none)
    (hd : ¬ Enabled c Style.allowLongDisguise) (args : List Str) (res : List Opt) (h : c.run args = .ok res) :
    res.flatMap (·.originalTokens) = args ∨
    ∃ pre post res1 res2, args = pre ++ ['-', '-'] :: post ∧ res = res1 ++ res2 ∧ res1.flatMap (·.originalTokens) = pre ∧
      res2.map (·.originalTokens) = post.map ([·]) ∧ res2.map (·.value) = post.map ([·]) ∧ ∀ o ∈ res2, o.positionKey ≠ -1 := by
  obtain ⟨pre, post, r1, name, h1, rfl, h2, _⟩ := c.run_split hs args res h (by simpa [Enabled] using hd) (by simp [ha])
  have e : ((Cmdline.number name 0 r1).map c.setCase).flatMap (·.originalTokens) = pre := by
    have := (c.setCase_collect (Cmdline.number name 0 r1)).2
    rw [(Cmdline.number_collect name 0 r1).2, h2] at this
    exact this
  rcases h1 with ⟨rfl, rfl⟩ | rfl
  · left
    simpa [Cmdline.number] using e
  · right
    refine ⟨pre, post, _, _, rfl, rfl, e, ?_, ?_, ?_⟩
    all_goals rw [Cmdline.number_after]
    · apply List.ext_getElem?
      intro i
      simp only [List.getElem?_map, List.getElem?_mapIdx]
      cases post[i]? <;> simp [Cmdline.setCase_originalTokens]
    · apply List.ext_getElem?
      intro i
      simp only [List.getElem?_map, List.getElem?_mapIdx]
      cases post[i]? <;> simp [Cmdline.setCase_value]
    · intro o ho
      obtain ⟨q, hq, rfl⟩ := List.mem_map.1 ho
      obtain ⟨i, hi, rfl⟩ := List.mem_mapIdx.1 hq
      rw [Cmdline.setCase_positionKey]
      simp only
      omega

example : (({ desc := [Test.od "foo,f" (Test.sem Test.vint), Test.od "v,v" Test.unt, Test.od "m" (Test.sem { Test.vvec with multitoken := true })] } : Cmdline).run
    [Test.L "x", Test.L "--foo=1", Test.L "-vvf2", Test.L "--m", Test.L "a", Test.L "b", Test.L "--", Test.L "-z"]).map (·.map (·.originalTokens)) =
    .ok [[Test.L "x"], [Test.L "--foo=1"], [], [], [Test.L "-vvf2"], [Test.L "--m", Test.L "a", Test.L "b"], [Test.L "-z"]] := by rfl

/-- The condition on disguised long options is needed: the recorded token gets another dash. -/
theorem C11_disguised_rewrites : ∃ (c : Cmdline) (args : List Str) (res : List Opt), c.styleParser = none ∧ c.additional = none ∧
    c.run args = .ok res ∧ res.map (·.originalTokens) = [[Test.L "--foo"]] ∧ args = [Test.L "-foo"] :=
  ⟨{ style := Style.allowLongDisguise ||| Style.longAllowNext, desc := [Test.od "foo" Test.unt] }, _, _, rfl, rfl, rfl, rfl, rfl⟩

/-- So is the one on additional parsers: their tokens are not recorded. -/
theorem C11_additional_drops : ∃ (c : Cmdline) (args : List Str) (res : List Opt), c.styleParser = none ∧ ¬ Enabled c Style.allowLongDisguise ∧
    c.run args = .ok res ∧ res.map (·.originalTokens) = [[]] ∧ args = [Test.L "@x"] :=
  ⟨{ desc := [Test.od "foo" (Test.sem Test.vstr)], additional := some fun t => (Test.L "foo", t) }, _, _, rfl, by unfold Enabled; decide, rfl, rfl, rfl⟩

/-! ### C12 -/

/-- **C12.** If `pre` parses and has no terminator, then a terminator and further tokens add one positional argument per token,
numbered on from those of `pre`; with a positional description they get the names declared for their positions, provided it allows that many, and
otherwise the parse fails. -/
theorem C12_terminator (c : Cmdline) (hs : c.styleParser = none) (ha : ∀ f, c.additional = some f → (f ['-', '-']).1 = [])
    (pre post : List Str) (hpre : ['-', '-'] ∉ pre) (res : List Opt) (h : c.run pre = .ok res) :
    match c.positional with
    | none => ∃ tail : List Opt, c.run (pre ++ ['-', '-'] :: post) = .ok (res ++ tail) ∧ tail.length = post.length ∧
        ∀ (i : Nat) (t : Str), post[i]? = some t → ∃ o, tail[i]? = some o ∧ o.value = [t] ∧ o.originalTokens = [t] ∧
          o.positionKey = ((positionals res).length + i : Nat) ∧ o.unregistered = false ∧ o.stringKey = []
    | some p =>
      ((∀ m, p.maxTotalCount = some m → (positionals res).length + post.length ≤ m) →
        ∃ tail : List Opt, c.run (pre ++ ['-', '-'] :: post) = .ok (res ++ tail) ∧ tail.length = post.length ∧
        ∀ (i : Nat) (t : Str), post[i]? = some t → ∃ o, tail[i]? = some o ∧ o.value = [t] ∧ o.originalTokens = [t] ∧
          o.positionKey = ((positionals res).length + i : Nat) ∧ o.unregistered = false ∧
          p.nameForPosition ((positionals res).length + i) = .ok o.stringKey) ∧
      ((∃ m, p.maxTotalCount = some m ∧ m < (positionals res).length + post.length) →
        c.run (pre ++ ['-', '-'] :: post) = .error .tooManyPositional) := by
  obtain ⟨os, r2, name, hpass, _, hr, rfl, hw, hn⟩ := c.run_passes hs pre res h
  have hpass' := hpass.append hpre (Cmdline.Pass.dashes (rest := post) (c.front_dashes ha))
  have hl := c.pass_loop hs _ _ hpass' ((pre ++ ['-', '-'] :: post).length + 1) (by omega)
  have hr' : c.regroup 0 (os ++ post.map Cmdline.afterDashes) = .ok (r2 ++ post.map Cmdline.afterDashes) := by
    rw [c.regroup_append 0 os _ (by simp), hr]
    · rfl
    · intro a ha
      obtain ⟨t, _, rfl⟩ := List.mem_map.1 ha
      exact ⟨rfl, rfl⟩
  have hw' : ∀ o ∈ r2 ++ post.map Cmdline.afterDashes, o.stringKey ≠ [] → o.positionKey = -1 := by
    intro o ho hk
    rcases List.mem_append.1 ho with ho | ho
    · exact hw o ho hk
    · obtain ⟨t, _, rfl⟩ := List.mem_map.1 ho
      exact absurd rfl hk
  have hun : (Cmdline.unnamed (r2 ++ post.map Cmdline.afterDashes)).length = (Cmdline.unnamed r2).length + post.length := by
    unfold Cmdline.unnamed
    rw [List.filter_append, List.length_append, List.filter_eq_self (l := post.map Cmdline.afterDashes).2]
    · simp
    · intro a ha
      obtain ⟨t, _, rfl⟩ := List.mem_map.1 ha
      simp [Cmdline.afterDashes]
  have hrun := c.finalize_eq _ _ hr' hw'
  have hk : (positionals ((Cmdline.number name 0 r2).map c.setCase)).length = (Cmdline.unnamed r2).length := by
    rw [c.positionals_number _ _ hw]; simp
  rw [hk]
  have e : c.run (pre ++ ['-', '-'] :: post) = c.finalize (os ++ post.map Cmdline.afterDashes) := by
    unfold Cmdline.run Cmdline.runFuel
    rw [hl]
  rw [e, hrun]
  have htail : ∀ name : Nat → Str, (Cmdline.number name 0 (r2 ++ post.map Cmdline.afterDashes)).map c.setCase =
      (Cmdline.number name 0 r2).map c.setCase ++ (Cmdline.number name (Cmdline.unnamed r2).length (post.map Cmdline.afterDashes)).map c.setCase := by
    intro name
    rw [Cmdline.number_append, List.map_append, Nat.zero_add]
  cases hpos : c.positional with
  | none =>
    rw [hpos] at hn
    simp only at hn ⊢
    subst hn
    rw [htail]
    refine ⟨_, rfl, by simp [Cmdline.number_after], ?_⟩
    intro i t ht
    rw [Cmdline.number_after, List.getElem?_map, List.getElem?_mapIdx, ht]
    exact ⟨_, rfl, by rw [Cmdline.setCase_value], by rw [Cmdline.setCase_originalTokens], by rw [Cmdline.setCase_positionKey],
      by rw [Cmdline.setCase_unregistered], by rw [Cmdline.setCase_stringKey]⟩
  | some p =>
    rw [hpos] at hn
    simp only at hn ⊢
    rw [hn.1]
    have hiff : Cmdline.tooMany p ((Cmdline.unnamed r2).length + post.length) = true ↔
        ¬ ∀ m, p.maxTotalCount = some m → (Cmdline.unnamed r2).length + post.length ≤ m := by
      unfold Cmdline.tooMany
      cases p.maxTotalCount with
      | none => simp
      | some m => simp
    rw [hun]
    constructor
    · intro hm
      have ht : ¬ Cmdline.tooMany p ((Cmdline.unnamed r2).length + post.length) = true := fun h => hiff.1 h hm
      rw [if_neg ht, htail]
      refine ⟨_, rfl, by simp [Cmdline.number_after], ?_⟩
      intro i t hit
      rw [Cmdline.number_after, List.getElem?_map, List.getElem?_mapIdx, hit]
      refine ⟨_, rfl, by rw [Cmdline.setCase_value], by rw [Cmdline.setCase_originalTokens], by rw [Cmdline.setCase_positionKey],
        by rw [Cmdline.setCase_unregistered], ?_⟩
      rw [Cmdline.setCase_stringKey]
      obtain ⟨hi, _⟩ := List.getElem?_eq_some_iff.1 hit
      exact Cmdline.posName_eq p _ _ (by simpa using ht) (by omega)
    · rintro ⟨m, hm, hlt⟩
      rw [if_pos (hiff.2 fun h => by have := h m hm; omega)]

example : (({ desc := [Test.od "m" (Test.sem { Test.vvec with multitoken := true })] } : Cmdline).run
    [Test.L "--m", Test.L "a", Test.L "--", Test.L "b", Test.L "--m", Test.L "--"]).map (·.map fun o => (o.positionKey, o.value)) =
    .ok [(-1, [Test.L "a"]), (0, [Test.L "b"]), (1, [Test.L "--m"]), (2, [Test.L "--"])] := by rfl

/-- `pre` must have no terminator: it can be the value of an option. -/
example : (({ desc := [Test.od "foo" (Test.sem Test.vstr), Test.od "v" Test.unt] } : Cmdline).run
    [Test.L "--foo", Test.L "--", Test.L "--v"]).map (·.map fun o => (o.stringKey, o.value)) =
    .ok [(Test.L "foo", [Test.L "--"]), (Test.L "v", [])] := by rfl

/-! ### C19 -/

theorem collect_sublist (mode : CollectMode) (res : List Opt) : (collectUnrecognized mode res).Sublist (res.flatMap (·.originalTokens)) := by
  induction res with
  | nil => exact .slnil
  | cons o res ih =>
    rw [collectUnrecognized, List.flatMap_cons]
    split
    · exact (List.Sublist.refl _).append ih
    · exact ih.trans (List.sublist_append_right _ _)

/-- **C19, subsequence.** -/
theorem C19_subsequence (c : Cmdline) (hs : c.styleParser = none) (hd : ¬ Enabled c Style.allowLongDisguise)
    (args : List Str) (res : List Opt) (h : c.run args = .ok res) (mode : CollectMode) :
    (collectUnrecognized mode res).Sublist args := by
  refine (collect_sublist mode res).trans ?_
  obtain ⟨os, r2, name, hp, hrg, _, rfl, _⟩ := c.run_passes hs args res h
  have := (c.setCase_collect (Cmdline.number name 0 r2)).2
  rw [(Cmdline.number_collect name 0 r2).2, hrg.collect.2] at this
  have hsub := hp.tokens_sublist (by simpa [Enabled] using hd)
  rw [← this] at hsub
  exact hsub

/-- The tokens of recognised named options. -/
def Spec.recognised (res : List Opt) : List Str :=
  (res.filter fun o => o.positionKey = -1 ∧ o.unregistered = false).flatMap (·.originalTokens)

theorem collect_perm (res : List Opt) :
    (collectUnrecognized .includePositional res ++ recognised res).Perm (res.flatMap (·.originalTokens)) := by
  induction res with
  | nil => exact .refl _
  | cons o res ih =>
    rw [collectUnrecognized, List.flatMap_cons]
    by_cases h : o.unregistered ∨ (CollectMode.includePositional = .includePositional ∧ o.positionKey ≠ -1)
    · have : recognised (o :: res) = recognised res := by
        unfold recognised
        rw [List.filter_cons_of_neg]
        rcases h with h | h
        · simp [h]
        · simp [h.2]
      rw [if_pos h, this, List.append_assoc]
      exact ih.append_left _
    · have : recognised (o :: res) = o.originalTokens ++ recognised res := by
        unfold recognised
        rw [List.filter_cons_of_pos, List.flatMap_cons]
        simp at h
        simp [h]
      rw [if_neg h, this]
      refine (List.perm_append_comm_assoc _ _ _).trans ?_
      exact ih.append_left _

/-- **C19, completeness.** With `include_positional` every token of the command line, except perhaps one terminator, is returned or belongs
to a recognised named option, and that exactly once. -/
theorem C19_complete (c : Cmdline) (hs : c.styleParser = none) (ha : c.additional = none) (hd : ¬ Enabled c Style.allowLongDisguise)
    (args : List Str) (res : List Opt) (h : c.run args = .ok res) :
    args.Perm (collectUnrecognized .includePositional res ++ recognised res) ∨
    args.Perm (['-', '-'] :: (collectUnrecognized .includePositional res ++ recognised res)) := by
  have hperm := collect_perm res
  rcases C11_tokens_conserved c hs ha hd args res h with h | ⟨pre, post, res1, res2, rfl, rfl, h1, h2, _⟩
  · rw [h] at hperm
    exact .inl hperm.symm
  · right
    have e : res2.flatMap (·.originalTokens) = post := by
      rw [List.flatMap_def, h2, ← List.flatMap_def]
      simp
    rw [List.flatMap_append, h1, e] at hperm
    exact (List.perm_middle).trans (hperm.symm.cons _)

example : (({ desc := [Test.od "foo,f" (Test.sem Test.vint)], allowUnregistered := true } : Cmdline).run
    [Test.L "--bar=1", Test.L "x", Test.L "--foo", Test.L "1", Test.L "-q", Test.L "--", Test.L "y"]).map
      (fun r => (collectUnrecognized .includePositional r, collectUnrecognized .excludePositional r)) =
    .ok ([Test.L "--bar=1", Test.L "x", Test.L "-q", Test.L "y"], [Test.L "--bar=1", Test.L "-q"]) := by rfl

/-! ### C20 -/

/-- **C20.** Parsing a command line depends only on the names and the token counts of the options, in order. -/
theorem C20_names_and_counts (c c' : Cmdline)
    (hdesc : c.desc.map (fun d => (d.shortName, d.longNames, d.semantic.minTokens, d.semantic.maxTokens)) =
      c'.desc.map (fun d => (d.shortName, d.longNames, d.semantic.minTokens, d.semantic.maxTokens)))
    (hrest : { c with desc := [] } = { c' with desc := [] }) (args : List Str) : c.run args = c'.run args := by
  simp only [Cmdline.mk.injEq] at hrest
  obtain ⟨h1, h2, _, h3, h4, h5⟩ := hrest
  exact Cmdline.Alike.run ⟨fun b _ => by rw [h1], h2, hdesc, h4, h5⟩ h3 args

/-- Two different options for which it says something. -/
example : ([Test.od "foo,f" (Test.sem Test.vint) "an int"].map fun d => (d.shortName, d.longNames, d.semantic.minTokens, d.semantic.maxTokens)) =
    [Test.od "foo,f" (Test.sem { Test.vvec with required := true, composing := true }) "strings"].map
      fun d => (d.shortName, d.longNames, d.semantic.minTokens, d.semantic.maxTokens) := by rfl

/-! ### C16 -/

/-- The four bits that say where values may be placed. -/
def Spec.placementBits : Nat := Style.longAllowAdjacent ||| Style.longAllowNext ||| Style.shortAllowAdjacent ||| Style.shortAllowNext

/-- C16 as claimed, for long options and a value in the next token. -/
def C16_claim : Prop :=
  ∀ (c : Cmdline) (d : OptionDesc) (name v : Str), checkStyle c.style = .ok () → ¬ Enabled c Style.longAllowNext → d ∈ c.desc →
    d.longNames = [name] → d.semantic.minTokens = 1 → ∃ f, c.run ['-' :: '-' :: name, v] = .error f

/-- C16 as claimed, for long options and an adjacent value. -/
def C16_claim_adjacent : Prop :=
  ∀ (c : Cmdline) (d : OptionDesc) (name v : Str), checkStyle c.style = .ok () → ¬ Enabled c Style.longAllowAdjacent → d ∈ c.desc →
    d.longNames = [name] → d.semantic.maxTokens = 1 → ∃ f, c.run ['-' :: '-' :: name ++ '=' :: v] = .error f

/-- **C16 is false in the code**: `--foo bar` is accepted although the style allows adjacent values only. -/
theorem C16_negation : ¬ C16_claim := by
  intro h
  obtain ⟨f, hf⟩ := h { style := Style.allowLong ||| Style.longAllowAdjacent, desc := [Test.od "foo" (Test.sem Test.vstr)] }
    (Test.od "foo" (Test.sem Test.vstr)) (Test.L "foo") (Test.L "bar") rfl (by unfold Enabled; decide) (by simp) rfl rfl
  have : ({ style := Style.allowLong ||| Style.longAllowAdjacent, desc := [Test.od "foo" (Test.sem Test.vstr)] } : Cmdline).run
    ['-' :: '-' :: Test.L "foo", Test.L "bar"] = .ok [{ stringKey := Test.L "foo", value := [Test.L "bar"], originalTokens := [Test.L "--foo", Test.L "bar"] }] := by rfl
  rw [this] at hf
  cases hf

theorem C16_negation_adjacent : ¬ C16_claim_adjacent := by
  intro h
  obtain ⟨f, hf⟩ := h { style := Style.allowLong ||| Style.longAllowNext, desc := [Test.od "foo" (Test.sem Test.vstr)] }
    (Test.od "foo" (Test.sem Test.vstr)) (Test.L "foo") (Test.L "bar") rfl (by unfold Enabled; decide) (by simp) rfl rfl
  have : ({ style := Style.allowLong ||| Style.longAllowNext, desc := [Test.od "foo" (Test.sem Test.vstr)] } : Cmdline).run
    ['-' :: '-' :: Test.L "foo" ++ '=' :: Test.L "bar"] = .ok [{ stringKey := Test.L "foo", value := [Test.L "bar"], originalTokens := [Test.L "--foo=bar"] }] := by rfl
  rw [this] at hf
  cases hf

/-- The four bits never influence the result: styles that agree on the nine other bits give the same parse. -/
theorem C16_placement_ignored (c : Cmdline) (style' : Nat)
    (h : ∀ b ∈ [Style.allowLong, Style.allowShort, Style.allowDashForShort, Style.allowSlashForShort, Style.allowSticky, Style.allowGuessing,
      Style.longCaseInsensitive, Style.shortCaseInsensitive, Style.allowLongDisguise], active c.style b = active style' b) (args : List Str) :
    c.run args = { c with style := style' }.run args :=
  Cmdline.Alike.run (c := c) (c' := { c with style := style' }) ⟨h, rfl, rfl, rfl, rfl⟩ rfl args

/-- What is left of C16: the only effect of the four bits is that a style with none of the two for an enabled kind of option is refused. -/
theorem C16_placement_partial (c : Cmdline) (style : Nat) (h0 : style ≠ 0)
    (hl : active style Style.allowLong = true ∨ active style Style.allowLongDisguise = true)
    (hn : active style Style.longAllowAdjacent = false) (hn' : active style Style.longAllowNext = false) :
    ∃ msg, c.setStyle style = .error (.invalidStyle msg) := by
  refine ⟨msgLong, ?_⟩
  unfold Cmdline.setStyle checkStyle
  simp only [if_neg h0, hn, hn']
  rcases hl with hl | hl <;> simp [hl]

/-! ### C22 -/

/-- C22 as claimed: the option keeps no value, if it is not written in the same token. -/
def C22_claim : Prop :=
  ∀ (c : Cmdline) (name : Str) (d : OptionDesc) (rest : List Str) (res : List Opt), c.styleParser = none → Denotes c name d →
    d.semantic.minTokens = 0 → d.semantic.maxTokens = 1 → c.run (('-' :: '-' :: name) :: rest) = .ok res →
    ∃ o res', res = o :: res' ∧ o.value = []

/-- An option with an implicit value. -/
def C22_implicit : OptionDesc := Test.od "foo" (Test.sem { Test.vint with implicit := some (.scalar (.lex 0 7), Test.L "7") })

/-- **C22 is false in the code**: the following positional argument becomes the value. -/
theorem C22_negation : ¬ C22_claim := by
  intro h
  have hr : ({ desc := [C22_implicit] } : Cmdline).run ['-' :: '-' :: Test.L "foo", Test.L "3"] =
    .ok [{ stringKey := Test.L "foo", value := [Test.L "3"], originalTokens := [Test.L "--foo", Test.L "3"] }] := by rfl
  obtain ⟨o, res', h1, h2⟩ := h { desc := [C22_implicit] } (Test.L "foo") C22_implicit [Test.L "3"] _ rfl (Cmdline.lookup_denotes.1 (by rfl)) rfl rfl hr
  cases h1
  cases h2

/-- On its own, `t` is a positional argument. -/
theorem Cmdline.run_one_plain (c : Cmdline) (hs : c.styleParser = none) (t : Str) (o : Opt) (hp : Cmdline.Pass c [t] [o]) (hk : o.stringKey = []) :
    ∃ r, { c with positional := none }.run [t] = .ok [r] ∧ r.positionKey = 0 ∧ r.value = o.value ∧ r.originalTokens = o.originalTokens := by
  have hl := c.pass_loop hs _ _ hp ([t].length + 1) (by omega)
  rw [← (c.alike_positional none).agree.loop] at hl
  have hr : { c with positional := none }.regroup 0 [o] = .ok [o] := Cmdline.regroup_unnamed _ _ (by simpa using hk)
  refine ⟨c.setCase { o with positionKey := (0 : Nat), stringKey := [] }, ?_, ?_, ?_, ?_⟩
  · unfold Cmdline.run Cmdline.runFuel
    rw [hl]
    simp only
    rw [Cmdline.finalize_eq _ _ _ hr (by simp [hk])]
    simp only [Cmdline.number, if_pos hk, List.map_cons, List.map_nil]
    rfl
  · rw [Cmdline.setCase_positionKey]; rfl
  · rw [Cmdline.setCase_value]
  · rw [Cmdline.setCase_originalTokens]

/-- **C22, what holds.** An option that takes at most one token and has a value written in the same token keeps exactly that; one without
gets no value, or that of a single token that on its own is a positional argument. -/
theorem C22_implicit_partial (c : Cmdline) (hs : c.styleParser = none) (hne : ∀ d ∈ c.desc, ∀ name, name ≠ [] → reportedKey d name ≠ [])
    (args : List Str) (res : List Opt) (h : c.run args = .ok res)
    (o : Opt) (ho : o ∈ res) (hpos : o.positionKey = -1) (hreg : o.unregistered = false) :
    ∃ tok ∈ args, ∃ name value tokens, Written c tok name value tokens ∧ ∃ d, Denotes c name d ∧ o.stringKey = reportedKey d name ∧
      (Denotes c o.stringKey d → d.semantic.minTokens = 0 → d.semantic.maxTokens = 1 →
        (value ≠ [] → o.value = value ∧ o.originalTokens = tokens) ∧
        (value = [] → o.value = [] ∨ ∃ t ∈ args, ∃ r, { c with positional := none }.run [t] = .ok [r] ∧ r.positionKey = 0 ∧
          o.value = r.value ∧ o.originalTokens = tokens ++ r.originalTokens)) := by
  obtain ⟨o1, ps, hm, hps, hk, rfl, hmerge⟩ := c.run_option hs args res h o ho hpos
  rw [Cmdline.setCase_unregistered] at hreg
  rw [Cmdline.setCase_stringKey, Cmdline.setCase_value, Cmdline.setCase_originalTokens]
  cases hm with
  | plain tok ht hf => exact absurd rfl hk
  | after tok ht => exact absurd rfl hk
  | nameless v tok ht hw => exact absurd rfl hk
  | unknown tok name value tokens ht hw hn hl hu => simp [Cmdline.with_] at hreg
  | known tok name value tokens d taken ht hw hn hl htk hx =>
    refine ⟨tok, ht, name, value, tokens, hw, d, Cmdline.lookup_denotes.1 hl, key_eq d name, ?_⟩
    intro hd hmin hmax
    have hl2 := Cmdline.lookup_denotes.2 hd
    have htk0 : taken = [] := by
      apply List.eq_nil_of_length_eq_zero
      omega
    subst htk0
    simp only [List.append_nil] at hmerge ⊢
    have hcase : ps = [] ∨ value = [] ∧ ps.length ≤ 1 := by
      rcases hmerge with h | ⟨d', hl', h1, h2, h3⟩
      · exact .inl h
      · rw [show (Cmdline.with_ { stringKey := d.key name, value := value ++ [], originalTokens := tokens ++ [] } ps).stringKey = d.key name from rfl] at hl2
        rw [hl2] at hl'
        cases hl'
        rw [hmax] at h2 h3
        have : value = [] := by simpa using h2
        subst this
        exact .inr ⟨rfl, h3 (by simp)⟩
    rcases hcase with rfl | ⟨rfl, hlen⟩
    · rw [Cmdline.with_nil]
      exact ⟨fun _ => ⟨rfl, rfl⟩, fun h => .inl h⟩
    · refine ⟨fun h => absurd rfl h, fun _ => ?_⟩
      rcases ps with _ | ⟨q, _ | ⟨q', ps⟩⟩
      · exact .inl rfl
      · right
        obtain ⟨hq, hloose⟩ := hps q (by simp)
        have key : ∃ t ∈ args, Cmdline.Pass c [t] [q] := by
          cases hq with
          | plain t ht hf hd => exact ⟨t, ht, .plain hf (by assumption) .nil⟩
          | after t ht => exact absurd rfl hloose.2.1
          | nameless v t ht hw hf =>
            refine ⟨t, ht, ?_⟩
            exact Cmdline.Pass.option (os := [{ value := [v], originalTokens := ['-' :: '-' :: '=' :: v] }]) (rest' := []) hf (by simp) rfl .nil
          | unknown tok name value tokens ht hw hn hl hu => exact absurd hloose.1 hn
          | known t n value tokens d taken ht hw hn hl htk hx =>
            exact absurd ((key_eq d n).symm.trans hloose.1) (hne d (Cmdline.lookup_denotes.1 hl).mem n hn)
        obtain ⟨t, ht, hpass⟩ := key
        obtain ⟨r, hr, h0, h1, h2⟩ := c.run_one_plain hs t q hpass hloose.1
        exact ⟨t, ht, r, hr, h0, by simp [Cmdline.with_, h1], by simp [Cmdline.with_, h2]⟩
      · simp at hlen

example : (({ desc := [C22_implicit] } : Cmdline).run [Test.L "--foo=1", Test.L "x", Test.L "--foo", Test.L "--foo", Test.L "y"]).map
    (·.map fun o => (o.stringKey, o.value)) =
    .ok [(Test.L "foo", [Test.L "1"]), ([], [Test.L "x"]), (Test.L "foo", []), (Test.L "foo", [Test.L "y"])] := by rfl

/-! ### C23 -/

/-- C23 as claimed, for a single token. -/
def C23_claim : Prop :=
  ∀ (c : Cmdline) (t : Str) (res : List Opt), c.styleParser = none → Enabled c Style.allowLong → 3 ≤ t.length → ['-', '-'] <+: t → c.run [t] = .ok res →
    ∀ o ∈ res, o.positionKey = -1

/-- **C23 is false in the code**: `--=x` is the positional argument `x`. -/
theorem C23_negation : ¬ C23_claim := by
  intro h
  have := h { desc := [] } (Test.L "--=x") [{ positionKey := 0, value := [Test.L "x"], originalTokens := [Test.L "--=x"] }] rfl (by unfold Enabled; decide) (by decide)
    (by decide) rfl _ (List.mem_singleton.2 rfl)
  simp at this

theorem Cmdline.front_nil_mem (ps : List StyleParser) (hps : ∀ p ∈ ps, Cmdline.TokParser p) (tok : Str) (h : Cmdline.lookahead ps [tok] = .ok []) :
    ∀ p ∈ ps, p [tok] = .ok ([], [tok]) := by
  induction ps with
  | nil => simp
  | cons p ps ih =>
    obtain ⟨g, hg⟩ := hps p (by simp)
    rw [Cmdline.lookahead_cons_tok hg] at h
    cases hgt : g tok with
    | error f => rw [hgt] at h; cases h
    | ok l =>
      rw [hgt] at h
      cases l with
      | cons o l => cases h
      | nil =>
        intro q hq
        rcases List.mem_cons.1 hq with rfl | hq
        · rw [hg, hgt]
        · exact ih (fun p hp => hps p (by simp [hp])) h q hq

theorem Cmdline.front_long (c : Cmdline) (hl : Enabled c Style.allowLong) (tok : Str) (h : c.front tok = .ok []) :
    ¬ (3 ≤ tok.length ∧ ['-', '-'] <+: tok) := by
  rintro ⟨h3, t, rfl⟩
  have := Cmdline.front_nil_mem _ c.tokParsers_tok _ h c.parseLong (by
    unfold Cmdline.tokParsers
    rw [if_pos (show active c.style Style.allowLong = true from hl)]
    simp)
  rw [Cmdline.parseLong, if_pos (by simpa using h3)] at this
  split at this
  · simp only at this
    split at this
    · cases this
    · cases this
  · cases this

/-- **C23, what holds.** If no token begins with `--=` and no option has an empty canonical name, the positional arguments before the terminator
are not spelled like long options. -/
theorem C23_no_positional_partial (c : Cmdline) (hs : c.styleParser = none) (ha : c.additional = none) (hd : ¬ Enabled c Style.allowLongDisguise)
    (hl : Enabled c Style.allowLong) (hne : ∀ d ∈ c.desc, ∀ name, name ≠ [] → reportedKey d name ≠ [])
    (args : List Str) (heq : ∀ t ∈ args, ¬ ['-', '-', '='] <+: t) (res : List Opt) (h : c.run args = .ok res) :
    ∃ pre post res1 res2, (args = pre ∧ post = [] ∨ args = pre ++ ['-', '-'] :: post) ∧ res = res1 ++ res2 ∧
      res1.flatMap (·.originalTokens) = pre ∧ res2.map (·.originalTokens) = post.map ([·]) ∧
      ∀ o ∈ res1, o.positionKey ≠ -1 → ∃ t ∈ pre, o.value = [t] ∧ o.originalTokens = [t] ∧ ¬ (3 ≤ t.length ∧ ['-', '-'] <+: t) := by
  obtain ⟨pre, post, r1, name, h1, rfl, h2, h3⟩ := c.run_split hs args res h (by simpa [Enabled] using hd) (by simp [ha])
  have e : ((Cmdline.number name 0 r1).map c.setCase).flatMap (·.originalTokens) = pre := by
    have := (c.setCase_collect (Cmdline.number name 0 r1)).2
    rw [(Cmdline.number_collect name 0 r1).2, h2] at this
    exact this
  refine ⟨pre, post, _, _, h1, rfl, e, ?_, ?_⟩
  · rw [Cmdline.number_after]
    apply List.ext_getElem?
    intro i
    simp only [List.getElem?_map, List.getElem?_mapIdx]
    cases post[i]? <;> simp [Cmdline.setCase_originalTokens]
  · intro o ho hp
    have hmem : ∀ t ∈ o.originalTokens, t ∈ pre := by
      intro t ht
      rw [← e]
      exact List.mem_flatMap.2 ⟨o, ho, ht⟩
    obtain ⟨o2, ho2, rfl⟩ := List.mem_map.1 ho
    rw [Cmdline.setCase_positionKey] at hp
    rw [Cmdline.setCase_originalTokens] at hmem
    rw [Cmdline.setCase_value, Cmdline.setCase_originalTokens]
    rcases Cmdline.number_mem _ _ _ _ ho2 with ⟨hq, hk⟩ | ⟨q, hq, i, hk, rfl⟩
    · obtain ⟨o1, ps, _, h5, rfl, _⟩ := h3 _ hq
      exact absurd h5 hp
    · obtain ⟨o1, ps, hmade, h5, rfl, hps⟩ := h3 _ hq
      have := hps hk
      subst this
      rw [Cmdline.with_nil] at hk hmem ⊢
      cases hmade with
      | plain t ht hf => exact ⟨t, hmem t (by simp [Cmdline.plain]), rfl, rfl, c.front_long hl t hf⟩
      | after t ht => simp [Cmdline.afterDashes, intMax] at h5
      | nameless v t ht hw =>
        refine absurd ?_ (heq ('-' :: '-' :: '=' :: v) ?_)
        · exact ⟨v, rfl⟩
        · have := hmem ('-' :: '-' :: '=' :: v) (by simp)
          rcases h1 with ⟨rfl, _⟩ | rfl
          · exact this
          · simp [this]
      | unknown tok name value tokens ht hw hn hl hu => exact absurd hk hn
      | known t n value tokens d taken ht hw hn hl htk hx =>
        exact absurd ((key_eq d n).symm.trans hk) (hne d (Cmdline.lookup_denotes.1 hl).mem n hn)

end PO
