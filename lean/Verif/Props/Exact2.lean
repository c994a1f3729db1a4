import Verif.Props.Tokens
import Verif.Lemmas.CmdlineLike
import Verif.Props.StoreGrammar
/-
Exactly when C23 and C37 fail.
-/
namespace PO
open Spec

/-! ### C23 -/

/-- Long enough for a long option and written like one. -/
def LongSpelled (t : Str) : Prop := 3 ≤ t.length ∧ ['-', '-'] <+: t

theorem Cmdline.Pass.terminated {c : Cmdline} {args : List Str} {os : List Opt} (h : Cmdline.Pass c args os) :
    ∀ o ∈ os, o.positionKey ≠ -1 → ∃ pre post, args = pre ++ ['-', '-'] :: post ∧ ∃ t ∈ post, o = Cmdline.afterDashes t := by
  induction h with
  | nil => simp
  | @plain tok rest os hf hd t ih =>
    intro o ho hp
    rcases List.mem_cons.1 ho with rfl | ho
    · exact absurd rfl hp
    · obtain ⟨pre, post, rfl, h⟩ := ih o ho hp
      exact ⟨tok :: pre, post, rfl, h⟩
  | @dashes rest hf =>
    intro o ho _
    obtain ⟨t, ht, rfl⟩ := List.mem_map.1 ho
    exact ⟨[], rest, rfl, t, ht, rfl⟩
  | @option tok rest l os rest' more hf hl h t ih =>
    intro o ho hp
    obtain ⟨taken, e, hall⟩ := c.finishAll_finished _ _ _ _ _ hl h
    subst e
    rcases List.mem_append.1 ho with ho | ho
    · exact absurd (hall.position (c.front_position tok l hf) o ho) hp
    · obtain ⟨pre, post, rfl, h'⟩ := ih o ho hp
      exact ⟨tok :: (taken ++ pre), post, by simp, h'⟩

theorem Cmdline.Written.nameless {c : Cmdline} {tok v : Str} {tokens : List Str} (h : Written c tok [] [v] tokens) :
    v ≠ [] ∧ (tok = '-' :: '-' :: '=' :: v ∨ Enabled c Style.allowLongDisguise ∧ (tok = '-' :: '=' :: v ∨ tok = '/' :: '=' :: v)) := by
  generalize hn : ([] : Str) = name at h
  generalize hv : [v] = value at h
  cases h
  case additional f hf h => exact absurd hn.symm h
  case longEq w hs hv' ht hname =>
    subst hn; cases hv
    exact ⟨by assumption, .inl (by assumption)⟩
  case long => cases hv
  case disguisedEq =>
    subst hn; cases hv
    rename_i hd hl _ h0 ht
    refine ⟨h0, .inr ⟨hd, ?_⟩⟩
    rcases hl with rfl | rfl
    · exact .inl ht
    · exact .inr ht
  case disguised => cases hv
  all_goals cases hn

/-- **C23, exactly, all positional arguments of a command line:** if long options are on and no option has an empty canonical name, a
positional argument is a token that is not spelled like a long option, or comes after the terminator, or is the `v` of a token `--=v`
(of `-=v` or `/=v` too, if disguised long options are on). -/
theorem C23_positional_exact (c : Cmdline) (hs : c.styleParser = none) (hl : Enabled c Style.allowLong)
    (hne : ∀ d ∈ c.desc, ∀ name, name ≠ [] → reportedKey d name ≠ []) (args : List Str) (res : List Opt) (h : c.run args = .ok res)
    (o : Opt) (ho : o ∈ res) (hp : o.positionKey ≠ -1) :
    (∃ t ∈ args, o.value = [t] ∧ o.originalTokens = [t] ∧ ¬ LongSpelled t) ∨
    (∃ pre post, args = pre ++ ['-', '-'] :: post ∧ ∃ t ∈ post, o.value = [t] ∧ o.originalTokens = [t]) ∨
    (∃ v, v ≠ [] ∧ o.value = [v] ∧ o.originalTokens = ['-' :: '-' :: '=' :: v] ∧
      ('-' :: '-' :: '=' :: v ∈ args ∨ Enabled c Style.allowLongDisguise ∧ ('-' :: '=' :: v ∈ args ∨ '/' :: '=' :: v ∈ args))) := by
  obtain ⟨os, r2, name, hpass, hrg, hr, rfl, hw, -⟩ := c.run_passes hs args res h
  obtain ⟨o2, ho2, rfl⟩ := List.mem_map.1 ho
  rw [Cmdline.setCase_positionKey] at hp
  rw [Cmdline.setCase_value, Cmdline.setCase_originalTokens]
  rcases Cmdline.number_mem _ _ _ _ ho2 with ⟨hq, hk⟩ | ⟨q, hq, i, hk, rfl⟩
  · exact absurd (hw _ hq hk) hp
  · obtain ⟨o1, ho1, ps, -, rfl, hps⟩ := hrg.mem q hq
    have : ps = [] := by
      rcases hps with h | ⟨d, h, -⟩
      · exact h
      · exact absurd hk h
    subst this
    rw [Cmdline.with_nil] at hk ⊢
    cases hpass.made o1 ho1 with
    | plain t ht hf => exact .inl ⟨t, ht, rfl, rfl, c.front_long hl t hf⟩
    | after t ht =>
      obtain ⟨pre, post, e, t', ht', e'⟩ := hpass.terminated _ ho1 (by simp [Cmdline.afterDashes, intMax])
      have := congrArg Opt.value e'
      simp only [Cmdline.afterDashes, List.cons.injEq, and_true] at this
      subst this
      exact .inr (.inl ⟨pre, post, e, t, ht', rfl, rfl⟩)
    | nameless v t ht hw =>
      obtain ⟨h0, h1⟩ := Cmdline.Written.nameless hw
      refine .inr (.inr ⟨v, h0, rfl, rfl, ?_⟩)
      rcases h1 with rfl | ⟨hd, rfl | rfl⟩
      · exact .inl ht
      · exact .inr ⟨hd, .inl ht⟩
      · exact .inr ⟨hd, .inr ht⟩
    | unknown tok name value tokens ht hw hn hl hu => exact absurd hk hn
    | known t n value tokens d taken ht hw hn hl htk hx =>
      exact absurd ((key_eq d n).symm.trans hk) (hne d (Cmdline.lookup_denotes.1 hl).mem n hn)

/-- **C23, exactly, one token:** of the tokens spelled like a long option those of the form `--=v` and no others are positional
arguments. -/
theorem C23_token_iff (c : Cmdline) (hs : c.styleParser = none) (hl : Enabled c Style.allowLong)
    (hne : ∀ d ∈ c.desc, ∀ name, name ≠ [] → reportedKey d name ≠ []) (t : Str) (ht : LongSpelled t) (ha : Unclaimed c t) (res : List Opt) (h : c.run [t] = .ok res) :
    (∃ o ∈ res, o.positionKey ≠ -1) ↔ ∃ v, v ≠ [] ∧ t = '-' :: '-' :: '=' :: v := by
  constructor
  · rintro ⟨o, ho, hp⟩
    rcases C23_positional_exact c hs hl hne [t] res h o ho hp with ⟨t', ht', -, -, h1⟩ | ⟨pre, post, e, t', ht', -⟩ | ⟨v, h0, -, -, h1 | ⟨-, h1 | h1⟩⟩
    · rw [List.mem_singleton.1 ht'] at h1; exact absurd ht h1
    · have := congrArg List.length e
      have hpos : 0 < post.length := List.length_pos_of_mem ht'
      simp at this
      omega
    · exact ⟨v, h0, (List.mem_singleton.1 h1).symm⟩
    · rw [← List.mem_singleton.1 h1] at ht
      obtain ⟨s, hs⟩ := ht.2
      cases hs
    · rw [← List.mem_singleton.1 h1] at ht
      obtain ⟨s, hs⟩ := ht.2
      cases hs
  · rintro ⟨v, hv, rfl⟩
    obtain ⟨os, r2, name, hpass, -, hr, rfl, -⟩ := c.run_passes hs _ res h
    have hf := c.front_long_eq hl [] v (by simp) hv ha
    have hpass' : Cmdline.Pass c ['-' :: '-' :: '=' :: v] [{ value := [v], originalTokens := ['-' :: '-' :: '=' :: v] }] :=
      Cmdline.Pass.option (os := [{ value := [v], originalTokens := ['-' :: '-' :: '=' :: v] }]) (rest' := []) hf (by simp) rfl .nil
    have e := (c.pass_loop hs _ _ hpass 1 (by simp)).symm.trans (c.pass_loop hs _ _ hpass' 1 (by simp))
    cases e
    rw [c.regroup_unnamed _ (by simp)] at hr
    cases hr
    exact ⟨_, List.mem_map.2 ⟨_, List.mem_singleton.2 rfl, rfl⟩, by rw [Cmdline.setCase_positionKey]; simp⟩

/-- `--=x` is the positional argument `x`, so is `-=x` as a disguised long option; `--foo` is none. -/
example : (({ desc := [Test.od "foo" (Test.sem Test.vstr)], style := 503 ||| Style.allowLongDisguise } : Cmdline).run
      [Test.L "--=x", Test.L "-=y", Test.L "--foo=1", Test.L "--", Test.L "--bar"]).map
    (·.map fun o => (o.stringKey, o.positionKey, o.value)) =
    .ok [([], 0, [Test.L "x"]), ([], 1, [Test.L "y"]), (Test.L "foo", -1, [Test.L "1"]), ([], 2, [Test.L "--bar"])] := by rfl
example : ∃ o ∈ [({ positionKey := 0, value := [Test.L "x"], originalTokens := [Test.L "--=x"] } : Opt)], o.positionKey ≠ -1 :=
  (C23_token_iff { desc := [] } rfl (by unfold Enabled; decide) (by simp) (Test.L "--=x") ⟨by decide, by decide⟩ (by intro f hf; cases hf) _ rfl).2
    ⟨['x'], by simp, rfl⟩

/-! ### C37 -/

/-- No open entry is explicit. So it is in a fresh map, and after stores that succeeded as long as no composing option was given. -/
def OpenAreDefaults (xm : VarMap) : Prop := ∀ name v, xm.map.get? name = some v → name ∉ xm.final → v.defaulted = true

/-- **C37, exactly:** a failed store leaves all entries as they were if and only if the faulty option is unknown or ambiguous and no
option before it is to be stored. Wherever a value has been stored before the fault, or the fault is in the value of a known option,
an entry has changed. -/
theorem C37_unchanged_iff (p : Parsed) (xm xm' : VarMap) (utf8 : Bool) (f : Fail) (hd : OpenAreDefaults xm)
    (h : store p xm utf8 = (xm', some f)) :
    (∀ name, xm'.map.get? name = xm.map.get? name) ↔
      ∃ before o after, p.options = before ++ o :: after ∧ (∀ name, Mentions before name → name ∈ xm.final) ∧
        o.stringKey ≠ [] ∧ o.unregistered = false ∧ o.stringKey ∉ xm.final ∧ (candidates p.desc o.stringKey).length ≠ 1 := by
  obtain ⟨before, o, after, e, hff, -, -, h1, h2, h3⟩ := C65_failed_state p xm xm' utf8 f h
  have key : (∀ name, xm'.map.get? name = xm.map.get? name) ↔
      (candidates p.desc o.stringKey).length ≠ 1 ∧ ∀ name, Mentions before name → name ∈ xm.final := by
    constructor
    · intro hall
      have hc : (candidates p.desc o.stringKey).length ≠ 1 := by
        intro hc
        obtain ⟨d, hd1⟩ := List.length_eq_one_iff.1 hc
        obtain ⟨r, a, -, -, -, hx⟩ := h3 d hd1
        rw [hall] at hx
        have := hd _ _ hx hff.open_
        cases this
      refine ⟨hc, ?_⟩
      intro name hm
      by_contra hf
      have hso : soFar p xm utf8 before name (xm'.map.get? name) := by
        by_cases hn : name = o.stringKey
        · subst hn; exact h2 hc
        · exact h1 name hn
      obtain ⟨d, a, -, hx⟩ := hso.1 hm hf
      rw [hall] at hx
      have := hd _ _ hx hf
      cases this
    · rintro ⟨hc, hm⟩ name
      have hso : soFar p xm utf8 before name (xm'.map.get? name) := by
        by_cases hn : name = o.stringKey
        · subst hn; exact h2 hc
        · exact h1 name hn
      refine hso.2 ?_
      by_cases hmn : Mentions before name
      · exact .inr (hm name hmn)
      · exact .inl hmn
  rw [key]
  constructor
  · rintro ⟨hc, hm⟩; exact ⟨before, o, after, hff.split, hm, hff.named, hff.registered, hff.open_, hc⟩
  · rintro ⟨before', o', after', hsp, hm, hn, hu, hop, hc⟩
    rw [hff.split] at hsp
    rcases List.append_eq_append_iff.1 hsp with ⟨mid, e1, e2⟩ | ⟨mid, e1, e2⟩
    · cases mid with
      | nil =>
        simp only [List.append_nil] at e1
        subst e1
        cases e2
        exact ⟨hc, hm⟩
      | cons x mid =>
        cases e2
        exact absurd (hm o.stringKey ⟨o, by rw [e1]; simp, rfl, hff.named, hff.registered⟩) hff.open_
    · cases mid with
      | nil =>
        simp only [List.append_nil] at e1
        subst e1
        cases e2
        exact ⟨hc, hm⟩
      | cons x mid =>
        cases e2
        obtain ⟨d, a, hy⟩ := hff.fine o'.stringKey ⟨o', by rw [e1]; simp, rfl, hn, hu⟩ hop
        exact absurd (by rw [hy.1]; rfl) hc

/-- An unknown option first: nothing changes. After a stored option: its entry stays. -/
def Ex.nopeFirst : Parsed := { desc := Ex.descs, options := [Ex.o "nope" [], Ex.o "name" ["a"]] }
def Ex.nopeLast : Parsed := { desc := Ex.descs, options := [Ex.o "name" ["a"], Ex.o "nope" []] }

example : (∀ name, (store Ex.nopeFirst {}).1.map.get? name = ({} : VarMap).map.get? name) ∧
    ¬ (∀ name, (store Ex.nopeLast {}).1.map.get? name = ({} : VarMap).map.get? name) := by
  constructor
  · have h : ∃ f, store Ex.nopeFirst {} = ((store Ex.nopeFirst {}).1, some f) := ⟨_, rfl⟩
    obtain ⟨f, h⟩ := h
    exact (C37_unchanged_iff _ _ _ false _ (by intro n v h; cases h) h).2
      ⟨[], Ex.o "nope" [], [Ex.o "name" ["a"]], rfl, (by rintro n ⟨o, ho, -⟩; cases ho), by decide, rfl, by simp, by decide⟩
  · intro h
    have := congrArg Option.isSome (h (Test.L "name"))
    revert this
    decide

end PO
