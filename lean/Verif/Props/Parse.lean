import Verif.Lemmas.CmdlineTokens
import Verif.Props.Lookup
/-
C06, C10, C17, C18, C21: the outcome of parsing a command line.
-/
namespace PO
open Spec
namespace Cmdline

theorem lookup_denotes {c : Cmdline} {name : Str} {d : OptionDesc} : c.lookup name = .ok (some d) ↔ Denotes c name d := by
  unfold lookup Denotes
  rw [C01_lookup_decision]
  simp only
  generalize exacts c.desc name _ _ = ex
  generalize approximates c.desc name _ _ _ = ap
  match ex, ap with
  | [x], _ => simp
  | x :: y :: l, _ => simp
  | [], [] => simp
  | [], [x] => simp
  | [], x :: y :: l => simp

theorem lookup_unknown {c : Cmdline} {name : Str} : c.lookup name = .ok none ↔ Unknown c name := by
  unfold lookup Unknown
  rw [C01_lookup_decision]
  have he : exacts c.desc name (active c.style Style.longCaseInsensitive) (active c.style Style.shortCaseInsensitive) = [] ↔
      ∀ d ∈ c.desc, ¬ Exact d name (active c.style Style.longCaseInsensitive) (active c.style Style.shortCaseInsensitive) := by
    simp [exacts, List.filter_eq_nil_iff]
  have ha : approximates c.desc name (active c.style Style.allowGuessing) (active c.style Style.longCaseInsensitive)
      (active c.style Style.shortCaseInsensitive) = [] ↔
      ∀ d ∈ c.desc, ¬ (¬ Exact d name (active c.style Style.longCaseInsensitive) (active c.style Style.shortCaseInsensitive) ∧
        Approximate d name (active c.style Style.allowGuessing) (active c.style Style.longCaseInsensitive)) := by
    simp [approximates, List.filter_eq_nil_iff]
  have key : (∀ d ∈ c.desc, ¬ Exact d name (active c.style Style.longCaseInsensitive) (active c.style Style.shortCaseInsensitive) ∧
      ¬ Approximate d name (active c.style Style.allowGuessing) (active c.style Style.longCaseInsensitive)) ↔
      (exacts c.desc name (active c.style Style.longCaseInsensitive) (active c.style Style.shortCaseInsensitive) = [] ∧
       approximates c.desc name (active c.style Style.allowGuessing) (active c.style Style.longCaseInsensitive)
      (active c.style Style.shortCaseInsensitive) = []) := by
    rw [he, ha]
    constructor
    · intro h
      exact ⟨fun d hd => (h d hd).1, fun d hd hh => (h d hd).2 hh.2⟩
    · rintro ⟨h1, h2⟩ d hd
      exact ⟨h1 d hd, fun hh => h2 d hd ⟨h1 d hd, hh⟩⟩
  rw [key]
  generalize exacts c.desc name _ _ = ex
  generalize approximates c.desc name _ _ _ = ap
  match ex, ap with
  | [x], _ => simp
  | x :: y :: l, _ => simp
  | [], [] => simp
  | [], [x] => simp
  | [], x :: y :: l => simp

end Cmdline

theorem Spec.Denotes.mem {c : Cmdline} {name : Str} {d : OptionDesc} (h : Denotes c name d) : d ∈ c.desc := by
  rcases h with h | ⟨_, h⟩
  · have := List.mem_singleton.2 (rfl : d = d)
    rw [← h] at this
    exact (List.mem_filter.1 this).1
  · have := List.mem_singleton.2 (rfl : d = d)
    rw [← h] at this
    exact (List.mem_filter.1 this).1

/-- The canonical key is a canonical name, or the name as written. -/
theorem key_cases (d : OptionDesc) (name : Str) : CanonicalName d (d.key name) ∨ d.key name = name := by
  rw [key_eq]
  unfold reportedKey CanonicalName
  cases h : d.longNames with
  | nil => simp
  | cons n ns =>
    simp only [List.head?_cons]
    by_cases hs : '*' ∈ n
    · simp [hs]
    · simp [hs]

/-! ### C06 -/

/-- **C06.** A registered option that came from option syntax is reported under the canonical name of the declared option
which the name written in some token of the command line stands for. -/
theorem C06_canonical_key (c : Cmdline) (hs : c.styleParser = none) (args : List Str) (res : List Opt) (h : c.run args = .ok res)
    (o : Opt) (ho : o ∈ res) (hpos : o.positionKey = -1) (hreg : o.unregistered = false) :
    ∃ tok ∈ args, ∃ name value tokens, Written c tok name value tokens ∧ ∃ d ∈ c.desc, Denotes c name d ∧
      o.stringKey = reportedKey d name := by
  obtain ⟨o1, ps, hm, _, hk, rfl, _⟩ := c.run_option hs args res h o ho hpos
  rw [Cmdline.setCase_stringKey]
  rw [Cmdline.setCase_unregistered] at hreg
  cases hm with
  | plain tok ht hf => exact absurd rfl hk
  | after tok ht => exact absurd rfl hk
  | nameless v tok ht hw => exact absurd rfl hk
  | unknown tok name value tokens ht hw hn hl hu => simp [Cmdline.with_] at hreg
  | known tok name value tokens d taken ht hw hn hl htk hx =>
    have hd := Cmdline.lookup_denotes.1 hl
    exact ⟨tok, ht, name, value, tokens, hw, d, hd.mem, hd, key_eq d name⟩

example : (({ desc := [Test.od "verbose,v" Test.unt, Test.od "in*" (Test.sem Test.vstr), Test.od "a,b" Test.unt] } : Cmdline).run
    [Test.L "--verb", Test.L "-v", Test.L "--input", Test.L "3", Test.L "--in=4"]).map (·.map (·.stringKey)) =
    .ok [Test.L "verbose", Test.L "verbose", Test.L "input", Test.L "in"] := by rfl

/-! ### C10 -/

/-- **C10.** With at most as many rounds as there are tokens the parser is done: allowing more rounds changes nothing,
and it does not run out of them. -/
theorem C10_terminates (c : Cmdline)
    (hlen : ∀ p, c.styleParser = some p → ∀ args os rest, p args = .ok (os, rest) → rest.length ≤ args.length)
    (hfuel : ∀ p, c.styleParser = some p → ∀ args, p args ≠ .error .fuel) (args : List Str) :
    (∀ rounds, args.length ≤ rounds → c.runFuel rounds args = c.run args) ∧ c.run args ≠ .error .fuel := by
  constructor
  · intro rounds hr
    unfold Cmdline.run Cmdline.runFuel
    rw [c.loop_fuel hlen rounds args hr, c.loop_fuel hlen (args.length + 1) args (by omega)]
  · unfold Cmdline.run Cmdline.runFuel
    cases hl : c.loop (args.length + 1) args with
    | error f =>
      simp only [ne_eq, Except.error.injEq]
      rintro rfl
      exact c.loop_no_fuel hlen hfuel _ _ (by omega) hl
    | ok os =>
      simp only
      intro hf
      rcases c.finalize_err _ _ hf with h | h
      · rcases c.regroup_err _ _ _ h with ⟨alts, n, t, s, h⟩ | ⟨u, h⟩
        · simp [errAmbiguous, Fail.addContext] at h
        · cases h
      · cases h

/-- The condition on style parsers is needed: one that keeps adding tokens never lets the parser finish. -/
theorem C10_lengthening_diverges : ∃ c : Cmdline, ∃ args, ∀ rounds, c.runFuel rounds args = .error .fuel := by
  refine ⟨{ desc := [], styleParser := some fun args => .ok ([], args ++ args) }, [[]], ?_⟩
  intro rounds
  unfold Cmdline.runFuel
  suffices h : ∀ n args, args ≠ [] → ({ desc := [], styleParser := some fun args => .ok ([], args ++ args) } : Cmdline).loop n args = .error .fuel by
    rw [h rounds [[]] (by simp)]
  intro n
  induction n with
  | zero =>
    intro args h
    cases args with
    | nil => exact absurd rfl h
    | cons a args => rw [Cmdline.loop]
  | succ n ih =>
    intro args h
    cases args with
    | nil => exact absurd rfl h
    | cons a args =>
      have : ({ desc := [], styleParser := some fun args => .ok ([], args ++ args) } : Cmdline).step (a :: args) =
          .ok ([], (a :: args) ++ (a :: args)) := by
        unfold Cmdline.step Cmdline.parsers
        simp only [List.cons_append, List.nil_append]
        rw [Cmdline.tryParsers]
        simp only [Cmdline.finishAll]
        rw [if_pos (by simp)]
        rfl
      rw [Cmdline.loop, this]
      simp only
      rw [ih _ (by simp)]

example : ({ desc := [Test.od "verbose,v" Test.unt] } : Cmdline).runFuel 3 [Test.L "-v", Test.L "x", Test.L "--verb"] =
    ({ desc := [Test.od "verbose,v" Test.unt] } : Cmdline).run [Test.L "-v", Test.L "x", Test.L "--verb"] := by rfl

/-! ### C17 -/

/-- **C17, without `allow_unregistered`:** after a successful parse no option is flagged unregistered, and every one that came from
option syntax resolved to a declared option. -/
theorem C17_all_registered (c : Cmdline) (hs : c.styleParser = none) (hu : c.allowUnregistered = false) (args : List Str) (res : List Opt)
    (h : c.run args = .ok res) (o : Opt) (ho : o ∈ res) :
    o.unregistered = false ∧ (o.positionKey = -1 → ∃ tok ∈ args, ∃ name value tokens, Written c tok name value tokens ∧ ∃ d ∈ c.desc, Denotes c name d) := by
  have hreg : o.unregistered = false := by
    obtain ⟨os, r2, name, hp, hrg, _, rfl, hw, _⟩ := c.run_passes hs args res h
    have made : ∀ o1, Cmdline.Made c args o1 → o1.unregistered = false := by
      intro o1 hm
      cases hm <;> first | rfl | (simp_all; done)
    have second : ∀ o2 ∈ r2, o2.unregistered = false := by
      intro o2 ho2
      obtain ⟨o1, ho1, ps, _, rfl, _⟩ := hrg.mem o2 ho2
      exact made o1 (hp.made o1 ho1)
    obtain ⟨o3, ho3, rfl⟩ := List.mem_map.1 ho
    rw [Cmdline.setCase_unregistered]
    rcases Cmdline.number_mem _ _ _ _ ho3 with ⟨h3, _⟩ | ⟨q, hq, i, _, rfl⟩
    · exact second _ h3
    · exact second q hq
  refine ⟨hreg, fun hpos => ?_⟩
  obtain ⟨tok, ht, name, value, tokens, hw, d, hd, hden, _⟩ := C06_canonical_key c hs args res h o ho hpos hreg
  exact ⟨tok, ht, name, value, tokens, hw, d, hd, hden⟩

/-- **C17, with `allow_unregistered`:** parsing never fails with `unknown_option`. -/
theorem C17_never_unknown (c : Cmdline) (hs : c.styleParser = none) (hu : c.allowUnregistered = true) (args : List Str) (e : OptErr)
    (h : c.run args = .error (.opt e)) : e.cls ≠ .unknownOption := by
  have hP : Cmdline.Kind (fun f => ∀ e, f = .opt e → e.cls ≠ .unknownOption) := by
    refine ⟨?_, ?_, ?_⟩
    · intro f n t s hf e he
      cases f with
      | opt e0 =>
        simp only [Fail.addContext, Fail.opt.injEq] at he
        subst he
        have := hf e0 rfl
        unfold OptErr.addContext OptErr.setSubst
        simp only
        split <;> simpa using this
      | _ => cases he
    · intro alts e he; cases he; simp [OptErr.mk']
    · intro k n t s e he; cases he; simp [OptErr.mk']
  unfold Cmdline.run Cmdline.runFuel at h
  cases hl : c.loop (args.length + 1) args with
  | error f =>
    rw [hl] at h
    cases h
    have hB := Cmdline.behaved (Q := fun _ => True) hP (fun _ _ => trivial) (fun _ e he => by cases he) c (by intro p hp; rw [hs] at hp; cases hp)
    rcases Cmdline.loop_err (Q := fun _ => True) hP (fun _ _ => trivial) (fun _ e he => by cases he) c (.inl hu) hB _ _ _ hl with h | h
    · exact h e rfl
    · cases h
  | ok os =>
    rw [hl] at h
    rcases c.finalize_err _ _ h with h | h
    · rcases c.regroup_err _ _ _ h with ⟨alts, n, t, s, h⟩ | ⟨u, h⟩
      · exact hP.ctx _ _ _ _ (hP.amb alts) e h.symm
      · cases h
    · cases h

/-- **C17, the flag:** an option is flagged unregistered only if its name matches no declared option; it then keeps the name and
the value as written. -/
theorem C17_flag (c : Cmdline) (hs : c.styleParser = none) (args : List Str) (res : List Opt) (h : c.run args = .ok res)
    (o : Opt) (ho : o ∈ res) (hf : o.unregistered = true) :
    c.allowUnregistered = true ∧ Unknown c o.stringKey ∧ o.positionKey = -1 ∧ ∃ tok ∈ args, Written c tok o.stringKey o.value o.originalTokens := by
  obtain ⟨os, r2, name, hp, hrg, _, rfl, hw, _⟩ := c.run_passes hs args res h
  obtain ⟨o3, ho3, rfl⟩ := List.mem_map.1 ho
  rw [Cmdline.setCase_unregistered] at hf
  rw [Cmdline.setCase_stringKey, Cmdline.setCase_positionKey, Cmdline.setCase_value, Cmdline.setCase_originalTokens]
  have second : ∀ o2 ∈ r2, o2.unregistered = true → o2.stringKey ≠ [] ∧ c.allowUnregistered = true ∧ Unknown c o2.stringKey ∧ o2.positionKey = -1 ∧
      ∃ tok ∈ args, Written c tok o2.stringKey o2.value o2.originalTokens := by
    intro o2 ho2 hu2
    obtain ⟨o1, ho1, ps, _, rfl, hps⟩ := hrg.mem o2 ho2
    cases hp.made o1 ho1 with
    | unknown tok name value tokens ht hw hn hl hu =>
      have : ps = [] := by
        rcases hps with h | ⟨d, _, hl', _⟩
        · exact h
        · rw [hl] at hl'; cases hl'
      subst this
      rw [Cmdline.with_nil]
      exact ⟨hn, hu, Cmdline.lookup_unknown.1 hl, rfl, tok, ht, hw⟩
    | plain => cases hu2
    | after => cases hu2
    | nameless => cases hu2
    | known => cases hu2
  rcases Cmdline.number_mem _ _ _ _ ho3 with ⟨h3, _⟩ | ⟨q, hq, i, hk, rfl⟩
  · exact (second _ h3 hf).2
  · exact absurd hk (second _ hq hf).1

/-- **C17, rejection:** a token written as a long option under an unknown name, after a prefix that parses, is rejected. -/
theorem C17_rejected (c : Cmdline) (hs : c.styleParser = none) (hu : c.allowUnregistered = false) (ha : c.additional = none)
    (hlong : Enabled c Style.allowLong) (pre post : List Str) (res : List Opt) (h : c.run pre = .ok res) (hd : ['-', '-'] ∉ pre)
    (name tok : Str) (h0 : name ≠ []) (hn : '=' ∉ name) (ht : tok = '-' :: '-' :: name ∨ ∃ v, v ≠ [] ∧ tok = '-' :: '-' :: name ++ '=' :: v)
    (hunk : Unknown c name) :
    ∃ e, c.run (pre ++ tok :: post) = .error (.opt e) ∧ e.cls = .unknownOption := by
  obtain ⟨os, hp, _⟩ := (c.run_pass hs pre res).1 h
  have hf : ∃ o, c.front tok = .ok [o] ∧ o.stringKey = name := by
    unfold Cmdline.front Cmdline.tokParsers
    rw [ha, if_pos (show active c.style Style.allowLong = true from hlong)]
    simp only [List.nil_append, List.cons_append]
    rw [Cmdline.lookahead]
    rcases ht with rfl | ⟨v, hv, rfl⟩
    · rw [c.parseLong_name _ _ hn h0]; exact ⟨_, rfl, rfl⟩
    · rw [c.parseLong_eq _ _ _ hn hv]; exact ⟨_, rfl, rfl⟩
  obtain ⟨o, hf, hk⟩ := hf
  have hstep : ∀ fuel, c.loop (fuel + 1) (tok :: post) = .error (errUnknown.addContext name (Cmdline.origFor o) c.canonicalPrefix) := by
    intro fuel
    rw [Cmdline.loop, c.step_eq hs, hf]
    simp only
    rw [Cmdline.finishAll, Cmdline.finishOption, if_neg (by rw [hk]; exact h0)]
    simp only
    rw [hk, Cmdline.lookup_unknown.2 hunk]
    simp [hu]
  unfold Cmdline.run Cmdline.runFuel
  rw [c.loop_append hs pre (tok :: post) os hp hd _ (by omega)]
  have : (pre ++ tok :: post).length = (pre.length + post.length) + 1 := by simp; omega
  rw [this, hstep]
  exact ⟨_, rfl, rfl⟩

example : ∃ res, ({ desc := [Test.od "verbose,v" Test.unt], allowUnregistered := true } : Cmdline).run
    [Test.L "--verbose", Test.L "--foo=3", Test.L "x", Test.L "-z"] = .ok res ∧ res.map (fun o => (o.stringKey, o.unregistered)) =
      [(Test.L "verbose", false), (Test.L "foo", true), ([], false), (Test.L "-z", true)] := ⟨_, rfl, by decide⟩

/-! ### C18 -/

theorem Spec.Identified.denotes {c : Cmdline} (hid : Identified c) {d : OptionDesc} {name : Str} (h : Denotes c name d) :
    Denotes c (d.key name) d := by
  rcases key_cases d name with hk | hk
  · exact .inl (hid d h.mem _ hk)
  · rw [hk]; exact h

/-- **C18.** A registered option that came from option syntax has at least the minimal and at most the maximal number of value tokens of
the declared option it stands for. -/
theorem C18_token_counts (c : Cmdline) (hs : c.styleParser = none) (hid : Identified c)
    (hmm : ∀ d ∈ c.desc, d.semantic.minTokens ≤ d.semantic.maxTokens) (args : List Str) (hlen : args.length < 2147483648)
    (res : List Opt) (h : c.run args = .ok res) (o : Opt) (ho : o ∈ res) (hpos : o.positionKey = -1) (hreg : o.unregistered = false) :
    ∃ d ∈ c.desc, Denotes c o.stringKey d ∧ d.semantic.minTokens ≤ o.value.length ∧ o.value.length ≤ d.semantic.maxTokens := by
  have htot : o.value.length ≤ args.length := by
    obtain ⟨os, r2, name, hp, hrg, _, rfl, hw, _⟩ := c.run_passes hs args res h
    have h1 := Cmdline.mem_values_length _ _ ho
    rw [(c.setCase_collect _).1, (Cmdline.number_collect _ _ _).1, hrg.collect.1] at h1
    have := hp.values_length
    omega
  obtain ⟨o1, ps, hm, hps, hk, rfl, hmerge⟩ := c.run_option hs args res h o ho hpos
  rw [Cmdline.setCase_stringKey]
  rw [Cmdline.setCase_value] at htot ⊢
  rw [Cmdline.setCase_unregistered] at hreg
  cases hm with
  | plain tok ht hf => exact absurd rfl hk
  | after tok ht => exact absurd rfl hk
  | nameless v tok ht hw => exact absurd rfl hk
  | unknown tok name value tokens ht hw hn hl hu => simp [Cmdline.with_] at hreg
  | known tok name value tokens d taken ht hw hn hl htk hx =>
    have hd := Cmdline.lookup_denotes.1 hl
    have hd2 := hid.denotes hd
    have hl2 := Cmdline.lookup_denotes.2 hd2
    refine ⟨d, hd.mem, hd2, ?_⟩
    have h1 := Cmdline.Written.value_length hw
    have h2 := Cmdline.flatMap_value_length ps fun p hp => (hps p hp).2
    have h3 := hmm d hd.mem
    have hval : (Cmdline.with_ { stringKey := d.key name, value := value ++ taken, originalTokens := tokens ++ taken } ps).value.length =
        value.length + taken.length + ps.length := by
      simp only [Cmdline.with_, List.length_append, h2]
    rw [hval] at htot ⊢
    refine ⟨by omega, ?_⟩
    have hx' : value.length ≤ d.semantic.maxTokens := by
      cases value with
      | nil => simp
      | cons v vs =>
        have : d.semantic.maxTokens ≠ 0 := fun h0 => hx ⟨by simp, h0⟩
        simp only [List.length_cons] at h1 ⊢
        omega
    rcases hmerge with rfl | ⟨d', hl', hmin, hlt, hbound⟩
    · simp; omega
    · simp only at hl'
      rw [hl2] at hl'
      cases hl'
      simp only [List.length_append] at hlt hbound
      by_cases hb : d.semantic.maxTokens - (value.length + taken.length) < 2147483648
      · have := hbound hb; omega
      · omega

example : (({ desc := [Test.od "num,n" (Test.sem { Test.vvec with multitoken := true }), Test.od "one" (Test.sem Test.vstr)] } : Cmdline).run
    [Test.L "-n", Test.L "1", Test.L "2", Test.L "3", Test.L "--one", Test.L "x", Test.L "y"]).map (·.map fun o => (o.stringKey, o.value)) =
    .ok [(Test.L "num", [['1'], ['2'], ['3']]), (Test.L "one", [['x']]), ([], [['y']])] := by rfl

/-! ### C21 -/

/-- The full claim of C21: parsing under an accepted style has no undefined behaviour. -/
def C21_claim : Prop := ∀ (c : Cmdline) (args : List Str) (u : UB), c.styleParser = none → checkStyle c.style = .ok () →
  c.run args ≠ .error (.ub u)

/-- **C21 is violated:** two options with the same long name, given as a group by their short names. -/
theorem C21_negation : ¬ C21_claim := by
  intro h
  exact h { desc := [Test.od "foo,f" Test.unt, Test.od "foo,g" Test.unt] } [Test.L "-fg"] .emptyOriginalTokens rfl rfl rfl

/-- **C21 is violated** in another way: an option whose first long name is empty, after an option that takes many values. -/
theorem C21_negation_empty : ¬ C21_claim := by
  intro h
  exact h { desc := [Test.od "num" (Test.sem { Test.vvec with multitoken := true }), Test.od ",foo" Test.unt] }
    [Test.L "--num", Test.L "1", Test.L "--foo"] .valueNotSingle rfl rfl rfl

theorem absorb_no_ub (lim : Option Nat) (o : Opt) (ps : List Opt)
    (h : ∀ p ∈ ps, p.stringKey = [] → p.positionKey ≠ intMax → p.value.length = 1 ∧ p.originalTokens.length = 1) :
    ∃ r, Cmdline.absorb lim o ps = .ok r := by
  induction ps generalizing lim o with
  | nil => rw [Cmdline.absorb]; exact ⟨_, rfl⟩
  | cons p ps ih =>
    rw [Cmdline.absorb]
    split
    · exact ⟨_, rfl⟩
    · split
      · exact ⟨_, rfl⟩
      · split
        · exact ⟨_, rfl⟩
        · rename_i hk hpos
          obtain ⟨h1, h2⟩ := h p (by simp) (by simpa using hk) hpos
          obtain ⟨v, hv⟩ := List.length_eq_one_iff.1 h1
          obtain ⟨t, ht⟩ := List.length_eq_one_iff.1 h2
          rw [hv, ht]
          simp only
          obtain ⟨r, hr⟩ := ih (lim.map (· - 1)) { o with value := o.value ++ [v], originalTokens := o.originalTokens ++ [t] }
            fun q hq => h q (by simp [hq])
          rw [hr]
          exact ⟨_, rfl⟩

theorem regroup_no_ub (c : Cmdline) (k : Nat) (os : List Opt)
    (h1 : ∀ p ∈ os, p.stringKey = [] → p.positionKey ≠ intMax → p.value.length = 1 ∧ p.originalTokens.length = 1)
    (h2 : ∀ p ∈ os, p.stringKey ≠ [] → ∃ r, c.lookup p.stringKey = .ok r) : ∃ r, c.regroup k os = .ok r := by
  induction os generalizing k with
  | nil => rw [Cmdline.regroup]; exact ⟨_, rfl⟩
  | cons o os ih =>
    have ih' : ∀ k, ∃ r, c.regroup k os = .ok r := fun k =>
      ih k (fun p hp => h1 p (by simp [hp])) (fun p hp => h2 p (by simp [hp]))
    cases k with
    | succ k => rw [Cmdline.regroup]; exact ih' k
    | zero =>
      have hc : ∀ (o' : Opt) k, ∃ r, (match c.regroup k os with
          | .error f => Except.error f
          | .ok os => .ok (o' :: os)) = .ok r := by
        intro o' k
        obtain ⟨r, hr⟩ := ih' k
        rw [hr]
        exact ⟨_, rfl⟩
      rw [Cmdline.regroup]
      simp only
      by_cases hk : o.stringKey = []
      · rw [if_pos hk]; exact hc _ _
      · rw [if_neg hk]
        obtain ⟨r, hr⟩ := h2 o (by simp) hk
        rw [hr]
        cases r with
        | none => exact hc _ _
        | some d =>
          simp only
          split
          · obtain ⟨q, hq⟩ := absorb_no_ub (Cmdline.takeLimit d.semantic.maxTokens o.value.length) o os fun p hp => h1 p (by simp [hp])
            obtain ⟨o', k⟩ := q
            rw [hq]
            exact hc _ _
          · exact hc _ _

/-- Under the conditions of C21, failures are of the kinds that reading a token has, or that there are too many positional arguments. -/
theorem run_kind {P : Fail → Prop} (hP : Cmdline.Kind P) (hu : P errUnknown) (ht : P .tooManyPositional) (c : Cmdline) (hs : c.styleParser = none)
    (hne : ∀ d ∈ c.desc, ¬ CanonicalName d [])
    (hcan : ∀ d ∈ c.desc, ∀ k, CanonicalName d k → (∃ d', Denotes c k d') ∨ Unknown c k)
    (args : List Str) (f : Fail) (h : c.run args = .error f) : P f ∨ f = .fuel := by
  unfold Cmdline.run Cmdline.runFuel at h
  cases hl : c.loop (args.length + 1) args with
  | error f =>
    rw [hl] at h
    cases h
    have hB := Cmdline.behaved (Q := fun a => a ≠ []) hP (fun _ _ => by simp) (fun h => absurd rfl h) c (by intro p hp; rw [hs] at hp; cases hp)
    exact Cmdline.loop_err (Q := fun a => a ≠ []) hP (fun _ _ => by simp) (fun h => absurd rfl h) c (.inr hu) hB _ _ _ hl
  | ok os =>
    rw [hl] at h
    have hp := c.loop_pass hs _ _ _ hl
    obtain ⟨r, hr⟩ := regroup_no_ub c 0 os (by
      intro p hpm hk hpos
      cases hp.made p hpm with
      | plain => exact ⟨rfl, rfl⟩
      | after => exact ⟨rfl, rfl⟩
      | nameless => exact ⟨rfl, rfl⟩
      | unknown tok name value tokens ht hw hn hl hu => exact absurd hk hn
      | known tok name value tokens d taken ht hw hn hl htk hx =>
        exfalso
        simp only at hk
        rcases key_cases d name with h | h
        · rw [hk] at h; exact hne d (Cmdline.lookup_denotes.1 hl).mem h
        · exact hn (h.symm.trans hk)) (by
      intro p hpm hk
      cases hp.made p hpm with
      | plain => exact absurd rfl hk
      | after => exact absurd rfl hk
      | nameless => exact absurd rfl hk
      | unknown tok name value tokens ht hw hn hl hu => exact ⟨_, hl⟩
      | known tok name value tokens d taken ht hw hn hl htk hx =>
        simp only
        rcases key_cases d name with h | h
        · rcases hcan d (Cmdline.lookup_denotes.1 hl).mem _ h with ⟨d', h⟩ | h
          · exact ⟨_, Cmdline.lookup_denotes.2 h⟩
          · exact ⟨_, Cmdline.lookup_unknown.2 h⟩
        · rw [h]; exact ⟨_, hl⟩)
    rcases c.finalize_err _ _ h with h | rfl
    · rw [hr] at h; cases h
    · exact .inl ht

/-- **C21, part that holds:** there is no undefined behaviour if canonical names are not empty and not ambiguous. Missing: option sets in
which a canonical name is empty or matches several options (see the negations). -/
theorem C21_no_ub_partial (c : Cmdline) (hs : c.styleParser = none)
    (hne : ∀ d ∈ c.desc, ¬ CanonicalName d [])
    (hcan : ∀ d ∈ c.desc, ∀ k, CanonicalName d k → (∃ d', Denotes c k d') ∨ Unknown c k)
    (args : List Str) (u : UB) : c.run args ≠ .error (.ub u) := by
  have hP : Cmdline.Kind (fun f => ∀ u, f ≠ .ub u) := by
    refine ⟨?_, ?_, ?_⟩
    · intro f n t s hf u
      cases f with
      | ub u' => exact absurd rfl (hf u')
      | _ => simp [Fail.addContext]
    · intro alts u; simp [errAmbiguous]
    · intro k n t s u; simp [errSyntax]
  intro h
  rcases run_kind hP (by simp [errUnknown]) (by simp) c hs hne hcan args _ h with h | h
  · exact h u rfl
  · cases h

/-- The hypotheses of the partial result hold in particular if canonical names are not empty and identify the options. -/
theorem C21_identified_partial (c : Cmdline) (hs : c.styleParser = none) (hne : ∀ d ∈ c.desc, ¬ CanonicalName d []) (hid : Identified c)
    (args : List Str) (u : UB) : c.run args ≠ .error (.ub u) :=
  C21_no_ub_partial c hs hne (fun d hd k hk => .inl ⟨d, .inl (hid d hd k hk)⟩) args u

example : let c : Cmdline := { desc := [Test.od "verbose,v" Test.unt, Test.od "out,o" (Test.sem Test.vstr)] }
    Identified c ∧ (∀ d ∈ c.desc, ¬ CanonicalName d []) ∧ ∀ d ∈ c.desc, d.semantic.minTokens ≤ d.semantic.maxTokens := by
  refine ⟨?_, ?_, ?_⟩
  · intro d hd k hk
    simp only [List.mem_cons, List.not_mem_nil, or_false] at hd
    rcases hd with rfl | rfl
    · rcases hk with ⟨h, _⟩ | ⟨h, _⟩
      · cases h; rfl
      · cases h
    · rcases hk with ⟨h, _⟩ | ⟨h, _⟩
      · cases h; rfl
      · cases h
  · intro d hd hk
    simp only [List.mem_cons, List.not_mem_nil, or_false] at hd
    rcases hd with rfl | rfl <;> rcases hk with ⟨h, _⟩ | ⟨h, _⟩ <;> cases h
  · intro d hd
    simp only [List.mem_cons, List.not_mem_nil, or_false] at hd
    rcases hd with rfl | rfl <;> decide

end PO
