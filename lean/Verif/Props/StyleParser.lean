import Verif.Lemmas.StyleParser
/-
C142: what a program's own style parser returns (`extra_style_parser`, src/cmdline.cpp:226-227, 703-707) is treated like any other options.
-/
namespace PO
open Spec
namespace Cmdline

/-- What the second pass and the numbering leave alone. -/
theorem run_flagged (c : Cmdline) (p : StyleParser) (hs : c.styleParser = some p) (hor : Orderly p) (args : List Str) (res : List Opt)
    (h : c.run args = .ok res) (o : Opt) (ho : o ∈ res) (hf : o.unregistered = true) :
    c.allowUnregistered = true ∧ Unknown c o.stringKey ∧ o.positionKey = -1 ∧ ((∃ tok ∈ args, Written c tok o.stringKey o.value o.originalTokens) ∨
      ∃ o0, ReturnedFor p args o0 ∧ o0.stringKey = o.stringKey ∧ o0.value = o.value ∧ o0.originalTokens = o.originalTokens) := by
  obtain ⟨os, r2, name, hp, hrg, _, rfl, hw⟩ := c.run_passesBy p hs hor args res h
  obtain ⟨o3, ho3, rfl⟩ := List.mem_map.1 ho
  rw [setCase_unregistered] at hf
  rw [setCase_stringKey, setCase_positionKey, setCase_value, setCase_originalTokens]
  have second : ∀ o2 ∈ r2, o2.unregistered = true → o2.stringKey ≠ [] ∧ c.allowUnregistered = true ∧ Unknown c o2.stringKey ∧ o2.positionKey = -1 ∧
      ((∃ tok ∈ args, Written c tok o2.stringKey o2.value o2.originalTokens) ∨
        ∃ o0, ReturnedFor p args o0 ∧ o0.stringKey = o2.stringKey ∧ o0.value = o2.value ∧ o0.originalTokens = o2.originalTokens) := by
    intro o2 ho2 hu2
    obtain ⟨o1, ho1, ps, _, rfl, hps⟩ := hrg.mem o2 ho2
    have none : c.lookup o1.stringKey = .ok none → ps = [] := by
      intro hl
      rcases hps with h | ⟨d, _, hl', _⟩
      · exact h
      · rw [hl] at hl'; cases hl'
    cases hp.made hor o1 ho1 with
    | built hm =>
      cases hm with
      | unknown tok name value tokens ht hw hn hl hu =>
        cases none hl
        rw [with_nil]
        exact ⟨hn, hu, lookup_unknown.1 hl, rfl, .inl ⟨tok, ht, hw⟩⟩
      | plain => cases hu2
      | after => cases hu2
      | nameless => cases hu2
      | known => cases hu2
    | own o0 taken hr hfin =>
      have hfr := ReturnedFor.fresh hor hr
      have hu1 : o1.unregistered = true := hu2
      cases hfin with
      | unnamed h0 => rw [hfr.2] at hu1; cases hu1
      | unknown h0 hl hu =>
        cases none hl
        rw [with_nil]
        exact ⟨h0, hu, lookup_unknown.1 hl, hfr.1, .inr ⟨o0, hr, rfl, rfl, rfl⟩⟩
      | known d taken h0 hl ht hx => rw [show ({ o0 with stringKey := _, value := _, originalTokens := _ } : Opt).unregistered = o0.unregistered from rfl, hfr.2] at hu1; cases hu1
  rcases number_mem _ _ _ _ ho3 with ⟨h3, _⟩ | ⟨q, hq, i, hk, rfl⟩
  · exact (second _ h3 hf).2
  · exact absurd hk (second _ hq hf).1

end Cmdline

/-! ### No token is lost -/

/-- **C142, tokens:** C11 for programs with a style parser that records the tokens it takes. -/
theorem C142_tokens_conserved (c : Cmdline) (p : StyleParser) (hs : c.styleParser = some p) (hor : Orderly p) (hrec : Records p) (ha : c.additional = none)
    (hd : ¬ Enabled c Style.allowLongDisguise) (args : List Str) (res : List Opt) (h : c.run args = .ok res) :
    res.flatMap (·.originalTokens) = args ∨
    ∃ pre post res1 res2, args = pre ++ ['-', '-'] :: post ∧ res = res1 ++ res2 ∧ res1.flatMap (·.originalTokens) = pre ∧
      res2.map (·.originalTokens) = post.map ([·]) ∧ res2.map (·.value) = post.map ([·]) ∧ ∀ o ∈ res2, o.positionKey ≠ -1 := by
  obtain ⟨os, r2, name, hp, hrg, hr, rfl, hw⟩ := c.run_passesBy p hs hor args res h
  obtain ⟨pre, post, os1, h1, rfl, h2, h3⟩ := hp.split hor hrec (by simpa [Enabled] using hd) (by simp [ha])
  rw [c.regroup_append 0 os1 _ (by simp) (by
    intro a ha
    obtain ⟨t, _, rfl⟩ := List.mem_map.1 ha
    exact ⟨rfl, rfl⟩)] at hr
  cases hr1 : c.regroup 0 os1 with
  | error f => rw [hr1] at hr; cases hr
  | ok r1 =>
    rw [hr1] at hr
    cases hr
    have hrg1 := c.regroup_regrouped _ _ hr1
    rw [Cmdline.number_append, List.map_append, Nat.zero_add]
    have e : ((Cmdline.number name 0 r1).map c.setCase).flatMap (·.originalTokens) = pre := by
      have := (c.setCase_collect (Cmdline.number name 0 r1)).2
      rw [(Cmdline.number_collect name 0 r1).2, hrg1.collect.2, h2] at this
      exact this
    rcases h1 with ⟨rfl, rfl⟩ | rfl
    · left
      simpa [Cmdline.number] using e
    · right
      refine ⟨pre, post, _, _, rfl, rfl, e, ?_, ?_, ?_⟩
      all_goals rw [Cmdline.number_after]
      · apply List.ext_getElem?
        intro i
        simp only [List.getElem?_map, List.getElem?_mapIdx]
        cases post[i]? <;> simp [Cmdline.setCase_originalTokens]
      · apply List.ext_getElem?
        intro i
        simp only [List.getElem?_map, List.getElem?_mapIdx]
        cases post[i]? <;> simp [Cmdline.setCase_value]
      · intro o ho
        obtain ⟨q, hq, rfl⟩ := List.mem_map.1 ho
        obtain ⟨i, hi, rfl⟩ := List.mem_mapIdx.1 hq
        rw [Cmdline.setCase_positionKey]
        simp only
        omega

/-! ### Names -/

/-- **C142, names:** a registered option that came from option syntax or from the style parser is reported under the canonical name of the declared
option that the name written, or given by the style parser, stands for. -/
theorem C142_canonical_key (c : Cmdline) (p : StyleParser) (hs : c.styleParser = some p) (hor : Orderly p) (args : List Str) (res : List Opt)
    (h : c.run args = .ok res) (o : Opt) (ho : o ∈ res) (hpos : o.positionKey = -1) (hreg : o.unregistered = false) :
    ∃ name, NamedBy c p args name ∧ ∃ d ∈ c.desc, Denotes c name d ∧ o.stringKey = reportedKey d name := by
  obtain ⟨o1, ps, hm, _, hk, rfl, _⟩ := c.run_optionBy p hs hor args res h o ho hpos
  rw [Cmdline.setCase_stringKey]
  rw [Cmdline.setCase_unregistered] at hreg
  cases hm with
  | built hm =>
    cases hm with
    | plain tok ht hf => exact absurd rfl hk
    | after tok ht => exact absurd rfl hk
    | nameless v tok ht hw => exact absurd rfl hk
    | unknown tok name value tokens ht hw hn hl hu => simp [Cmdline.with_] at hreg
    | known tok name value tokens d taken ht hw hn hl htk hx =>
      have hd := Cmdline.lookup_denotes.1 hl
      exact ⟨name, .token tok value tokens ht hw, d, hd.mem, hd, key_eq d name⟩
  | own o0 taken hr hf =>
    cases hf with
    | unnamed h0 => exact absurd h0 hk
    | unknown h0 hl hu => simp [Cmdline.with_] at hreg
    | known d taken h0 hl ht hx =>
      have hd := Cmdline.lookup_denotes.1 hl
      exact ⟨_, .parser o0 hr rfl, d, hd.mem, hd, key_eq d _⟩

/-- **C142, unknown names:** the options marked as unregistered are those whose names, written or given by the style parser, match no declared option;
they keep their values. Without `allow_unregistered` there are none. -/
theorem C142_flag (c : Cmdline) (p : StyleParser) (hs : c.styleParser = some p) (hor : Orderly p) (args : List Str) (res : List Opt)
    (h : c.run args = .ok res) (o : Opt) (ho : o ∈ res) (hf : o.unregistered = true) :
    c.allowUnregistered = true ∧ Unknown c o.stringKey ∧ o.positionKey = -1 ∧ ((∃ tok ∈ args, Written c tok o.stringKey o.value o.originalTokens) ∨
      ∃ o0, ReturnedFor p args o0 ∧ o0.stringKey = o.stringKey ∧ o0.value = o.value ∧ o0.originalTokens = o.originalTokens) :=
  c.run_flagged p hs hor args res h o ho hf

/-! ### Numbers of values -/

/-- **C142, numbers of values:** a registered option has at least as many values as the declared option it stands for demands, and at most as many as
that allows, unless the style parser itself has returned more than that; nothing is then added to them. -/
theorem C142_counts (c : Cmdline) (p : StyleParser) (hs : c.styleParser = some p) (hor : Orderly p) (hid : Identified c)
    (hmm : ∀ d ∈ c.desc, d.semantic.minTokens ≤ d.semantic.maxTokens) (args : List Str)
    (res : List Opt) (h : c.run args = .ok res) (o : Opt) (ho : o ∈ res) (hlen : o.value.length < 2147483648) (hpos : o.positionKey = -1)
    (hreg : o.unregistered = false) :
    ∃ d ∈ c.desc, Denotes c o.stringKey d ∧ d.semantic.minTokens ≤ o.value.length ∧
      (o.value.length ≤ d.semantic.maxTokens ∨
        ∃ o0, ReturnedFor p args o0 ∧ Denotes c o0.stringKey d ∧ o0.value = o.value ∧ d.semantic.maxTokens ≠ 0 ∧ d.semantic.maxTokens < o.value.length) := by
  obtain ⟨o1, ps, hm, hps, hk, rfl, hmerge⟩ := c.run_optionBy p hs hor args res h o ho hpos
  rw [Cmdline.setCase_stringKey]
  rw [Cmdline.setCase_value] at hlen ⊢
  rw [Cmdline.setCase_unregistered] at hreg
  have h2 := Cmdline.flatMap_value_length ps fun q hq => hps q hq
  have key : ∀ (d : OptionDesc) (n0 : Nat), c.lookup o1.stringKey = .ok (some d) → o1.value.length = n0 + (d.semantic.minTokens - n0) →
      d.semantic.minTokens ≤ (Cmdline.with_ o1 ps).value.length ∧
      (n0 ≤ d.semantic.maxTokens → d.semantic.minTokens ≤ d.semantic.maxTokens → (Cmdline.with_ o1 ps).value.length ≤ d.semantic.maxTokens) ∧
      (d.semantic.maxTokens < n0 → ps = []) := by
    intro d n0 hl hv
    have hval : (Cmdline.with_ o1 ps).value.length = o1.value.length + ps.length := by
      simp only [Cmdline.with_, List.length_append, h2]
    rw [hval] at hlen ⊢
    refine ⟨by omega, ?_, ?_⟩
    · intro h0 h3
      rcases hmerge with rfl | ⟨d', hl', hmin, hlt, hbound⟩
      · simp; omega
      · rw [hl] at hl'
        cases hl'
        by_cases hb : d.semantic.maxTokens - o1.value.length < 2147483648
        · have := hbound hb; omega
        · omega
    · intro h0
      rcases hmerge with h | ⟨d', hl', hmin, hlt, hbound⟩
      · exact h
      · rw [hl] at hl'
        cases hl'
        omega
  cases hm with
  | built hm =>
    cases hm with
    | plain tok ht hf => exact absurd rfl hk
    | after tok ht => exact absurd rfl hk
    | nameless v tok ht hw => exact absurd rfl hk
    | unknown tok name value tokens ht hw hn hl hu => simp [Cmdline.with_] at hreg
    | known tok name value tokens d taken ht hw hn hl htk hx =>
      have hd := Cmdline.lookup_denotes.1 hl
      have hd2 := hid.denotes hd
      have h1 := Cmdline.Written.value_length hw
      obtain ⟨k1, k2, _⟩ := key d value.length (Cmdline.lookup_denotes.2 hd2) (by simp [htk])
      refine ⟨d, hd.mem, hd2, k1, .inl (k2 ?_ (hmm d hd.mem))⟩
      cases value with
      | nil => simp
      | cons v vs =>
        have : d.semantic.maxTokens ≠ 0 := fun h0 => hx ⟨by simp, h0⟩
        simp only [List.length_cons] at h1 ⊢
        omega
  | own o0 taken hr hf =>
    cases hf with
    | unnamed h0 => exact absurd h0 hk
    | unknown h0 hl hu => simp [Cmdline.with_] at hreg
    | known d taken h0 hl ht hx =>
      have hd := Cmdline.lookup_denotes.1 hl
      have hd2 := hid.denotes hd
      obtain ⟨k1, k2, k3⟩ := key d o0.value.length (Cmdline.lookup_denotes.2 hd2) (by simp [ht])
      refine ⟨d, hd.mem, hd2, k1, ?_⟩
      by_cases hb : o0.value.length ≤ d.semantic.maxTokens
      · exact .inl (k2 hb (hmm d hd.mem))
      · right
        cases k3 (by omega)
        have h3 := hmm d hd.mem
        have htk : taken = [] := List.length_eq_zero_iff.1 (by omega)
        subst htk
        rw [Cmdline.with_nil, List.append_nil]
        refine ⟨o0, hr, hd, rfl, ?_, by dsimp only; omega⟩
        intro h4
        refine hx ⟨?_, h4⟩
        intro h5
        rw [h5] at hb
        simp at hb

/-- The claim of C142 about numbers of values. -/
def C142_claim : Prop := ∀ (c : Cmdline) (p : StyleParser), c.styleParser = some p → Orderly p → Records p → Identified c →
  (∀ d ∈ c.desc, d.semantic.minTokens ≤ d.semantic.maxTokens) → ∀ (args : List Str) (res : List Opt), args.length < 2147483648 → c.run args = .ok res →
  ∀ o ∈ res, o.positionKey = -1 → o.unregistered = false →
    ∃ d ∈ c.desc, Denotes c o.stringKey d ∧ d.semantic.minTokens ≤ o.value.length ∧ o.value.length ≤ d.semantic.maxTokens

/-- **C142, part that holds:** the numbers of values are right if the style parser returns no option with too many. Missing: style parsers that do; those
options are accepted unless the declared option takes no value at all. -/
theorem C142_counts_partial (c : Cmdline) (p : StyleParser) (hs : c.styleParser = some p) (hor : Orderly p) (hid : Identified c)
    (hmm : ∀ d ∈ c.desc, d.semantic.minTokens ≤ d.semantic.maxTokens) (args : List Str)
    (hv : ∀ o0, ReturnedFor p args o0 → ∀ d, Denotes c o0.stringKey d → o0.value.length ≤ d.semantic.maxTokens)
    (res : List Opt) (h : c.run args = .ok res) (o : Opt) (ho : o ∈ res) (hlen : o.value.length < 2147483648) (hpos : o.positionKey = -1)
    (hreg : o.unregistered = false) :
    ∃ d ∈ c.desc, Denotes c o.stringKey d ∧ d.semantic.minTokens ≤ o.value.length ∧ o.value.length ≤ d.semantic.maxTokens := by
  obtain ⟨d, hd, hden, h1, h2 | ⟨o0, hr, hd0, e, _, h3⟩⟩ := C142_counts c p hs hor hid hmm args res h o ho hlen hpos hreg
  · exact ⟨d, hd, hden, h1, h2⟩
  · have := hv o0 hr d hd0
    rw [e] at this
    omega

/-! ### Undefined behaviour -/

/-- **C142, part that holds:** there is no undefined behaviour if in addition to the conditions of C21 the style parser has none, and its options
without a name have one value and one token. Missing: other style parsers, see the negation. -/
theorem C142_no_ub_partial (c : Cmdline) (p : StyleParser) (hs : c.styleParser = some p) (hor : Orderly p)
    (hub : ∀ args u, args ≠ [] → p args ≠ .error (.ub u))
    (hone : ∀ args os rest, p args = .ok (os, rest) → ∀ o ∈ os, o.stringKey = [] → o.value.length = 1 ∧ o.originalTokens.length = 1)
    (hne : ∀ d ∈ c.desc, ¬ CanonicalName d [])
    (hcan : ∀ d ∈ c.desc, ∀ k, CanonicalName d k → (∃ d', Denotes c k d') ∨ Unknown c k)
    (args : List Str) (u : UB) : c.run args ≠ .error (.ub u) := by
  have hP : Cmdline.Kind (fun f => ∀ u, f ≠ .ub u) := by
    refine ⟨?_, ?_, ?_⟩
    · intro f n t s hf u
      cases f with
      | ub u' => exact absurd rfl (hf u')
      | _ => simp [Fail.addContext]
    · intro alts u; simp [errAmbiguous]
    · intro k n t s u; simp [errSyntax]
  intro h
  unfold Cmdline.run Cmdline.runFuel at h
  cases hl : c.loop (args.length + 1) args with
  | error f =>
    rw [hl] at h
    cases h
    have hB := Cmdline.behaved (Q := fun a => a ≠ []) hP (fun _ _ => by simp) (fun h => absurd rfl h) c (by
      intro q hq
      rw [hs] at hq
      cases hq
      constructor
      · intro a f ha hf u hu
        subst hu
        exact hub a u ha hf
      · intro a rest ha hp
        rw [hor.idle _ _ hp]
        exact ha)
    rcases Cmdline.loop_err (Q := fun a => a ≠ []) hP (fun _ _ => by simp) (fun h => absurd rfl h) c (.inr (by simp [errUnknown])) hB _ _ _ hl with h | h
    · exact h u rfl
    · cases h
  | ok os =>
    rw [hl] at h
    have hp := c.loop_passBy p hs hor _ _ _ hl
    obtain ⟨r, hr⟩ := regroup_no_ub c 0 os (by
      intro q hpm hk hpos
      cases hp.made hor q hpm with
      | built hm =>
        cases hm with
        | plain => exact ⟨rfl, rfl⟩
        | after => exact ⟨rfl, rfl⟩
        | nameless => exact ⟨rfl, rfl⟩
        | unknown tok name value tokens ht hw hn hl hu => exact absurd hk hn
        | known tok name value tokens d taken ht hw hn hl htk hx =>
          exfalso
          simp only at hk
          rcases key_cases d name with h | h
          · rw [hk] at h; exact hne d (Cmdline.lookup_denotes.1 hl).mem h
          · exact hn (h.symm.trans hk)
      | own o0 taken hret hf =>
        obtain ⟨pre, suf, l, rest, _, hpr, hmem⟩ := hret
        cases hf with
        | unnamed h0 => exact hone _ _ _ hpr _ hmem h0
        | unknown h0 hl hu => exact absurd hk h0
        | known d taken h0 hl ht hx =>
          exfalso
          simp only at hk
          rcases key_cases d o0.stringKey with h | h
          · rw [hk] at h; exact hne d (Cmdline.lookup_denotes.1 hl).mem h
          · exact h0 (h.symm.trans hk)) (by
      intro q hpm hk
      have known : ∀ d name, c.lookup name = .ok (some d) → ∃ r, c.lookup (d.key name) = .ok r := by
        intro d name hl
        rcases key_cases d name with h | h
        · rcases hcan d (Cmdline.lookup_denotes.1 hl).mem _ h with ⟨d', h⟩ | h
          · exact ⟨_, Cmdline.lookup_denotes.2 h⟩
          · exact ⟨_, Cmdline.lookup_unknown.2 h⟩
        · rw [h]; exact ⟨_, hl⟩
      cases hp.made hor q hpm with
      | built hm =>
        cases hm with
        | plain => exact absurd rfl hk
        | after => exact absurd rfl hk
        | nameless => exact absurd rfl hk
        | unknown tok name value tokens ht hw hn hl hu => exact ⟨_, hl⟩
        | known tok name value tokens d taken ht hw hn hl htk hx => exact known d name hl
      | own o0 taken hret hf =>
        cases hf with
        | unnamed h0 => exact absurd h0 hk
        | unknown h0 hl hu => exact ⟨_, hl⟩
        | known d taken h0 hl ht hx => exact known d _ hl)
    rcases c.finalize_err _ _ h with h | h
    · rw [hr] at h; cases h
    · cases h

/-! ### The style parser comes first -/

/-- **C142, failures:** what the style parser throws for the first tokens is what the parser throws. -/
theorem C142_throws (c : Cmdline) (p : StyleParser) (hs : c.styleParser = some p) (tok : Str) (rest : List Str) (f : Fail) (h : p (tok :: rest) = .error f) :
    c.run (tok :: rest) = .error f := by
  unfold Cmdline.run Cmdline.runFuel Cmdline.loop Cmdline.step
  generalize hall : c.parsers = all
  have e := c.parsers_own p hs
  rw [hall] at e
  rw [show c.tryParsers all all = c.tryParsers all (p :: (c.tokParsers ++ [Cmdline.parseTerminator])) by rw [← e], Cmdline.tryParsers, h]

/-- **C142, precedence:** tokens that the style parser takes for a declared option, with values enough, are that option, whatever they would mean otherwise. -/
theorem C142_first (c : Cmdline) (p : StyleParser) (hs : c.styleParser = some p) (hid : Identified c) (hne : ∀ d ∈ c.desc, ¬ CanonicalName d [])
    (args : List Str) (ha : args ≠ []) (o : Opt) (d : OptionDesc) (h : p args = .ok ([o], [])) (hk : o.stringKey ≠ []) (hd : Denotes c o.stringKey d) (hmin : d.semantic.minTokens ≤ o.value.length)
    (hmax : o.value.length ≤ d.semantic.maxTokens) (hpos : o.positionKey = -1) :
    ∃ b, c.run args = .ok [{ o with stringKey := reportedKey d o.stringKey, caseInsensitive := b }] := by
  cases args with
  | nil => exact absurd rfl ha
  | cons tok rest =>
    have hl := Cmdline.lookup_denotes.2 hd
    have hl2 := Cmdline.lookup_denotes.2 (hid.denotes hd)
    have hkey : d.key o.stringKey ≠ [] := by
      intro h0
      rcases key_cases d o.stringKey with h | h
      · rw [h0] at h; exact hne d hd.mem h
      · exact hk (h.symm.trans h0)
    have hfin : c.finishAll c.parsers [o] [] = .ok ([{ o with stringKey := d.key o.stringKey }], []) := by
      rw [Cmdline.finishAll, Cmdline.finishOption, if_neg hk]
      dsimp only
      rw [hl]
      dsimp only
      rw [if_pos (by simp; omega), if_neg (by
        rintro ⟨h1, h2⟩
        rw [h2] at hmax
        exact h1 (List.length_eq_zero_iff.1 (by omega)))]
      rw [show d.semantic.minTokens - o.value.length = 0 by omega, Cmdline.grab]
    have hloop : c.loop ((tok :: rest).length + 1) (tok :: rest) = .ok [{ o with stringKey := d.key o.stringKey }] := by
      rw [Cmdline.loop, c.step_own p hs _ _ _ h (by simp), hfin]
      dsimp only
      rw [Cmdline.loop]
      rfl
    have hreg : c.regroup 0 [{ o with stringKey := d.key o.stringKey }] = .ok [{ o with stringKey := d.key o.stringKey }] := by
      rw [Cmdline.regroup]
      dsimp only
      rw [if_neg hkey, hl2]
      dsimp only
      split
      · rw [Cmdline.absorb]
        dsimp only
        rw [Cmdline.regroup]
      · rw [Cmdline.regroup]
    unfold Cmdline.run Cmdline.runFuel
    rw [hloop]
    dsimp only
    rw [c.finalize_eq _ _ hreg (by intro q hq _; cases List.mem_singleton.1 hq; exact hpos)]
    have hnum : ∀ name, (Cmdline.number name 0 [{ o with stringKey := d.key o.stringKey }]) = [{ o with stringKey := d.key o.stringKey }] := by
      intro name
      rw [Cmdline.number, if_neg hkey]
      rfl
    have hcase : ∃ b, c.setCase { o with stringKey := d.key o.stringKey } = { o with stringKey := reportedKey d o.stringKey, caseInsensitive := b } := by
      rw [key_eq]
      unfold Cmdline.setCase
      split
      · exact ⟨_, rfl⟩
      · exact ⟨_, rfl⟩
    obtain ⟨b, hb⟩ := hcase
    refine ⟨b, ?_⟩
    cases c.positional with
    | none =>
      dsimp only
      rw [hnum, List.map_singleton, hb]
    | some q =>
      dsimp only
      rw [if_neg (by
        unfold Cmdline.tooMany Cmdline.unnamed
        cases q.maxTotalCount <;> simp [hkey]), hnum, List.map_singleton, hb]

/-! ### A style parser that returns nothing -/

namespace Cmdline

/-- The same parser without the style parser. -/
def bare (c : Cmdline) : Cmdline := { c with styleParser := none }

theorem shortLoop_bare (c : Cmdline) (tok name adj : Str) : c.bare.shortLoop tok name adj = c.shortLoop tok name adj := by
  induction adj generalizing name with
  | nil => rw [shortLoop, shortLoop]; rfl
  | cons a adj ih =>
    rw [shortLoop, shortLoop, show c.bare.findShort name = c.findShort name from rfl]
    cases c.findShort name with
    | error f => rfl
    | ok d =>
      dsimp only
      rw [ih]
      rfl

theorem tokParsers_bare (c : Cmdline) : c.bare.tokParsers = c.tokParsers := by
  have e : c.bare.parseShort = c.parseShort := by
    funext args
    cases args with
    | nil => rfl
    | cons tok rest => rw [parseShort, parseShort, c.shortLoop_bare]
  unfold tokParsers
  rw [e]
  rfl

theorem grab_idle (c : Cmdline) (ps qs : List StyleParser) (hps : ∀ t, lookahead ps [t] = lookahead qs [t]) (n : Nat) (other : List Str) (opt : Opt) (orig : Str) :
    c.grab ps n other opt orig = c.bare.grab qs n other opt orig := by
  induction n generalizing other opt orig with
  | zero => rw [grab, grab]
  | succ n ih =>
    cases other with
    | nil => rw [grab, grab]
    | cons t ts =>
      rw [grab, grab, hps]
      cases lookahead qs [t] with
      | error f => rfl
      | ok os =>
        cases os with
        | nil => exact ih _ _ _
        | cons o os =>
          dsimp only
          rw [show c.bare.lookup t = c.lookup t from rfl]
          cases c.lookup t with
          | error f => rfl
          | ok r =>
            cases r with
            | none => exact ih _ _ _
            | some d => rfl

theorem finishOption_idle (c : Cmdline) (ps qs : List StyleParser) (hps : ∀ t, lookahead ps [t] = lookahead qs [t]) (opt : Opt) (other : List Str) :
    c.finishOption ps opt other = c.bare.finishOption qs opt other := by
  unfold finishOption
  rw [show c.bare.lookup opt.stringKey = c.lookup opt.stringKey from rfl]
  dsimp only
  cases c.lookup opt.stringKey with
  | error f => rfl
  | ok r =>
    cases r with
    | none => rfl
    | some d =>
      dsimp only
      rw [c.grab_idle ps qs hps]
      rfl

theorem finishAll_idle (c : Cmdline) (ps qs : List StyleParser) (hps : ∀ t, lookahead ps [t] = lookahead qs [t]) (os : List Opt) (args : List Str) :
    c.finishAll ps os args = c.bare.finishAll qs os args := by
  induction os with
  | nil => rw [finishAll, finishAll]
  | cons o os ih =>
    cases os with
    | nil => rw [finishAll, finishAll, c.finishOption_idle ps qs hps]
    | cons o2 os =>
      have e : ∀ (c : Cmdline) (ps : List StyleParser), c.finishAll ps (o :: o2 :: os) args =
          match c.finishOption ps o [] with
          | .error f => .error f
          | .ok (o', _) =>
            match c.finishAll ps (o2 :: os) args with
            | .error f => .error f
            | .ok (os', args') => .ok (o' :: os', args') := by
        intro c ps
        rw [finishAll.eq_3 _ _ _ _ _ (by simp)]
        rfl
      rw [e, e, c.finishOption_idle ps qs hps, ih]

theorem step_idle_eq (c : Cmdline) (p : StyleParser) (hs : c.styleParser = some p) (hp : ∀ args, args ≠ [] → p args = .ok ([], args)) (tok : Str) (rest : List Str) :
    c.step (tok :: rest) = c.bare.step (tok :: rest) := by
  have hps : ∀ t, lookahead c.parsers [t] = lookahead c.bare.parsers [t] := by
    intro t
    rw [c.parsers_own p hs, lookahead, hp _ (by simp)]
    dsimp only
    rw [if_pos rfl, parsers_eq c.bare rfl, tokParsers_bare]
  rw [c.step_idle p hs tok rest (hp _ (by simp)), c.bare.step_eq rfl]
  rw [show c.bare.front tok = c.front tok by unfold front; rw [tokParsers_bare]]
  cases c.front tok with
  | error f => rfl
  | ok l =>
    cases l with
    | nil => rfl
    | cons o l => exact c.finishAll_idle _ _ hps _ _

theorem loop_idle_eq (c : Cmdline) (p : StyleParser) (hs : c.styleParser = some p) (hp : ∀ args, args ≠ [] → p args = .ok ([], args)) (fuel : Nat) (args : List Str) :
    c.loop fuel args = c.bare.loop fuel args := by
  induction fuel generalizing args with
  | zero => cases args <;> rw [loop, loop]
  | succ fuel ih =>
    cases args with
    | nil => rw [loop, loop]
    | cons tok rest =>
      rw [loop, loop, c.step_idle_eq p hs hp]
      cases c.bare.step (tok :: rest) with
      | error f => rfl
      | ok r =>
        dsimp only
        rw [ih]

theorem regroup_bare (c : Cmdline) (k : Nat) (os : List Opt) : c.regroup k os = c.bare.regroup k os := by
  induction os generalizing k with
  | nil => rw [regroup, regroup]
  | cons o os ih =>
    cases k with
    | succ k => rw [regroup, regroup, ih]
    | zero =>
      rw [regroup, regroup]
      simp only [ih]
      rfl

end Cmdline

/-- **C142, nothing returned:** a style parser that never returns an option changes nothing. -/
theorem C142_idle (c : Cmdline) (p : StyleParser) (hs : c.styleParser = some p) (hp : ∀ args, args ≠ [] → p args = .ok ([], args)) (args : List Str) :
    c.run args = { c with styleParser := none }.run args := by
  show c.run args = c.bare.run args
  unfold Cmdline.run Cmdline.runFuel
  rw [c.loop_idle_eq p hs hp]
  cases c.bare.loop (args.length + 1) args with
  | error f => rfl
  | ok os =>
    dsimp only
    unfold Cmdline.finalize
    rw [c.regroup_bare]
    rfl

/-! ### Style parsers -/

namespace Ex.StyleParser

/-- A style parser for response files, as in test/cmdline_test.cpp:497-509, that records the token. -/
def at_ : StyleParser := fun args =>
  match args with
  | ('@' :: n) :: rest => .ok ([{ stringKey := Test.L "foo", value := [['1']] }, { stringKey := Test.L "bar", value := [['1']], originalTokens := ['@' :: n] }], rest)
  | a => .ok ([], a)

/-- One that takes two tokens, and returns them as the values of an option: `+ x`. -/
def plus : StyleParser := fun args =>
  match args with
  | ['+'] :: v :: rest => .ok ([{ stringKey := Test.L "foo", value := [['+'], v], originalTokens := [['+'], v] }], rest)
  | a => .ok ([], a)

/-- One that takes two tokens, and returns them as one positional argument. -/
def pair : StyleParser := fun args =>
  match args with
  | ['+'] :: v :: rest => .ok ([{ value := [['+'], v], originalTokens := [['+'], v] }], rest)
  | a => .ok ([], a)

def options : List OptionDesc := [Test.od "foo,f" (Test.sem Test.vstr), Test.od "bar" (Test.sem Test.vstr)]

theorem at_orderly : Orderly at_ ∧ Records at_ := by
  refine ⟨⟨?_, ?_, ?_⟩, ?_⟩
  all_goals
    intro args
    unfold at_
    split
  · intro rest h; cases h
  · intro rest h; cases h; rfl
  · rintro os rest h _; cases h; exact ⟨[_], by simp, rfl⟩
  · rintro os rest h h0; cases h; exact absurd rfl h0
  · rintro os rest h; cases h; simp
  · rintro os rest h; cases h; simp
  · rintro os rest h; cases h; rfl
  · rintro os rest h; cases h; rfl

theorem plus_orderly : Orderly plus ∧ Records plus := by
  refine ⟨⟨?_, ?_, ?_⟩, ?_⟩
  all_goals
    intro args
    unfold plus
    split
  · intro rest h; cases h
  · intro rest h; cases h; rfl
  · rintro os rest h _; cases h; exact ⟨[_, _], by simp, rfl⟩
  · rintro os rest h h0; cases h; exact absurd rfl h0
  · rintro os rest h; cases h; simp
  · rintro os rest h; cases h; simp
  · rintro os rest h; cases h; rfl
  · rintro os rest h; cases h; rfl

theorem pair_orderly : Orderly pair ∧ Records pair := by
  refine ⟨⟨?_, ?_, ?_⟩, ?_⟩
  all_goals
    intro args
    unfold pair
    split
  · intro rest h; cases h
  · intro rest h; cases h; rfl
  · rintro os rest h _; cases h; exact ⟨[_, _], by simp, rfl⟩
  · rintro os rest h h0; cases h; exact absurd rfl h0
  · rintro os rest h; cases h; simp
  · rintro os rest h; cases h; simp
  · rintro os rest h; cases h; rfl
  · rintro os rest h; cases h; rfl

/-- The hypotheses of the claims hold. -/
theorem options_fine : ∀ p : Option StyleParser, Identified { desc := options, styleParser := p } ∧ (∀ d ∈ options, ¬ CanonicalName d []) ∧
    ∀ d ∈ options, d.semantic.minTokens ≤ d.semantic.maxTokens := by
  intro p
  refine ⟨?_, ?_, ?_⟩
  · intro d hd k hk
    simp only [options, List.mem_cons, List.not_mem_nil, or_false] at hd
    rcases hd with rfl | rfl
    · rcases hk with ⟨h, _⟩ | ⟨h, _⟩
      · cases h
        show exacts options _ (active ({ desc := options } : Cmdline).style _) (active ({ desc := options } : Cmdline).style _) = _
        rfl
      · cases h
    · rcases hk with ⟨h, _⟩ | ⟨h, _⟩
      · cases h
        show exacts options _ (active ({ desc := options } : Cmdline).style _) (active ({ desc := options } : Cmdline).style _) = _
        rfl
      · cases h
  · intro d hd hk
    simp only [options, List.mem_cons, List.not_mem_nil, or_false] at hd
    rcases hd with rfl | rfl <;> rcases hk with ⟨h, _⟩ | ⟨h, _⟩ <;> cases h
  · intro d hd
    simp only [options, List.mem_cons, List.not_mem_nil, or_false] at hd
    rcases hd with rfl | rfl <;> decide

end Ex.StyleParser
open Ex.StyleParser

example : (({ desc := options, styleParser := some at_ } : Cmdline).run [Test.L "x", Test.L "@r", Test.L "-f", Test.L "2", Test.L "--", Test.L "@s"]).map
    (·.map fun o => (o.stringKey, o.value, o.originalTokens)) =
    .ok [([], [['x']], [['x']]), (Test.L "foo", [['1']], []), (Test.L "bar", [['1']], [Test.L "@r"]), (Test.L "foo", [['2']], [Test.L "-f", ['2']]),
      ([], [Test.L "@s"], [Test.L "@s"])] := by rfl

/-- A style parser that returns an option not declared. -/
example : (({ desc := options.tail, styleParser := some at_, allowUnregistered := true } : Cmdline).run [Test.L "@r"]).map
    (·.map fun o => (o.stringKey, o.value, o.unregistered)) = .ok [(Test.L "foo", [['1']], true), (Test.L "bar", [['1']], false)] := by rfl
example : ((({ desc := options.tail, styleParser := some at_ } : Cmdline).run [Test.L "@r"]).map fun _ => ()) =
    .error (errUnknown.addContext (Test.L "foo") (Test.L "foo") (({ desc := options } : Cmdline).canonicalPrefix)) := by rfl

/-- `at_` satisfies the conditions of the two partial results. -/
example (args : List Str) (u : UB) : ({ desc := options, styleParser := some at_ } : Cmdline).run args ≠ .error (.ub u) := by
  refine C142_no_ub_partial { desc := options, styleParser := some at_ } at_ rfl at_orderly.1 ?_ ?_ (options_fine none).2.1 ?_ args u
  · intro args u _
    unfold at_
    split <;> simp
  · intro args os rest
    unfold at_
    split
    · intro h; cases h; simp [Test.L]
    · intro h; cases h; simp
  · intro d hd k hk
    exact .inl ⟨d, .inl ((options_fine (some at_)).1 d hd k hk)⟩

/-- `--bar=1` would be another option, if the style parser did not take it. -/
example : (({ desc := options, styleParser := some fun args => .ok (args.map fun a => ({ stringKey := Test.L "fo", value := [a], originalTokens := [a] } : Opt), []) } : Cmdline).run
    [Test.L "--bar=1"]).map (·.map fun o => (o.stringKey, o.value)) = .ok [(Test.L "foo", [Test.L "--bar=1"])] := by rfl

/-- A token that the style parser recognises is still taken for a value of the option before it, as it is not the name of an option
(src/cmdline.cpp:474-488). -/
example : (({ desc := options, styleParser := some at_ } : Cmdline).run [Test.L "-f", Test.L "@r"]).map
    (·.map fun o => (o.stringKey, o.value, o.originalTokens)) = .ok [(Test.L "foo", [Test.L "@r"], [Test.L "-f", Test.L "@r"])] := by rfl

/-- So is the first of two tokens that it recognises together. -/
example : (({ desc := options, styleParser := some plus } : Cmdline).run [Test.L "--bar", Test.L "+", Test.L "x"]).map
    (·.map fun o => (o.stringKey, o.value, o.originalTokens)) = .ok [(Test.L "bar", [['+']], [Test.L "--bar", ['+']]), ([], [['x']], [['x']])] := by rfl

/-- **C142 is violated:** an option that takes one value is returned with two by the style parser. -/
theorem C142_negation : ¬ C142_claim := by
  intro h
  obtain ⟨d, hd, _, _, h2⟩ := h { desc := options, styleParser := some plus } plus rfl plus_orderly.1 plus_orderly.2 (options_fine _).1 (options_fine none).2.2
    [['+'], ['x']] _ (by simp) rfl _ (List.mem_singleton.2 rfl) rfl rfl
  simp only [options, List.mem_cons, List.not_mem_nil, or_false] at hd
  rcases hd with rfl | rfl <;> exact absurd h2 (by decide)

/-- The claim that there is no undefined behaviour. -/
def C142_ub_claim : Prop := ∀ (c : Cmdline) (p : StyleParser), c.styleParser = some p → Orderly p → Records p → (∀ args u, p args ≠ .error (.ub u)) →
  (∀ d ∈ c.desc, ¬ CanonicalName d []) → Identified c → ∀ (args : List Str) (u : UB), c.run args ≠ .error (.ub u)

/-- **C142 is violated** in another way: a positional argument of two tokens after an option that takes many values fails an assertion
(src/cmdline.cpp:345). -/
theorem C142_ub_negation : ¬ C142_ub_claim := by
  intro h
  have hid : Identified { desc := [Test.od "num,n" (Test.sem { Test.vvec with multitoken := true })], styleParser := some pair } := by
    intro d hd k hk
    simp only [List.mem_cons, List.not_mem_nil, or_false] at hd
    subst hd
    rcases hk with ⟨h, _⟩ | ⟨h, _⟩
    · cases h; rfl
    · cases h
  refine h { desc := [Test.od "num,n" (Test.sem { Test.vvec with multitoken := true })], styleParser := some pair } pair rfl pair_orderly.1 pair_orderly.2 ?_ ?_ hid
    [Test.L "-n", ['1'], ['+'], ['x']] .valueNotSingle rfl
  · intro args u
    unfold pair
    split <;> simp
  · intro d hd hk
    simp only [List.mem_cons, List.not_mem_nil, or_false] at hd
    subst hd
    rcases hk with ⟨h, _⟩ | ⟨h, _⟩ <;> cases h

end PO
