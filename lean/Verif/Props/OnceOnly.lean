import Verif.Spec.OnceOnly
import Verif.Props.MultipleSources
import Verif.Props.Values
import Verif.Props.Known
/-
C113: command lines with options that can be given once.
-/
namespace PO
open Spec
open Hierarchy (occ_nil occ_ne scalar_once)
open MultipleSources (settled_one one_settled occ_length)

theorem Spec.OnceOnly.parse_all {env : Env} {s : ValueSemantic} {w : Wants} (h : OnceOnly env s w) (L : List (List Str))
    (hL : ∀ l ∈ L, s.minTokens ≤ l.length ∧ l.length ≤ s.maxTokens) (a : Any) : parseAll s false none L = .ok a ↔
      L = [] ∧ a = none ∨ ∃ toks v, L = [toks] ∧ OnceRead env w toks v ∧ a = some v := by
  have typed : ∀ (t : TypedValue) (st : SType), t.type = .scalar st → t.wide = false → t.implicit = none → ∀ L : List (List Str),
      (parseAll (t.toSemantic env) false none L = .ok a ↔
        L = [] ∧ a = none ∨ ∃ toks x, L = [toks] ∧ validateScalar env st toks = .ok x ∧ a = some (.scalar x)) := by
    intro t st ht hw hi L
    by_cases h0 : L = []
    · subst h0
      simp [parseAll, eq_comm]
    · constructor
      · intro hp
        obtain ⟨toks, x, h1, h2, h3⟩ := scalar_once ht hw hi h0 hp
        exact .inr ⟨toks, x, h1, h2, h3⟩
      · rintro (⟨h1, -⟩ | ⟨toks, x, rfl, hx, rfl⟩)
        · exact absurd h1 h0
        · have hp : (t.toSemantic env).parse none toks false = validate (validateScalar env) (.scalar st) none toks := by
            simp only [TypedValue.toSemantic, TypedValue.parse, hw, TypedValue.xparse, hi, ht]
            cases toks <;> rfl
          rw [parseAll, hp, validate, hx]
          rfl
  cases h with
  | switch =>
    have hL' : ∀ l ∈ L, l = [] := fun l hl => List.length_eq_zero_iff.1 (Nat.le_zero.1 (hL l hl).2)
    match L with
    | [] => simp [parseAll, eq_comm]
    | [l] =>
      rw [hL' l (by simp)]
      constructor
      · intro h; cases h; exact .inr ⟨[], _, rfl, .nothing, rfl⟩
      · rintro (⟨h, -⟩ | ⟨toks, v, h1, h2, rfl⟩)
        · cases h
        · cases h2; rfl
    | l :: l' :: rest =>
      rw [hL' l (by simp), hL' l' (by simp)]
      constructor
      · intro h; cases h
      · rintro (⟨h, -⟩ | ⟨toks, v, h1, h2, rfl⟩)
        · cases h
        · cases h1
  | flag t ht hz hm hw hi =>
    have hL' : ∀ l ∈ L, l = [] := fun l hl => by
      have := (hL l hl).2
      simp only [TypedValue.toSemantic, TypedValue.maxTokens, hm, hz] at this
      exact List.length_eq_zero_iff.1 (Nat.le_zero.1 this)
    rw [typed t _ ht hw hi]
    refine or_congr_right ?_
    constructor
    · rintro ⟨toks, x, rfl, hx, rfl⟩
      rw [hL' toks (by simp), (faithful_narrow env).bool] at hx
      cases hx
      exact ⟨_, _, rfl, hL' toks (by simp) ▸ .flag, rfl⟩
    · rintro ⟨toks, v, rfl, hr, rfl⟩
      cases hr
      exact ⟨_, _, rfl, (faithful_narrow env).bool, rfl⟩
  | one t st ht hz hm hw hi =>
    have hL' : ∀ l ∈ L, ∃ x, l = [x] := fun l hl => by
      have := hL l hl
      simp only [TypedValue.toSemantic, TypedValue.maxTokens, TypedValue.minTokens, hm, hz, hi] at this
      exact List.length_eq_one_iff.1 (Nat.le_antisymm this.2 this.1)
    rw [typed t _ ht hw hi]
    refine or_congr_right ?_
    constructor
    · rintro ⟨toks, v, rfl, hx, rfl⟩
      obtain ⟨x, rfl⟩ := hL' toks (by simp)
      exact ⟨_, _, rfl, .one (((faithful_narrow env).ok st x v).1 hx), rfl⟩
    · rintro ⟨toks, v, rfl, hr, rfl⟩
      cases hr with
      | one hc => exact ⟨_, _, rfl, ((faithful_narrow env).ok st _ _).2 hc, rfl⟩

theorem Spec.OnceOnly.tokens {env : Env} {s : ValueSemantic} {w : Wants} (h : OnceOnly env s w) : s.minTokens ≤ s.maxTokens := by
  cases h with
  | switch => exact Nat.le_refl 0
  | flag t ht hz hm hw hi => simp [TypedValue.toSemantic, TypedValue.minTokens, hz]
  | one t st ht hz hm hw hi => simp [TypedValue.toSemantic, TypedValue.minTokens, TypedValue.maxTokens, hz, hi, hm]

def Spec.Wants.Fits : Wants → List Str → Prop
  | .nothing, l | .flag, l => l = []
  | .one _, l => ∃ x, l = [x]

/-- How many values it takes. -/
theorem Spec.OnceOnly.takes {env : Env} {s : ValueSemantic} {w : Wants} (h : OnceOnly env s w) {l : List Str} (hl : s.minTokens ≤ l.length ∧ l.length ≤ s.maxTokens) :
    w.Fits l := by
  cases h with
  | switch => exact List.length_eq_zero_iff.1 (Nat.le_zero.1 hl.2)
  | flag t ht hz hm hw hi =>
    have := hl.2
    simp only [TypedValue.toSemantic, TypedValue.maxTokens, hm, hz] at this
    exact List.length_eq_zero_iff.1 (Nat.le_zero.1 this)
  | one t st ht hz hm hw hi =>
    simp only [TypedValue.toSemantic, TypedValue.maxTokens, TypedValue.minTokens, hm, hz, hi] at hl
    exact List.length_eq_one_iff.1 (Nat.le_antisymm hl.2 hl.1)

namespace Spec.OnceOnlyParser
variable {env : Env} {c : Cmdline}

theorem run_of {args : List Str} {p : Parsed} (h : c.parse args = .ok p) : p.desc = c.desc ∧ c.run args = .ok p.options := by
  unfold Cmdline.parse at h
  cases hr : c.run args with
  | error f => rw [hr] at h; cases h
  | ok os => rw [hr] at h; cases h; exact ⟨rfl, rfl⟩

theorem cand (hc : OnceOnlyParser env c) {d : OptionDesc} (hd : d ∈ c.desc) {n : Str} (hn : d.longNames = [n]) : candidates c.desc n = [d] := by
  obtain ⟨n', hn', h0, -⟩ := hc.named d hd
  cases hn.symm.trans hn'
  exact known_exact hc.distinct hd h0 (.inl ⟨n, by rw [hn]; simp, h0, rfl⟩)

theorem unique (hc : OnceOnlyParser env c) {d d' : OptionDesc} (hd : d ∈ c.desc) (hd' : d' ∈ c.desc) {n : Str} (hn : d.longNames = [n])
    (hn' : d'.longNames = [n]) : d = d' := by
  have := (hc.cand hd hn).symm.trans (hc.cand hd' hn')
  cases this
  rfl

/-- Only declared names are given. -/
theorem declared (hc : OnceOnlyParser env c) {args : List Str} {p : Parsed} (h : c.parse args = .ok p) {o : Opt} (ho : o ∈ p.options) (hk : o.stringKey ≠ [])
    (hreg : o.unregistered = false) : o.positionKey = -1 ∧ ∃ d ∈ c.desc, d.longNames = [o.stringKey] := by
  obtain ⟨-, hrun⟩ := run_of h
  by_cases hp : o.positionKey = -1
  · obtain ⟨_, _, n, _, _, _, d, hd, _, hkey⟩ := C06_canonical_key _ hc.style args _ hrun o ho hp hreg
    refine ⟨hp, d, hd, ?_⟩
    obtain ⟨n', hn, -, hw⟩ := hc.named d hd
    rw [hkey, hn, reportedKey, hn]
    simp [hw]
  · exfalso
    have hmem : o ∈ positionals p.options := List.mem_filter.2 ⟨ho, by simpa using hp⟩
    obtain ⟨i, hi, hoi⟩ := List.mem_iff_getElem.1 hmem
    obtain ⟨-, -, hname⟩ := C08_numbered _ hc.style args _ hrun i o (by rw [← hoi]; exact List.getElem?_eq_getElem hi)
    rw [hc.positional] at hname
    exact hk hname

/-- Options have as many values as they take. -/
theorem values (hc : OnceOnlyParser env c) {args : List Str} (hlen : args.length < 2147483648) {p : Parsed} (h : c.parse args = .ok p) {d : OptionDesc}
    (hd : d ∈ c.desc) {n : Str} (hn : d.longNames = [n]) :
    ∀ l ∈ (occurrences p.options n).map (·.value), d.semantic.minTokens ≤ l.length ∧ l.length ≤ d.semantic.maxTokens := by
  intro l hl
  obtain ⟨o, ho, rfl⟩ := List.mem_map.1 hl
  obtain ⟨hmem, hp⟩ := List.mem_filter.1 ho
  obtain ⟨rfl, hk, hreg⟩ := of_decide_eq_true hp
  obtain ⟨-, hrun⟩ := run_of h
  obtain ⟨hpk, -⟩ := hc.declared h hmem hk hreg
  obtain ⟨d', hd', hden, h1, h2⟩ := C18_token_counts c hc.style hc.identified (by
    intro d hd
    obtain ⟨w, hw⟩ := hc.once d hd
    exact hw.tokens) args hlen _ hrun o hmem hpk hreg
  obtain ⟨n', hn', -, hw⟩ := hc.named d hd
  cases hn.symm.trans hn'
  have hex := hc.identified d hd _ (.inl ⟨by rw [hn]; rfl, hw⟩)
  unfold Denotes at hden
  dsimp only at hden
  rw [hex] at hden
  rcases hden with hden | ⟨hden, -⟩
  · cases hden; exact ⟨h1, h2⟩
  · cases hden

theorem own_eq {d : OptionDesc} {n : Str} (hn : d.longNames = [n]) (hw : '*' ∉ n) : d.own = n := by
  unfold OptionDesc.own
  rw [hn]
  simp [hw]

theorem default_of (hc : OnceOnlyParser env c) {d : OptionDesc} (hd : d ∈ c.desc) {n : Str} (hn : d.longNames = [n]) :
    firstDefault c.desc n = d.semantic.applyDefault.map fun a => (d.semantic, a) := by
  obtain ⟨n', hn', h0, hw⟩ := hc.named d hd
  cases hn.symm.trans hn'
  have hu : ∀ x ∈ c.desc, x.own = n → x = d := by
    intro x hx ho
    obtain ⟨k, hk, -, hw'⟩ := hc.named x hx
    rw [own_eq hk hw'] at ho
    subst ho
    exact hc.unique hx hd hk hn
  unfold firstDefault
  revert hd hu
  generalize c.desc = l
  intro hd hu
  induction l with
  | nil => cases hd
  | cons x xs ih =>
    rw [List.findSome?_cons]
    by_cases hx : x.own = n
    · have hxd := hu x (by simp) hx
      subst hxd
      rw [if_pos ⟨hx, h0⟩]
      cases hdf : x.semantic.applyDefault with
      | some a => rfl
      | none =>
        simp only [Option.map_none]
        by_cases hm : x ∈ xs
        · rw [ih hm fun y hy => hu y (by simp [hy]), hdf]; rfl
        · rw [List.findSome?_eq_none_iff]
          intro y hy
          rw [if_neg]
          rintro ⟨h1, -⟩
          exact hm (hu y (by simp [hy]) h1 ▸ hy)
    · rw [if_neg (fun h => hx h.1)]
      refine ih ?_ fun y hy => hu y (by simp [hy])
      rcases List.mem_cons.1 hd with rfl | h
      · exact absurd (own_eq hn hw) hx
      · exact h

theorem default_none (hc : OnceOnlyParser env c) {n : Str} (hn : ∀ d ∈ c.desc, d.longNames ≠ [n]) : firstDefault c.desc n = none := by
  unfold firstDefault
  rw [List.findSome?_eq_none_iff]
  intro d hd
  obtain ⟨n', hn', h0, hw⟩ := hc.named d hd
  rw [own_eq hn' hw, if_neg]
  rintro ⟨rfl, -⟩
  exact hn d hd hn'

theorem record_of {args : List Str} {p : Parsed} (h : c.parse args = .ok p) {m : VarMap} (hm : store p {} = (m, none)) (n : Str) :
    (¬ Mentions p.options n ∧ m.map.get? n = record none (firstDefault c.desc n)) ∨
    ∃ d a, Mentions p.options n ∧ candidates c.desc n = [d] ∧ parseAll d.semantic false none ((occurrences p.options n).map (·.value)) = .ok a ∧
      m.map.get? n = some { v := a, defaulted := false, semantic := some d.semantic } := by
  obtain ⟨r, hr, hg⟩ := C104_value [(p, false)] m (.cons hm (.nil _)) n
  rcases settled_one hr with ⟨hm, rfl⟩ | ⟨d, a, hm, hd, ha, rfl⟩
  · left
    refine ⟨hm, ?_⟩
    rw [hg, defaultFrom_cons, (run_of h).1]
    cases firstDefault c.desc n <;> simp [defaultFrom]
  · rw [(run_of h).1] at hd
    exact .inr ⟨d, a, hm, hd, ha, hg⟩

end Spec.OnceOnlyParser

/-- The command line is stored exactly if no option is given twice and each value can be read. -/
theorem C113_succeeds (env : Env) (c : Cmdline) (hc : OnceOnlyParser env c) (args : List Str) (hlen : args.length < 2147483648) (p : Parsed)
    (h : c.parse args = .ok p) :
    (∃ m, store p {} = (m, none)) ↔ ∀ d ∈ c.desc, ∀ n w, d.longNames = [n] → OnceOnly env d.semantic w →
      AtMostOnce p.options n ∧ ∀ o ∈ occurrences p.options n, ∃ v, OnceRead env w o.value v := by
  constructor
  · rintro ⟨m, hm⟩ d hd n w hn hw
    rcases Spec.OnceOnlyParser.record_of h hm n with ⟨hg, -⟩ | ⟨d', a, hg, hd', ha, -⟩
    · unfold AtMostOnce
      rw [occ_nil hg]
      exact ⟨by simp, nofun⟩
    · cases (hc.cand hd hn).symm.trans hd'
      rcases (hw.parse_all _ (hc.values hlen h hd hn) a).1 ha with ⟨h1, -⟩ | ⟨toks, v, h1, hr, -⟩
      · exact absurd h1 (occ_ne hg)
      · refine ⟨occ_length.1 (by rw [h1]; simp), fun o ho => ⟨v, ?_⟩⟩
        have : o.value ∈ [toks] := h1 ▸ List.mem_map_of_mem ho
        rw [List.mem_singleton.1 this]
        exact hr
  · intro hall
    have : ∃ m, Stores {} [(p, false)] m := by
      rw [C104_succeeds]
      intro n
      by_cases hg : Mentions p.options n
      · obtain ⟨o, ho, rfl, hk, hreg⟩ := hg
        obtain ⟨-, d, hd, hn⟩ := hc.declared h ho hk hreg
        obtain ⟨w, hw⟩ := hc.once d hd
        obtain ⟨h1, h2⟩ := hall d hd _ w hn hw
        have hg : Mentions p.options o.stringKey := ⟨o, ho, rfl, hk, hreg⟩
        have hpa := hw.parse_all _ (hc.values hlen h hd hn)
        match hocc : occurrences p.options o.stringKey with
        | [] => exact absurd (by rw [hocc]; rfl) (occ_ne hg)
        | [o'] =>
          obtain ⟨v, hv⟩ := h2 o' (by rw [hocc]; simp)
          refine ⟨_, one_settled hg (by rw [(Spec.OnceOnlyParser.run_of h).1]; exact hc.cand hd hn) ((hpa (some v)).2 (.inr ⟨o'.value, v, by rw [hocc]; rfl, hv, rfl⟩))⟩
        | _ :: _ :: _ =>
          unfold AtMostOnce at h1
          rw [hocc] at h1
          simp at h1
      · exact ⟨_, .silent hg (.done _)⟩
    obtain ⟨m, hm⟩ := this
    cases hm with
    | cons h1 h2 => exact ⟨_, h1⟩

/-- An option that is given has the value that its token stands for; -/
theorem C113_given (env : Env) (c : Cmdline) (hc : OnceOnlyParser env c) (args : List Str) (hlen : args.length < 2147483648) (p : Parsed)
    (h : c.parse args = .ok p) (m : VarMap) (hm : store p {} = (m, none)) (d : OptionDesc) (hd : d ∈ c.desc) (n : Str) (w : Wants) (hn : d.longNames = [n])
    (hw : OnceOnly env d.semantic w) (hg : Mentions p.options n) :
    ∃ o v, occurrences p.options n = [o] ∧ OnceRead env w o.value v ∧
      m.map.get? n = some { v := some v, defaulted := false, semantic := some d.semantic } := by
  rcases Spec.OnceOnlyParser.record_of h hm n with ⟨hg', -⟩ | ⟨d', a, -, hd', ha, hr⟩
  · exact absurd hg hg'
  · cases (hc.cand hd hn).symm.trans hd'
    rcases (hw.parse_all _ (hc.values hlen h hd hn) a).1 ha with ⟨h1, -⟩ | ⟨toks, v, h1, hv, rfl⟩
    · exact absurd h1 (occ_ne hg)
    · match hocc : occurrences p.options n with
      | [] => rw [hocc] at h1; cases h1
      | [o] => rw [hocc] at h1; cases h1; exact ⟨o, v, rfl, hv, hr⟩
      | _ :: _ :: _ => rw [hocc] at h1; cases h1

/-- one that is not given has its default, if it has one; -/
theorem C113_not_given (env : Env) (c : Cmdline) (hc : OnceOnlyParser env c) (args : List Str) (p : Parsed)
    (h : c.parse args = .ok p) (m : VarMap) (hm : store p {} = (m, none)) (d : OptionDesc) (hd : d ∈ c.desc) (n : Str) (hn : d.longNames = [n])
    (hg : ¬ Mentions p.options n) :
    m.map.get? n = d.semantic.applyDefault.map fun a => { v := a, defaulted := true, semantic := some d.semantic } := by
  rcases Spec.OnceOnlyParser.record_of h hm n with ⟨-, hr⟩ | ⟨d', a, hg', -⟩
  · rw [hr, hc.default_of hd hn]
    cases d.semantic.applyDefault <;> rfl
  · exact absurd hg' hg

/-- and there is nothing else in the map. -/
theorem C113_nothing_else (env : Env) (c : Cmdline) (hc : OnceOnlyParser env c) (args : List Str) (p : Parsed)
    (h : c.parse args = .ok p) (m : VarMap) (hm : store p {} = (m, none)) (n : Str) (hn : ∀ d ∈ c.desc, d.longNames ≠ [n]) : m.map.get? n = none := by
  rcases Spec.OnceOnlyParser.record_of h hm n with ⟨-, hr⟩ | ⟨d', a, hg, -⟩
  · rw [hr, hc.default_none hn]; rfl
  · obtain ⟨o, ho, rfl, hk, hreg⟩ := hg
    obtain ⟨-, d, hd, hn'⟩ := hc.declared h ho hk hreg
    exact absurd hn' (hn d hd)

/-- If the program does not get a map, then because of an exception of the library. -/
theorem C113_otherwise (env : Env) (c : Cmdline) (hc : OnceOnlyParser env c) (ht : ∀ d ∈ c.desc, ∃ T, Narrow d.semantic T) (args : List Str) :
    (∃ p m, c.parse args = .ok p ∧ store p {} = (m, none)) ∨ (∃ f, c.parse args = .error f ∧ LibraryException f) ∨
      ∃ p m f, c.parse args = .ok p ∧ store p {} = (m, some f) ∧ LibraryException f := by
  cases h : c.parse args with
  | error f =>
    refine .inr (.inl ⟨f, rfl, ?_⟩)
    unfold Cmdline.parse at h
    cases hr : c.run args with
    | ok os => rw [hr] at h; cases h
    | error g =>
      rw [hr] at h
      cases h
      refine commandLine_library c hc.style (fun d hd hk => ?_) (fun d hd k hk => .inl ⟨d, .inl (hc.identified d hd k hk)⟩) args _ hr
      obtain ⟨n, hn, h0, -⟩ := hc.named d hd
      rcases hk with ⟨hk, -⟩ | ⟨hk, -⟩
      · rw [hn] at hk; cases hk; exact h0 rfl
      · rw [hn] at hk; cases hk
  | ok p =>
    cases hst : store p {} with
    | mk m e =>
      cases e with
      | none => exact .inl ⟨p, m, rfl, hst⟩
      | some f =>
        refine .inr (.inr ⟨p, m, f, rfl, hst, store_library (P := []) (by simp) (.nil _) (fun name => ?_) hst⟩)
        by_cases hd : ∃ d, candidates p.desc name = [d]
        · obtain ⟨d, hd⟩ := hd
          have hmem : d ∈ c.desc := by
            have hdm : d ∈ candidates p.desc name := by rw [hd]; simp
            rw [(Spec.OnceOnlyParser.run_of h).1] at hdm
            unfold candidates exacts approximates at hdm
            split at hdm <;> exact (List.mem_filter.1 hdm).1
          obtain ⟨T, hT⟩ := ht d hmem
          refine ⟨T, fun q hq d' hd' => ?_⟩
          cases List.mem_singleton.1 hq
          cases hd.symm.trans hd'
          exact hT
        · refine ⟨.scalar .str, fun q hq d' hd' => ?_⟩
          cases List.mem_singleton.1 hq
          exact absurd ⟨d', hd'⟩ hd

/-! ### How to recognise such a parser -/

/-- The names of an option. -/
def Spec.ownNames (d : OptionDesc) : List Str := (d.shortName :: d.longNames).filter (· ≠ [])

theorem mem_ownNames {d : OptionDesc} {n : Str} (hn : n ≠ []) : n ∈ ownNames d ↔ Exact d n false false := by
  unfold ownNames Exact
  rw [List.mem_filter, List.mem_cons]
  simp only [fold, Bool.false_eq_true, if_false, ne_eq, decide_eq_true_eq]
  constructor
  · rintro ⟨rfl | h, -⟩
    · exact .inr rfl
    · exact .inl ⟨n, h, hn, rfl⟩
  · rintro (⟨m, hm, -, rfl⟩ | rfl)
    · exact ⟨.inr hm, hn⟩
    · exact ⟨.inl rfl, hn⟩

theorem noClash_of_nodup {desc : List OptionDesc} (h : (desc.flatMap ownNames).Nodup) : NoClash desc := by
  intro n hn
  unfold exacts
  induction desc with
  | nil => simp
  | cons d ds ih =>
    rw [List.flatMap_cons, List.nodup_append] at h
    obtain ⟨-, h2, h3⟩ := h
    by_cases hd : Exact d n false false
    · rw [List.filter_cons_of_pos (by simpa using hd)]
      have : ds.filter (fun d => decide (Exact d n false false)) = [] := by
        rw [List.filter_eq_nil_iff]
        intro x hx hxe
        exact h3 n ((mem_ownNames hn).2 hd) n (List.mem_flatMap.2 ⟨x, hx, (mem_ownNames hn).2 (by simpa using hxe)⟩) rfl
      rw [this]
      simp
    · rw [List.filter_cons_of_neg (by simpa using hd)]
      exact ih h2

/-- One long name each, all names different, and no folding of case. -/
theorem onceOnlyParser_of {env : Env} {c : Cmdline} {T : List (Str × Wants)} (hs : c.styleParser = none) (hp : c.positional = none)
    (hl : active c.style Style.longCaseInsensitive = false) (hsh : active c.style Style.shortCaseInsensitive = false)
    (hT : List.Forall₂ (fun d q => d.longNames = [q.1] ∧ OnceOnly env d.semantic q.2) c.desc T)
    (hn : ∀ q ∈ T, q.1 ≠ [] ∧ '*' ∉ q.1) (hd : (c.desc.flatMap ownNames).Nodup) : OnceOnlyParser env c := by
  have hmem : ∀ d ∈ c.desc, ∃ q ∈ T, d.longNames = [q.1] ∧ OnceOnly env d.semantic q.2 := by
    clear hd hn hl hsh hs hp
    revert hT
    generalize c.desc = l
    intro hT
    induction hT with
    | nil => simp
    | cons h _ ih =>
      intro d hd
      rcases List.mem_cons.1 hd with rfl | hd
      · exact ⟨_, by simp, h⟩
      · obtain ⟨q, hq, h'⟩ := ih d hd
        exact ⟨q, by simp [hq], h'⟩
  have hnamed : ∀ d ∈ c.desc, ∃ n, d.longNames = [n] ∧ n ≠ [] ∧ '*' ∉ n := fun d hd =>
    let ⟨q, hq, h, _⟩ := hmem d hd
    ⟨q.1, h, hn q hq⟩
  refine ⟨hs, hp, ?_, noClash_of_nodup hd, hnamed, fun d hd => let ⟨q, _, _, h⟩ := hmem d hd; ⟨q.2, h⟩⟩
  intro d hd' k hk
  obtain ⟨n, hn', h0, -⟩ := hnamed d hd'
  rw [hl, hsh]
  rcases hk with ⟨hk, -⟩ | ⟨hk, -⟩
  · rw [hn'] at hk
    cases hk
    have hex : Exact d k false false := .inl ⟨k, by rw [hn']; simp, h0, rfl⟩
    have := known_exact (noClash_of_nodup hd) hd' h0 hex
    unfold candidates at this
    rw [if_pos] at this
    · exact this
    · intro he
      have hm : d ∈ exacts c.desc k false false := List.mem_filter.2 ⟨hd', by simpa using hex⟩
      rw [he] at hm
      cases hm
  · rw [hn'] at hk; cases hk

/-! A parser with a switch, a number with a default, and a `bool_switch`. -/

def Ex.onceLevel : TypedValue := { type := .scalar (.lex 0), dflt := some (.scalar (.lex 0 10), Test.L "10") }
def Ex.onceParser : Cmdline := { desc :=
  [{ shortName := Test.L "-h", longNames := [Test.L "help"], description := [], semantic := untypedValue sourcesEnv true },
   { shortName := [], longNames := [Test.L "level"], description := [], semantic := Ex.onceLevel.toSemantic sourcesEnv },
   { shortName := Test.L "-q", longNames := [Test.L "quiet"], description := [], semantic := boolSwitch.toSemantic sourcesEnv }] }

theorem Ex.onceParser_ok : OnceOnlyParser sourcesEnv Ex.onceParser :=
  onceOnlyParser_of (T := [(Test.L "help", .nothing), (Test.L "level", .one (.lex 0)), (Test.L "quiet", .flag)]) rfl rfl
    (show active Style.defaultStyle Style.longCaseInsensitive = false from rfl) (show active Style.defaultStyle Style.shortCaseInsensitive = false from rfl)
    (.cons ⟨rfl, .switch⟩ (.cons ⟨rfl, .one Ex.onceLevel _ rfl rfl rfl rfl rfl⟩ (.cons ⟨rfl, .flag boolSwitch rfl rfl rfl rfl rfl⟩ .nil)))
    (by decide) (show [Test.L "-h", Test.L "help", Test.L "level", Test.L "-q", Test.L "quiet"].Nodup by decide)

def Ex.once (args : List String) : Option VarMap :=
  match Ex.onceParser.parse (args.map Test.L) with
  | .error _ => none
  | .ok p => match store p {} with
    | (m, none) => some m
    | (_, some _) => none

def Ex.onceValue (args : List String) (name : String) : Option (Any × Bool) := (Ex.once args).bind fun m => (m.map.get? (Test.L name)).map fun v => (v.v, v.defaulted)

example : Ex.onceValue ["-q", "--level=3", "file"] "level" = some (some (.scalar (.lex 0 3)), false) ∧
    Ex.onceValue ["-q", "file"] "level" = some (some (.scalar (.lex 0 10)), true) ∧ Ex.onceValue ["-q", "file"] "quiet" = some (some (.scalar (.bool true)), false) ∧
    Ex.onceValue ["file"] "quiet" = some (some (.scalar (.bool false)), true) ∧ Ex.onceValue ["-q"] "help" = none ∧ (Ex.once ["-q", "--help"]).isSome = true ∧
    Ex.once ["--level=3", "--lev=5"] = none ∧ Ex.once ["--level=x"] = none ∧ Ex.once ["-q", "-q"] = none :=
  ⟨by rfl, by rfl, by rfl, by rfl, by rfl, by rfl, by rfl, by rfl, by rfl⟩

end PO
