import Verif.Spec.Usual
import Verif.Props.OnceOnly
import Verif.Props.Stored
import Verif.Props.Exact
/-
C117: usual command lines, from the arguments to the variables of the program.
-/
namespace PO
open Spec
open Hierarchy (occ_nil occ_ne)
open MultipleSources (settled_one one_settled)

theorem parseAll_gets_narrow {env : Env} {t : TypedValue} (hw : t.wide = false) (L : List (List Str)) (r : Any) :
    parseAll (t.toSemantic env) false none L = .ok r ↔ Gets env t none (L.map (·.map .narrow)) r := by
  have harr : ∀ (L : List (List Str)) (texts : List (List Word)), AllArrive env false false L texts ↔ texts = L.map (·.map Word.narrow) := by
    have one : ∀ (l : List Str) (ws : List Word), List.Forall₂ (Arrives env false false) l ws ↔ ws = l.map Word.narrow := by
      intro l
      induction l with
      | nil => intro ws; constructor
               · intro h; cases h; rfl
               · rintro rfl; exact .nil
      | cons x l ih =>
        intro ws
        constructor
        · intro h
          cases h with
          | cons h1 h2 => cases h1; rw [(ih _).1 h2]; rfl
        · rintro rfl
          exact .cons (.same _) ((ih _).2 rfl)
    intro L
    induction L with
    | nil => intro ws; constructor
             · intro h; cases h; rfl
             · rintro rfl; exact .nil
    | cons x l ih =>
      intro ws
      constructor
      · intro h
        cases h with
        | cons h1 h2 => rw [(one _ _).1 h1, (ih _).1 h2]; rfl
      · rintro rfl
        exact .cons ((one _ _).2 rfl) ((ih _).2 rfl)
  rw [parseAll_gets, hw]
  constructor
  · rintro ⟨texts, h1, h2⟩; rw [(harr _ _).1 h1] at h2; exact h2
  · intro h; exact ⟨_, (harr _ _).2 rfl, h⟩

theorem parse_of_gains {env : Env} {s : ValueSemantic} {L : List (List Str)} {r : Any} (h : Gains env s L r) : parseAll s false none L = .ok r := by
  cases h with
  | never => rfl
  | alone zero => rfl
  | text zero x => rfl
  | typed t hw _ _ h => exact (parseAll_gets_narrow hw _ _).2 h

/-- What a sequence of occurrences makes of an option. -/
theorem gains_iff {env : Env} {s : ValueSemantic} (hs : PlainValue env s) (L : List (List Str)) (r : Any) : parseAll s false none L = .ok r ↔ Gains env s L r := by
  constructor
  · intro h
    cases hs with
    | typed t _ hw => exact .typed t hw _ _ ((parseAll_gets_narrow hw _ _).1 h)
    | untyped zero =>
      match L with
      | [] => cases h; exact .never _
      | [[]] => cases h; exact .alone zero
      | [[x]] => cases h; exact .text zero x
      | (_ :: _ :: _) :: _ => cases h
      | [] :: l :: rest => cases h
      | [x] :: l :: rest => cases h
  · exact parse_of_gains

theorem own_exact {d : OptionDesc} (h : d.own ≠ []) : Exact d d.own false false := by
  unfold OptionDesc.own at h ⊢
  cases hl : d.longNames.head? with
  | none => exact .inr rfl
  | some n =>
    simp only [hl] at h ⊢
    split
    · rename_i hs; rw [if_pos hs] at h; exact absurd rfl h
    · rename_i hs; rw [if_neg hs] at h; exact .inl ⟨n, List.mem_of_mem_head? hl, h, rfl⟩

theorem own_canonical {d : OptionDesc} (h : d.own ≠ []) {k : Str} : CanonicalName d k ↔ k = d.own := by
  unfold OptionDesc.own at h ⊢
  unfold CanonicalName
  cases hl : d.longNames with
  | nil => simp [eq_comm]
  | cons n ns =>
    simp only [hl, List.head?_cons, Option.some.injEq, reduceCtorEq, false_and, or_false] at h ⊢
    by_cases hs : '*' ∈ n
    · rw [if_pos hs] at h; exact absurd rfl h
    · rw [if_neg hs]
      constructor
      · rintro ⟨rfl, -⟩; rfl
      · rintro rfl; exact ⟨rfl, hs⟩

theorem own_reported {d : OptionDesc} (h : d.own ≠ []) (n : Str) : reportedKey d n = d.own := by
  unfold OptionDesc.own at h ⊢
  unfold reportedKey
  cases hl : d.longNames.head? with
  | none => rfl
  | some n =>
    simp only [hl] at h ⊢
    split
    · rename_i hs; rw [if_pos hs] at h; exact absurd rfl h
    · rfl

theorem firstDefault_own {l : List OptionDesc} {d : OptionDesc} (hd : d ∈ l) (h0 : d.own ≠ []) (hu : ∀ x ∈ l, x.own = d.own → x = d) :
    firstDefault l d.own = d.semantic.applyDefault.map fun a => (d.semantic, a) := by
  unfold firstDefault
  induction l with
  | nil => cases hd
  | cons x xs ih =>
    rw [List.findSome?_cons]
    by_cases hx : x.own = d.own
    · have hxd := hu x (by simp) hx
      subst hxd
      rw [if_pos ⟨rfl, h0⟩]
      cases hdf : x.semantic.applyDefault with
      | some a => rfl
      | none =>
        simp only [Option.map_none]
        by_cases hm : x ∈ xs
        · rw [ih hm fun y hy => hu y (by simp [hy]), hdf]; rfl
        · rw [List.findSome?_eq_none_iff]
          intro y hy
          rw [if_neg]
          rintro ⟨h1, -⟩
          exact hm (hu y (by simp [hy]) h1 ▸ hy)
    · rw [if_neg (fun h => hx h.1)]
      refine ih ?_ fun y hy => hu y (by simp [hy])
      rcases List.mem_cons.1 hd with rfl | h
      · exact absurd rfl hx
      · exact h

theorem firstDefault_none {l : List OptionDesc} {n : Str} (hn : ∀ d ∈ l, d.own ≠ n) : firstDefault l n = none := by
  unfold firstDefault
  rw [List.findSome?_eq_none_iff]
  intro d hd
  rw [if_neg]
  rintro ⟨h, -⟩
  exact hn d hd h

namespace Spec.NamedParser
variable {c : Cmdline}

theorem cand (hc : NamedParser c) {d : OptionDesc} (hd : d ∈ c.desc) : candidates c.desc d.own = [d] :=
  known_exact hc.distinct hd (hc.named d hd) (own_exact (hc.named d hd))

theorem unique (hc : NamedParser c) {d d' : OptionDesc} (hd : d ∈ c.desc) (hd' : d' ∈ c.desc) (h : d'.own = d.own) : d' = d := by
  have := hc.cand hd'
  rw [h, hc.cand hd] at this
  cases this
  rfl

/-- Only declared names are given. -/
theorem declared (hc : NamedParser c) {args : List Str} {p : Parsed} (h : c.parse args = .ok p) {n : Str} (hm : Mentions p.options n) :
    ∃ d ∈ c.desc, d.own = n := by
  obtain ⟨o, ho, rfl, hk, hreg⟩ := hm
  obtain ⟨-, hrun⟩ := OnceOnlyParser.run_of h
  by_cases hp : o.positionKey = -1
  · obtain ⟨_, _, n, _, _, _, d, hd, _, hkey⟩ := C06_canonical_key _ hc.style args _ hrun o ho hp hreg
    exact ⟨d, hd, by rw [hkey, own_reported (hc.named d hd)]⟩
  · have hmem : o ∈ positionals p.options := List.mem_filter.2 ⟨ho, by simpa using hp⟩
    obtain ⟨i, hi, hoi⟩ := List.mem_iff_getElem.1 hmem
    obtain ⟨-, -, hname⟩ := C08_numbered _ hc.style args _ hrun i o (by rw [← hoi]; exact List.getElem?_eq_getElem hi)
    cases hpos : c.positional with
    | none => rw [hpos] at hname; exact absurd hname hk
    | some q => rw [hpos] at hname; exact hc.positional q hpos i _ hname

theorem default_of (hc : NamedParser c) {d : OptionDesc} (hd : d ∈ c.desc) :
    firstDefault c.desc d.own = d.semantic.applyDefault.map fun a => (d.semantic, a) :=
  firstDefault_own hd (hc.named d hd) fun _ hx ho => hc.unique hd hx ho

theorem default_none {n : Str} (hn : ∀ d ∈ c.desc, d.own ≠ n) : firstDefault c.desc n = none := firstDefault_none hn

end Spec.NamedParser

/-- **C117.** A usual command line is stored exactly if every option can make something of the tokens given with it; in particular no name is
unknown or ambiguous to the store. -/
theorem C117_stored (env : Env) (c : Cmdline) (hc : UsualParser env c) (args : List Str) (p : Parsed) (h : c.parse args = .ok p) :
    (∃ m, store p {} = (m, none)) ↔ ∀ d ∈ c.desc, ∃ r, Gains env d.semantic (tokensOf p.options d.own) r := by
  have hdesc := (OnceOnlyParser.run_of h).1
  constructor
  · rintro ⟨m, hm⟩ d hd
    rcases OnceOnlyParser.record_of h hm d.own with ⟨hg, -⟩ | ⟨d', a, hg, hd', ha, -⟩
    · exact ⟨none, by unfold tokensOf; rw [occ_nil hg]; exact .never _⟩
    · cases (hc.cand hd).symm.trans hd'
      exact ⟨a, (gains_iff (hc.plain d hd) _ _).1 ha⟩
  · intro hall
    have : ∃ m, Stores {} [(p, false)] m := by
      rw [C104_succeeds]
      intro n
      by_cases hg : Mentions p.options n
      · obtain ⟨d, hd, rfl⟩ := hc.declared h hg
        obtain ⟨r, hr⟩ := hall d hd
        exact ⟨_, one_settled hg (by rw [hdesc]; exact hc.cand hd) ((gains_iff (hc.plain d hd) _ _).2 hr)⟩
      · exact ⟨_, .silent hg (.done _)⟩
    obtain ⟨m, hm⟩ := this
    cases hm with
    | cons h1 h2 => exact ⟨_, h1⟩

/-- Then an option that is given has the value it gets from its tokens; -/
theorem C117_given (env : Env) (c : Cmdline) (hc : UsualParser env c) (args : List Str) (p : Parsed) (h : c.parse args = .ok p) (m : VarMap)
    (hm : store p {} = (m, none)) (d : OptionDesc) (hd : d ∈ c.desc) (hg : Mentions p.options d.own) :
    ∃ r, Gains env d.semantic (tokensOf p.options d.own) r ∧ m.map.get? d.own = some { v := r, defaulted := false, semantic := some d.semantic } := by
  rcases OnceOnlyParser.record_of h hm d.own with ⟨hg', -⟩ | ⟨d', a, -, hd', ha, hr⟩
  · exact absurd hg hg'
  · cases (hc.cand hd).symm.trans hd'
    exact ⟨a, (gains_iff (hc.plain d hd) _ _).1 ha, hr⟩

/-- one that is not given has its default, if it has one; -/
theorem C117_not_given (env : Env) (c : Cmdline) (hc : UsualParser env c) (args : List Str) (p : Parsed) (h : c.parse args = .ok p) (m : VarMap)
    (hm : store p {} = (m, none)) (d : OptionDesc) (hd : d ∈ c.desc) (hg : ¬ Mentions p.options d.own) :
    m.map.get? d.own = d.semantic.applyDefault.map fun a => { v := a, defaulted := true, semantic := some d.semantic } := by
  rcases OnceOnlyParser.record_of h hm d.own with ⟨-, hr⟩ | ⟨d', a, hg', -⟩
  · rw [hr, hc.default_of hd]
    cases d.semantic.applyDefault <;> rfl
  · exact absurd hg' hg

/-- and there is nothing else in the map. -/
theorem C117_nothing_else (env : Env) (c : Cmdline) (hc : UsualParser env c) (args : List Str) (p : Parsed) (h : c.parse args = .ok p) (m : VarMap)
    (hm : store p {} = (m, none)) (n : Str) (hn : ∀ d ∈ c.desc, d.own ≠ n) : m.map.get? n = none := by
  rcases OnceOnlyParser.record_of h hm n with ⟨-, hr⟩ | ⟨d', a, hg, -⟩
  · rw [hr, NamedParser.default_none hn]; rfl
  · obtain ⟨d, hd, hn'⟩ := hc.declared h hg
    exact absurd hn' (hn d hd)

theorem Spec.PlainValue.narrow {env : Env} {s : ValueSemantic} (h : PlainValue env s) : ∃ T, Narrow s T := by
  cases h with
  | untyped zero => exact ⟨_, .untyped env zero⟩
  | typed t h hw => exact ⟨_, .typed env t h hw⟩

theorem cand_mem {desc : List OptionDesc} {n : Str} {d : OptionDesc} (h : candidates desc n = [d]) : d ∈ desc := by
  have hdm : d ∈ candidates desc n := by rw [h]; simp
  unfold candidates exacts approximates at hdm
  split at hdm <;> exact (List.mem_filter.1 hdm).1

theorem Spec.UsualParser.sameType {env : Env} {c : Cmdline} (hc : UsualParser env c) {p : Parsed} (hp : p.desc = c.desc) (name : Str) :
    ∃ T, ∀ q ∈ [(p, false)], ∀ d, candidates q.1.desc name = [d] → Narrow d.semantic T := by
  by_cases hd : ∃ d, candidates p.desc name = [d]
  · obtain ⟨d, hd⟩ := hd
    obtain ⟨T, hT⟩ := (hc.plain d (hp ▸ cand_mem hd)).narrow
    refine ⟨T, fun q hq d' hd' => ?_⟩
    cases List.mem_singleton.1 hq
    cases hd.symm.trans hd'
    exact hT
  · refine ⟨.scalar .str, fun q hq d' hd' => ?_⟩
    cases List.mem_singleton.1 hq
    exact absurd ⟨d', hd'⟩ hd

theorem Spec.Gains.some {env : Env} {s : ValueSemantic} {L : List (List Str)} {r : Any} (h : Gains env s L r) (hL : L ≠ []) : r ≠ none := by
  cases h with
  | never => exact absurd rfl hL
  | alone => simp
  | text => simp
  | typed t hw _ _ h =>
    have aux : ∀ {v : Any} {ts : List (List Word)} {r : Any}, Gets env t v ts r → ts ≠ [] ∨ v ≠ none → r ≠ none := by
      intro v ts r h
      induction h with
      | done v => rintro (h | h)
                  · exact absurd rfl h
                  · exact h
      | more _ _ _ _ _ _ _ ih => intro _; exact ih (.inr (by simp))
    exact aux h (.inl (by simpa using hL))

theorem Spec.PlainValue.default_some {env : Env} {s : ValueSemantic} (h : PlainValue env s) {a : Any} (ha : s.applyDefault = some a) : a ≠ none := by
  cases h with
  | untyped zero => cases ha
  | typed t _ _ =>
    simp only [TypedValue.toSemantic] at ha
    cases hd : t.dflt with
    | none => rw [hd] at ha; cases ha
    | some q => rw [hd] at ha; cases ha; simp

theorem lacking_value {env : Env} {c : Cmdline} (hc : UsualParser env c) {args : List Str} {p : Parsed} (h : c.parse args = .ok p) {m : VarMap}
    (hm : store p {} = (m, none)) {d : OptionDesc} (hd : d ∈ c.desc) : (m.get d.own).v = none ↔ ¬ Mentions p.options d.own ∧ d.semantic.applyDefault = none := by
  unfold VarMap.get
  by_cases hg : Mentions p.options d.own
  · obtain ⟨r, hr, hv⟩ := C117_given env c hc args p h m hm d hd hg
    rw [hv]
    exact ⟨fun h => absurd h (hr.some (occ_ne hg)), fun h => absurd hg h.1⟩
  · rw [C117_not_given env c hc args p h m hm d hd hg]
    cases hdf : d.semantic.applyDefault with
    | none => exact ⟨fun _ => ⟨hg, rfl⟩, fun _ => rfl⟩
    | some a => exact ⟨fun h => absurd h ((hc.plain d hd).default_some hdf), fun h => nomatch h.2⟩

/-- `notify` goes through exactly if no option is lacking; -/
theorem C117_notify (env : Env) (c : Cmdline) (hc : UsualParser env c) (args : List Str) (p : Parsed) (h : c.parse args = .ok p) (m : VarMap)
    (hm : store p {} = (m, none)) : m.notify.2 = none ↔ ∀ d ∈ c.desc, ¬ Lacking p.options d := by
  have hdesc := (OnceOnlyParser.run_of h).1
  have hS : Stores {} [(p, false)] m := .cons hm (.nil _)
  have hist : History {} [(p, false)] m := .ok hm (.nil _)
  constructor
  · rintro hn d hd ⟨h1, h2, h3⟩
    obtain ⟨n, hsh⟩ : ∃ n, Shows d p.pre n := by
      exact ⟨_, (shows_iff d p.pre _).2 rfl⟩
    obtain ⟨k, display, -, -, -, -, hf⟩ := (C38_required _ m hist).1 ⟨d.own, n, ⟨_, List.mem_singleton.2 rfl, d, by rw [hdesc]; exact hd, hc.named d hd, rfl, h1, hsh⟩,
      (lacking_value hc h hm hd).2 ⟨h2, h3⟩⟩
    rw [hf] at hn
    cases hn
  · intro hall
    cases hf : m.notify.2 with
    | none => rfl
    | some f =>
      exfalso
      obtain ⟨e, he, s, hs, hnf⟩ := (C38_required _ m hist).2 (by
        rintro k n ⟨q, hq, d, hd, -, rfl, hr, -⟩ hv
        cases List.mem_singleton.1 hq
        have hd : d ∈ c.desc := hdesc ▸ hd
        exact hall d hd ⟨hr, (lacking_value hc h hm hd).1 hv⟩) f hf
      refine delivers_ok (by simp) hS ?_ (hc.sameType hdesc) he hs hnf
      intro q hq d hd
      cases List.mem_singleton.1 hq
      exact (hc.plain d (hdesc ▸ hd)).narrow

/-- otherwise it throws `required_option` for a lacking option, the first of them by name, and has done nothing; -/
theorem C117_lacking (env : Env) (c : Cmdline) (hc : UsualParser env c) (args : List Str) (p : Parsed) (h : c.parse args = .ok p) (m : VarMap)
    (hm : store p {} = (m, none)) (d0 : OptionDesc) (hd0 : d0 ∈ c.desc) (hl : Lacking p.options d0) :
    ∃ d ∈ c.desc, ∃ display, Lacking p.options d ∧ (∀ d' ∈ c.desc, Lacking p.options d' → ¬ Earlier d'.own d.own) ∧ Shows d p.pre display ∧
      m.notify = ([], some (missingRequired display)) := by
  have hdesc := (OnceOnlyParser.run_of h).1
  obtain ⟨k, display, h1, h2, ⟨q, hq, d, hd, hk, rfl, hr, hsh⟩, -, h5⟩ := (C38_required _ m (.ok hm (.nil _))).1 ⟨d0.own, _, ⟨_, List.mem_singleton.2 rfl, d0,
    by rw [hdesc]; exact hd0, hc.named d0 hd0, rfl, hl.1, (shows_iff d0 p.pre _).2 rfl⟩, (lacking_value hc h hm hd0).2 hl.2⟩
  cases List.mem_singleton.1 hq
  have hd : d ∈ c.desc := hdesc ▸ hd
  refine ⟨d, hd, display, ⟨hr, (lacking_value hc h hm hd).1 h1⟩, fun d' hd' hl' => ?_, hsh, h5⟩
  exact h2 d'.own _ ⟨_, List.mem_singleton.2 rfl, d', by rw [hdesc]; exact hd', hc.named d' hd', rfl, hl'.1, (shows_iff d' p.pre _).2 rfl⟩ ((lacking_value hc h hm hd').2 hl'.2)

/-- and if it goes through, a variable that belongs to one option has been assigned once: what the option gets from its tokens, or else its
default; or it has not been assigned, if there is neither. -/
theorem C117_variable (env : Env) (c : Cmdline) (hc : UsualParser env c) (args : List Str) (p : Parsed) (h : c.parse args = .ok p) (m : VarMap)
    (hm : store p {} = (m, none)) (es : List Event) (hn : m.notify = (es, none)) (addr : Nat) (d : OptionDesc) (hv : VariableOf env c.desc addr d) :
    (Mentions p.options d.own → ∃ v, Gains env d.semantic (tokensOf p.options d.own) (some v) ∧ assigned addr es = [v]) ∧
    (¬ Mentions p.options d.own → assigned addr es = (d.semantic.applyDefault.bind id).toList) := by
  have hdesc := (OnceOnlyParser.run_of h).1
  have hd := hv.declared
  have hb : Bound env p d.own addr d := by
    refine ⟨hv.typed, ?_, fun _ => by rw [hdesc]; exact hc.cand hd, ?_, ?_⟩
    · rw [hdesc]; exact hv.others
    · intro k hk hcand
      obtain ⟨d', hd', rfl⟩ := hc.declared h hk
      rw [hdesc, hc.cand hd'] at hcand
      cases hcand
      rfl
    · rw [hdesc]
      exact fun d' hd' => ⟨fun h => hc.unique hd hd' h, fun h => by rw [h]⟩
  obtain ⟨r, hr, ha⟩ := C104_variable env _ m (.cons hm (.nil _)) es hn d.own addr d ⟨_, List.mem_singleton.2 rfl, by rw [hdesc]; exact hd⟩
    (fun q hq => by cases List.mem_singleton.1 hq; exact hb)
  rcases settled_one hr with ⟨hg, rfl⟩ | ⟨d', a, hg, hd', hp, rfl⟩
  · refine ⟨fun h => absurd h hg, fun _ => ?_⟩
    rw [ha, defaultFrom_cons, hdesc, hc.default_of hd]
    cases d.semantic.applyDefault with
    | none => rfl
    | some a => rfl
  · refine ⟨fun _ => ?_, fun h => absurd hg h⟩
    rw [hdesc, hc.cand hd] at hd'
    cases hd'
    have hgn := (gains_iff (hc.plain d hd) _ _).1 hp
    cases a with
    | none => exact absurd rfl (hgn.some (occ_ne hg))
    | some v => exact ⟨v, hgn, ha⟩

/-- Whatever the arguments are, only exceptions of the library are thrown. -/
theorem C117_otherwise (env : Env) (c : Cmdline) (hc : UsualParser env c) (args : List Str) (f : Fail)
    (h : c.parse args = .error f ∨ (∃ p m, c.parse args = .ok p ∧ store p {} = (m, some f)) ∨
      ∃ p m, c.parse args = .ok p ∧ store p {} = (m, none) ∧ m.notify.2 = some f) : LibraryException f := by
  rcases h with h | ⟨p, m, h, hst⟩ | ⟨p, m, h, hst, hn⟩
  · unfold Cmdline.parse at h
    cases hr : c.run args with
    | ok os => rw [hr] at h; cases h
    | error g =>
      rw [hr] at h
      cases h
      exact commandLine_library c hc.style (fun d hd hk => hc.named d hd ((own_canonical (hc.named d hd)).1 hk).symm)
        (fun d hd k hk => .inl ⟨d, .inl (hc.identified d hd k hk)⟩) args _ hr
  · exact store_library (P := []) (by simp) (.nil _) (hc.sameType (OnceOnlyParser.run_of h).1) hst
  · have : ¬ ∀ d ∈ c.desc, ¬ Lacking p.options d := by
      intro hall
      rw [(C117_notify env c hc args p h m hst).2 hall] at hn
      cases hn
    simp only [not_forall, not_not] at this
    obtain ⟨d0, hd0, hl⟩ := this
    obtain ⟨d, -, display, -, -, -, hn'⟩ := C117_lacking env c hc args p h m hst d0 hd0 hl
    rw [hn'] at hn
    cases hn
    trivial

theorem Spec.NamedParser.tokens {c : Cmdline} (hc : NamedParser c) (hmm : ∀ d ∈ c.desc, d.semantic.minTokens ≤ d.semantic.maxTokens) (args : List Str)
    (hlen : args.length < 2147483648) (p : Parsed) (h : c.parse args = .ok p) (d : OptionDesc) (hd : d ∈ c.desc)
    (hp : ∀ q, c.positional = some q → ∀ i, q.nameForPosition i ≠ .ok d.own) :
    ∀ l ∈ tokensOf p.options d.own, d.semantic.minTokens ≤ l.length ∧ l.length ≤ d.semantic.maxTokens := by
  intro l hl
  obtain ⟨o, ho, rfl⟩ := List.mem_map.1 hl
  obtain ⟨hmem, hpr⟩ := List.mem_filter.1 ho
  obtain ⟨hk, hk0, hreg⟩ := of_decide_eq_true hpr
  obtain ⟨-, hrun⟩ := OnceOnlyParser.run_of h
  have hpk : o.positionKey = -1 := by
    by_cases hpk : o.positionKey = -1
    · exact hpk
    · exfalso
      have hmem : o ∈ positionals p.options := List.mem_filter.2 ⟨hmem, by simpa using hpk⟩
      obtain ⟨i, hi, hoi⟩ := List.mem_iff_getElem.1 hmem
      obtain ⟨-, -, hname⟩ := C08_numbered _ hc.style args _ hrun i o (by rw [← hoi]; exact List.getElem?_eq_getElem hi)
      cases hpos : c.positional with
      | none => rw [hpos] at hname; exact hk0 (hk.symm.trans hname)
      | some q => rw [hpos] at hname; exact hp q hpos i (hk ▸ hname)
  obtain ⟨d', hd', hden, h1, h2⟩ := C18_token_counts c hc.style hc.identified hmm args hlen _ hrun o hmem hpk hreg
  have hex := hc.identified d hd _ ((own_canonical (hc.named d hd)).2 rfl)
  rw [hk] at hden
  unfold Denotes at hden
  dsimp only at hden
  rw [hex] at hden
  rcases hden with hden | ⟨hden, -⟩
  · cases hden; exact ⟨h1, h2⟩
  · cases hden

/-- Options that do not take positional arguments have as many values as they take. -/
theorem C117_tokens (env : Env) (c : Cmdline) (hc : UsualParser env c) (hmm : ∀ d ∈ c.desc, d.semantic.minTokens ≤ d.semantic.maxTokens) (args : List Str)
    (hlen : args.length < 2147483648) (p : Parsed) (h : c.parse args = .ok p) (d : OptionDesc) (hd : d ∈ c.desc)
    (hp : ∀ q, c.positional = some q → ∀ i, q.nameForPosition i ≠ .ok d.own) :
    ∀ l ∈ tokensOf p.options d.own, d.semantic.minTokens ≤ l.length ∧ l.length ≤ d.semantic.maxTokens :=
  hc.toNamedParser.tokens hmm args hlen p h d hd hp

/-! ### How to recognise such a parser -/

/-- All names different, and no folding of case. -/
theorem namedParser_of {c : Cmdline} (hs : c.styleParser = none) (hl : active c.style Style.longCaseInsensitive = false)
    (hsh : active c.style Style.shortCaseInsensitive = false) (hn : ∀ d ∈ c.desc, d.own ≠ []) (hd : (c.desc.flatMap ownNames).Nodup)
    (hpos : ∀ p, c.positional = some p → ∀ i n, p.nameForPosition i = .ok n → ∃ d ∈ c.desc, d.own = n) : NamedParser c := by
  refine ⟨hs, noClash_of_nodup hd, ?_, hn, hpos⟩
  intro d hd' k hk
  rw [hl, hsh]
  obtain rfl := (own_canonical (hn d hd')).1 hk
  have hex := own_exact (hn d hd')
  have := known_exact (noClash_of_nodup hd) hd' (hn d hd') hex
  unfold candidates at this
  rw [if_pos] at this
  · exact this
  · intro he
    have hm : d ∈ exacts c.desc d.own false false := List.mem_filter.2 ⟨hd', by simpa using hex⟩
    rw [he] at hm
    cases hm

theorem usualParser_of {env : Env} {c : Cmdline} (hs : c.styleParser = none) (hl : active c.style Style.longCaseInsensitive = false)
    (hsh : active c.style Style.shortCaseInsensitive = false) (hn : ∀ d ∈ c.desc, d.own ≠ []) (hd : (c.desc.flatMap ownNames).Nodup)
    (hpl : ∀ d ∈ c.desc, PlainValue env d.semantic) (hpos : ∀ p, c.positional = some p → ∀ i n, p.nameForPosition i = .ok n → ∃ d ∈ c.desc, d.own = n) :
    UsualParser env c := ⟨namedParser_of hs hl hsh hn hd hpos, hpl⟩

/-! ### What options of particular types get -/

theorem gains_typed {env : Env} {t : TypedValue} (ht : WellTyped t) (hw : t.wide = false) {L : List (List Str)} {r : Any} :
    Gains env (t.toSemantic env) L r ↔ Gets env t none (L.map (·.map .narrow)) r := by
  rw [← gains_iff (.typed t ht hw), parseAll_gets_narrow hw]

theorem gains_untyped {env : Env} {zero : Bool} {L : List (List Str)} {r : Any} :
    Gains env (untypedValue env zero) L r ↔ L = [] ∧ r = none ∨ L = [[]] ∧ r = some (.scalar (.str [])) ∨ ∃ x, L = [[x]] ∧ r = some (.scalar (.str x)) := by
  constructor
  · intro h
    have h := (gains_iff (.untyped zero) L r).2 h
    match L with
    | [] => cases h; exact .inl ⟨rfl, rfl⟩
    | [[]] => cases h; exact .inr (.inl ⟨rfl, rfl⟩)
    | [[x]] => cases h; exact .inr (.inr ⟨x, rfl, rfl⟩)
    | (_ :: _ :: _) :: _ => cases h
    | [] :: l :: rest => cases h
    | [x] :: l :: rest => cases h
  · rintro (⟨rfl, rfl⟩ | ⟨rfl, rfl⟩ | ⟨x, rfl, rfl⟩)
    · exact .never _
    · exact .alone _
    · exact .text _ _

theorem narrow_map {L : List (List Str)} {texts : List (List Word)} (h : L.map (·.map Word.narrow) = texts) :
    (texts = [] → L = []) ∧ (∀ x, texts = [[x]] → ∃ s, L = [[s]] ∧ x = .narrow s) := by
  subst h
  constructor
  · intro h; simpa using h
  · intro x h
    match L with
    | [] => cases h
    | [[s]] => cases h; exact ⟨s, rfl, rfl⟩
    | [[]] => cases h
    | [_ :: _ :: _] => cases h
    | _ :: _ :: _ => simp at h

/-- A number without implicit value: given once, with one token. -/
theorem gains_number {env : Env} {t : TypedValue} {ty : Nat} (hty : t.type = .scalar (.lex ty)) (ht : WellTyped t) (hw : t.wide = false) (hi : t.implicit = none)
    {L : List (List Str)} {r : Any} :
    Gains env (t.toSemantic env) L r ↔ L = [] ∧ r = none ∨ ∃ x n, L = [[x]] ∧ env.lex ty x = some n ∧ r = some (.scalar (.lex ty n)) := by
  rw [gains_typed ht hw]
  constructor
  · intro h
    generalize htx : L.map (·.map Word.narrow) = texts at h
    obtain ⟨h1, h2⟩ := narrow_map htx
    cases h with
    | done => exact .inl ⟨h1 rfl, rfl⟩
    | more _ xs rest a _ ht' hr =>
      cases ht' with
      | implicit iv s h => rw [hi] at h; cases h
      | present h => rw [hty] at h; cases h
      | vector st _ _ _ h => rw [hty] at h; cases h
      | optional st _ _ h => rw [hty] at h; cases h
      | scalar st x v h hp hc =>
        rw [hty] at h
        cases h
        cases hr with
        | more _ xs rest a _ ht'' hr' =>
          exfalso
          cases ht'' with
          | implicit iv s h => rw [hi] at h; cases h
          | present h => rw [hty] at h; cases h
          | vector st _ _ _ h => rw [hty] at h; cases h
          | optional st _ _ h => rw [hty] at h; cases h
          | scalar _ _ _ _ hp => cases hp
        | done =>
          obtain ⟨s, rfl, rfl⟩ := h2 x rfl
          cases hc with
          | cast _ _ n hn => exact .inr ⟨s, n, rfl, hn, rfl⟩
  · rintro (⟨rfl, rfl⟩ | ⟨x, n, rfl, hn, rfl⟩)
    · exact .done _
    · exact .more _ _ _ _ _ (.scalar _ _ _ hty rfl (.cast _ _ _ hn)) (.done _)

/-- A string without implicit value: given once, with one token. -/
theorem gains_string {env : Env} {t : TypedValue} (hty : t.type = .scalar .str) (ht : WellTyped t) (hw : t.wide = false) (hi : t.implicit = none)
    {L : List (List Str)} {r : Any} :
    Gains env (t.toSemantic env) L r ↔ L = [] ∧ r = none ∨ ∃ x, L = [[x]] ∧ r = some (.scalar (.str x)) := by
  rw [gains_typed ht hw]
  constructor
  · intro h
    generalize htx : L.map (·.map Word.narrow) = texts at h
    obtain ⟨h1, h2⟩ := narrow_map htx
    cases h with
    | done => exact .inl ⟨h1 rfl, rfl⟩
    | more _ xs rest a _ ht' hr =>
      cases ht' with
      | implicit iv s h => rw [hi] at h; cases h
      | present h => rw [hty] at h; cases h
      | vector st _ _ _ h => rw [hty] at h; cases h
      | optional st _ _ h => rw [hty] at h; cases h
      | scalar st x v h hp hc =>
        rw [hty] at h
        cases h
        cases hr with
        | more _ xs rest a _ ht'' hr' =>
          exfalso
          cases ht'' with
          | implicit iv s h => rw [hi] at h; cases h
          | present h => rw [hty] at h; cases h
          | vector st _ _ _ h => rw [hty] at h; cases h
          | optional st _ _ h => rw [hty] at h; cases h
          | scalar _ _ _ _ hp => cases hp
        | done =>
          obtain ⟨s, rfl, rfl⟩ := h2 x rfl
          cases hc with
          | string => exact .inr ⟨s, rfl, rfl⟩
  · rintro (⟨rfl, rfl⟩ | ⟨x, rfl, rfl⟩)
    · exact .done _
    · exact .more _ _ _ _ _ (.scalar _ _ _ hty rfl (.string _)) (.done _)

/-- A number with an implicit value: only the first time it may have a token, and the last time counts. -/
theorem gains_implicit {env : Env} {t : TypedValue} {ty : Nat} (hty : t.type = .scalar (.lex ty)) (ht : WellTyped t) (hw : t.wide = false) {iv : AVal} {s : Str}
    (hi : t.implicit = some (iv, s)) {L : List (List Str)} {r : Any} :
    Gains env (t.toSemantic env) L r ↔ L = [] ∧ r = none ∨ (∃ rest, L = [] :: rest ∧ (∀ y ∈ rest, y = []) ∧ r = some iv) ∨
      ∃ x n rest, L = [x] :: rest ∧ (∀ y ∈ rest, y = []) ∧ env.lex ty x = some n ∧ r = if rest = [] then some (.scalar (.lex ty n)) else some iv := by
  rw [gains_typed ht hw, C44_exact env t (.lex ty) hty iv s hi]
  have hall : ∀ rest : List (List Str), (∀ y ∈ rest.map (·.map Word.narrow), y = []) ↔ ∀ y ∈ rest, y = [] := by
    intro rest
    simp [List.mem_map, forall_exists_index, and_imp]
  constructor
  · rintro (⟨h, rfl⟩ | ⟨rest, h, h1, rfl⟩ | ⟨x, w, rest, h, h1, hc, rfl⟩)
    · exact .inl ⟨by simpa using h, rfl⟩
    · match L with
      | [] => cases h
      | l :: L =>
        rw [List.map_cons] at h
        injection h with h2 h3
        subst h3
        rw [List.map_eq_nil_iff] at h2
        subst h2
        exact .inr (.inl ⟨L, rfl, (hall L).1 h1, rfl⟩)
    · match L with
      | [] => cases h
      | [] :: L => cases h
      | (_ :: _ :: _) :: L => cases h
      | [y] :: L =>
        rw [List.map_cons] at h
        injection h with h2 h3
        subst h3
        cases h2
        cases hc with
        | cast _ _ n hn => exact .inr (.inr ⟨y, n, L, rfl, (hall L).1 h1, hn, by simp only [List.map_eq_nil_iff]⟩)
  · rintro (⟨rfl, rfl⟩ | ⟨rest, rfl, h1, rfl⟩ | ⟨x, n, rest, rfl, h1, hn, rfl⟩)
    · exact .inl ⟨rfl, rfl⟩
    · exact .inr (.inl ⟨_, rfl, (hall rest).2 h1, rfl⟩)
    · exact .inr (.inr ⟨_, _, _, rfl, (hall rest).2 h1, .cast _ _ _ hn, by simp only [List.map_eq_nil_iff]⟩)

/-- A list of strings: all tokens. -/
theorem gains_strings {env : Env} {t : TypedValue} (hty : t.type = .vector .str) (ht : WellTyped t) (hw : t.wide = false) (hi : t.implicit = none)
    {L : List (List Str)} {r : Any} : Gains env (t.toSemantic env) L r ↔ L = [] ∧ r = none ∨ L ≠ [] ∧ r = some (.vector .str (L.flatten.map .str)) := by
  rw [← gains_iff (.typed t ht hw)]
  by_cases h : L = []
  · subst h
    simp [parseAll, eq_comm]
  · rw [(Hierarchy.vector_all hty hw hi L).1 h]
    simp [h, eq_comm]

/-! A required option with a variable, an option with two long names, an option with only a letter, and a list for positional arguments. -/

def Ex.needed : TypedValue := { type := .scalar .str, required := true, storeTo := some 7 }
def Ex.usualDesc : List OptionDesc :=
  [{ shortName := [], longNames := [Test.L "need"], description := [], semantic := Ex.needed.toSemantic sourcesEnv },
   { shortName := [], longNames := [Test.L "level", Test.L "depth"], description := [], semantic := Ex.onceLevel.toSemantic sourcesEnv },
   { shortName := Test.L "-q", longNames := [], description := [], semantic := untypedValue sourcesEnv true },
   { shortName := [], longNames := [Test.L "file"], description := [], semantic := Hierarchy.strings.toSemantic sourcesEnv }]
def Ex.usual : Cmdline := { desc := Ex.usualDesc, positional := some { trailing := Test.L "file" } }

theorem Ex.usual_ok : UsualParser sourcesEnv Ex.usual := by
  refine usualParser_of rfl (show active Style.defaultStyle Style.longCaseInsensitive = false from rfl)
    (show active Style.defaultStyle Style.shortCaseInsensitive = false from rfl) ?_ ?_ ?_ ?_
  · intro d hd
    rcases hd with _ | ⟨_, _ | ⟨_, _ | ⟨_, _ | ⟨_, h⟩⟩⟩⟩ <;> first | exact List.cons_ne_nil _ _ | cases h
  · show [Test.L "need", Test.L "level", Test.L "depth", Test.L "-q", Test.L "file"].Nodup
    decide
  · intro d hd
    rcases hd with _ | ⟨_, _ | ⟨_, _ | ⟨_, _ | ⟨_, h⟩⟩⟩⟩
    · exact .typed Ex.needed ⟨(by rintro q h; cases h), by rintro q h; cases h⟩ rfl
    · exact .typed Ex.onceLevel ⟨(by rintro q h; cases h; rfl), by rintro q h; cases h⟩ rfl
    · exact .untyped true
    · exact .typed Hierarchy.strings ⟨(by rintro q h; cases h), by rintro q h; cases h⟩ rfl
    · cases h
  · intro q hq i n h
    cases hq
    refine ⟨_, .tail _ (.tail _ (.tail _ (.head _))), ?_⟩
    unfold Positional.nameForPosition at h
    simp only [List.getElem?_nil] at h
    split at h
    · cases h
    · exact Except.ok.inj h

theorem Ex.usual_variable : VariableOf sourcesEnv Ex.usual.desc 7 { shortName := [], longNames := [Test.L "need"], description := [], semantic := Ex.needed.toSemantic sourcesEnv } := by
  refine ⟨.head _, ⟨Ex.needed, rfl, rfl⟩, ?_⟩
  intro d hd hne
  rcases hd with _ | ⟨_, _ | ⟨_, _ | ⟨_, _ | ⟨_, h⟩⟩⟩⟩
  · exact absurd rfl hne
  · exact .inr ⟨Ex.onceLevel, rfl, by decide⟩
  · exact .inl ⟨true, rfl⟩
  · exact .inr ⟨Hierarchy.strings, rfl, by decide⟩
  · cases h

/-- the record of a name, and what `notify` does -/
def Ex.usualRun (args : List String) (name : String) : Option (Option (Any × Bool) × List Event × Option Fail) :=
  match Ex.usual.parse (args.map Test.L) with
  | .error _ => none
  | .ok p => match store p {} with
    | (m, none) => some ((m.map.get? (Test.L name)).map fun v => (v.v, v.defaulted), m.notify)
    | (_, some _) => none

example : Ex.usualRun ["a", "--need=x", "--depth=3", "b"] "level" = some (some (some (.scalar (.lex 0 3)), false), [.assign 7 (.scalar (.str (Test.L "x")))], none) ∧
    Ex.usualRun ["a", "--need=x", "-q", "b"] "file" = some (some (some (.vector .str [.str ['a'], .str ['b']]), false), [.assign 7 (.scalar (.str (Test.L "x")))], none) ∧
    Ex.usualRun ["a", "-q"] "-q" = some (some (some (.scalar (.str [])), false), [], some (missingRequired (Test.L "--need"))) ∧
    Ex.usualRun ["--depth=3", "--level=3"] "level" = none ∧ Ex.usualRun ["--need=x"] "file" = some (none, [.assign 7 (.scalar (.str (Test.L "x")))], none) :=
  ⟨by rfl, by rfl, by rfl, by rfl, by rfl⟩

end PO
