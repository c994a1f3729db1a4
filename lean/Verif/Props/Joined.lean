import Verif.Spec.Joined
import Verif.Props.Usual
/-
C121: options from several sources, up to the variables of the program.
-/
namespace PO
open Spec
open Hierarchy (occ_nil occ_ne)

theorem tokensOf_nil {os : List Opt} {n : Str} : tokensOf os n = [] ↔ ¬ Mentions os n := by
  constructor
  · intro h hm
    exact occ_ne hm h
  · intro h
    unfold tokensOf
    rw [occ_nil h]
    rfl

namespace Joined
variable {env : Env} {all : List OptionDesc}

theorem cand (ha : OwnOptions env all) {p : Parsed} (hp : SourceOf all p) {d : OptionDesc} (hd : d ∈ p.desc) : candidates p.desc d.own = [d] :=
  known_exact hp.distinct hd (ha.named d (hp.declares d hd)) (own_exact (ha.named d (hp.declares d hd)))

theorem knows (ha : OwnOptions env all) {p : Parsed} (hp : SourceOf all p) {d : OptionDesc} (hd : d ∈ all) (hm : Mentions p.options d.own) : d ∈ p.desc := by
  obtain ⟨d', hd', h⟩ := hp.mentions _ hm
  exact ha.distinct d hd d' (hp.declares d' hd') h ▸ hd'

theorem heard_nil {b : Bool} {Ls : List (List (List Str))} : heard b Ls = [] ↔ ∀ L ∈ Ls, L = [] := by
  induction Ls with
  | nil => simp [heard]
  | cons L rest ih =>
    unfold heard
    by_cases hb : b = true
    · rw [if_pos hb, List.append_eq_nil_iff, ih]
      simp
    · rw [if_neg hb]
      by_cases hL : L = []
      · rw [if_pos hL, ih]; simp [hL]
      · rw [if_neg hL]; simp [hL]

theorem heardOf_nil {srcs : List Parsed} {d : OptionDesc} : heardOf srcs d = [] ↔ ∀ p ∈ srcs, ¬ Mentions p.options d.own := by
  unfold heardOf
  rw [heard_nil]
  simp only [List.mem_map, forall_exists_index, and_imp, forall_apply_eq_imp_iff₂, tokensOf_nil]

/-- What the sources make of an option. -/
theorem settled_heard (ha : OwnOptions env all) {d : OptionDesc} (hd : d ∈ all) {srcs : List Parsed} (hs : ∀ p ∈ srcs, SourceOf all p)
    (r r' : Option (ValueSemantic × Any)) :
    Settled d.own (srcs.map fun p => (p, false)) r r' ↔
      heardOf srcs d = [] ∧ r' = r ∨
      heardOf srcs d ≠ [] ∧ ∃ a, parseAll d.semantic false (r.bind (·.2)) (heardOf srcs d) = .ok a ∧ r' = some (d.semantic, a) := by
  induction srcs generalizing r with
  | nil =>
    constructor
    · intro h
      cases h
      exact .inl ⟨rfl, rfl⟩
    · rintro (⟨-, rfl⟩ | ⟨h, -⟩)
      · exact .done _
      · exact absurd rfl h
  | cons p rest ih =>
    have hp := hs p (by simp)
    have ih := fun r => ih (fun q hq => hs q (by simp [hq])) r
    by_cases hm : Mentions p.options d.own
    · have hL : tokensOf p.options d.own ≠ [] := occ_ne hm
      have hcand := cand ha hp (knows ha hp hd hm)
      by_cases hc : d.semantic.isComposing = true
      · have hh : heardOf (p :: rest) d = tokensOf p.options d.own ++ heardOf rest d := by
          unfold heardOf
          rw [List.map_cons, heard, if_pos hc]
        have hne : heardOf (p :: rest) d ≠ [] := by
          rw [hh]
          intro h
          exact hL (List.append_eq_nil_iff.1 h).1
        constructor
        · intro h
          refine .inr ⟨hne, ?_⟩
          rw [hh]
          cases h with
          | silent hm' _ => exact absurd hm hm'
          | settles hm' hd' ha' hc' =>
            cases hcand.symm.trans hd'
            rw [hc] at hc'
            cases hc'
          | adds hm' hd' ha' hc' h =>
            cases hcand.symm.trans hd'
            have ha' : parseAll d.semantic false (r.bind (·.2)) (tokensOf p.options d.own) = .ok _ := ha'
            rcases (ih _).1 h with ⟨h0, rfl⟩ | ⟨h0, b, hb, rfl⟩
            · rw [h0, List.append_nil]
              exact ⟨_, ha', rfl⟩
            · refine ⟨b, ?_, rfl⟩
              rw [parseAll_append, ha']
              exact hb
        · rintro (⟨h, -⟩ | ⟨-, a, ha', rfl⟩)
          · exact absurd h hne
          · rw [hh, parseAll_append] at ha'
            cases h1 : parseAll d.semantic false (r.bind (·.2)) (tokensOf p.options d.own) with
            | error f => rw [h1] at ha'; cases ha'
            | ok w =>
              rw [h1] at ha'
              refine .adds hm hcand h1 hc ((ih _).2 ?_)
              by_cases h0 : heardOf rest d = []
              · rw [h0] at ha'
                cases ha'
                exact .inl ⟨h0, rfl⟩
              · exact .inr ⟨h0, a, ha', rfl⟩
      · have hh : heardOf (p :: rest) d = tokensOf p.options d.own := by
          unfold heardOf
          rw [List.map_cons, heard, if_neg hc, if_neg hL]
        rw [hh]
        constructor
        · intro h
          refine .inr ⟨hL, ?_⟩
          cases h with
          | silent hm' _ => exact absurd hm hm'
          | adds hm' hd' ha' hc' h =>
            cases hcand.symm.trans hd'
            exact absurd hc' hc
          | settles hm' hd' ha' hc' =>
            cases hcand.symm.trans hd'
            exact ⟨_, ha', rfl⟩
        · rintro (⟨h, -⟩ | ⟨-, a, ha', rfl⟩)
          · exact absurd h hL
          · exact .settles hm hcand ha' (Bool.eq_false_iff.2 hc)
    · have hh : heardOf (p :: rest) d = heardOf rest d := by
        have hL := tokensOf_nil.2 hm
        unfold heardOf
        rw [List.map_cons, heard, hL]
        split
        · rfl
        · rw [if_pos rfl]
      rw [hh]
      constructor
      · intro h
        cases h with
        | silent _ h => exact (ih _).1 h
        | adds hm' => exact absurd hm' hm
        | settles hm' => exact absurd hm' hm
      · intro h
        exact .silent hm ((ih _).2 h)

theorem settled_other {n : Str} {srcs : List Parsed} (hn : ∀ p ∈ srcs, ¬ Mentions p.options n) (r) : Settled n (srcs.map fun p => (p, false)) r r := by
  refine settled_silent ?_ r
  intro q hq
  obtain ⟨p, hp, rfl⟩ := List.mem_map.1 hq
  exact hn p hp

theorem default_of (ha : OwnOptions env all) {d : OptionDesc} (hd : d ∈ all) {srcs : List Parsed} (hs : ∀ p ∈ srcs, SourceOf all p) :
    ((∃ p ∈ srcs, d ∈ p.desc) → defaultFrom (srcs.map fun p => (p, false)) d.own = d.semantic.applyDefault.map fun a => (d.semantic, a)) ∧
    ((∀ p ∈ srcs, d ∉ p.desc) → defaultFrom (srcs.map fun p => (p, false)) d.own = none) := by
  induction srcs with
  | nil => exact ⟨(by rintro ⟨_, h, _⟩; cases h), fun _ => rfl⟩
  | cons p rest ih =>
    obtain ⟨ih1, ih2⟩ := ih fun q hq => hs q (by simp [hq])
    rw [List.map_cons, defaultFrom_cons]
    have hp := hs p (by simp)
    by_cases hk : d ∈ p.desc
    · refine ⟨fun _ => ?_, fun h => absurd hk (h p (by simp))⟩
      rw [show firstDefault p.desc d.own = _ from firstDefault_own hk (ha.named d hd) fun x hx ho => ha.distinct d hd x (hp.declares x hx) ho]
      by_cases h : ∃ p ∈ rest, d ∈ p.desc
      · rw [ih1 h]
        cases d.semantic.applyDefault <;> rfl
      · rw [ih2 fun q hq hq' => h ⟨q, hq, hq'⟩, Option.or_none]
    · rw [show firstDefault p.desc d.own = none from firstDefault_none fun x hx ho => hk (ha.distinct d hd x (hp.declares x hx) ho ▸ hx), Option.none_or]
      refine ⟨fun ⟨q, hq, h'⟩ => ih1 ?_, fun h => ih2 fun q hq => h q (by simp [hq])⟩
      rcases List.mem_cons.1 hq with rfl | hq
      · exact absurd h' hk
      · exact ⟨q, hq, h'⟩

end Joined
open Joined

/-- **C121.** All the sources are stored exactly if every option can make something of the tokens that count for it. Tokens of an option that does not
compose are not looked at after the first source that has any. -/
theorem C121_stored (env : Env) (all : List OptionDesc) (ha : OwnOptions env all) (srcs : List Parsed) (hs : ∀ p ∈ srcs, SourceOf all p) :
    (∃ m, Stores {} (srcs.map fun p => (p, false)) m) ↔ ∀ d ∈ all, ∃ r, Gains env d.semantic (heardOf srcs d) r := by
  rw [C104_succeeds]
  constructor
  · intro h d hd
    obtain ⟨r, hr⟩ := h d.own
    rcases (settled_heard ha hd hs _ _).1 hr with ⟨h0, -⟩ | ⟨-, a, hp, -⟩
    · exact ⟨none, by rw [h0]; exact .never _⟩
    · exact ⟨a, (gains_iff (ha.plain d hd) _ _).1 hp⟩
  · intro h n
    by_cases hn : ∃ p ∈ srcs, Mentions p.options n
    · obtain ⟨p, hp, hm⟩ := hn
      obtain ⟨d, hd, rfl⟩ := (hs p hp).mentions n hm
      have hd := (hs p hp).declares d hd
      obtain ⟨r, hr⟩ := h d hd
      have hne : heardOf srcs d ≠ [] := fun h0 => heardOf_nil.1 h0 p hp hm
      exact ⟨_, (settled_heard ha hd hs _ _).2 (.inr ⟨hne, r, (gains_iff (ha.plain d hd) _ _).2 hr, rfl⟩)⟩
    · exact ⟨_, settled_other (fun p hp hm => hn ⟨p, hp, hm⟩) none⟩

/-- Then an option that some source has got has the value from these tokens; -/
theorem C121_given (env : Env) (all : List OptionDesc) (ha : OwnOptions env all) (srcs : List Parsed) (hs : ∀ p ∈ srcs, SourceOf all p) (m : VarMap)
    (hm : Stores {} (srcs.map fun p => (p, false)) m) (d : OptionDesc) (hd : d ∈ all) (p : Parsed) (hp : p ∈ srcs) (hg : Mentions p.options d.own) :
    ∃ r, Gains env d.semantic (heardOf srcs d) r ∧ m.map.get? d.own = some { v := r, defaulted := false, semantic := some d.semantic } := by
  obtain ⟨r, hr, hv⟩ := C104_value _ m hm d.own
  rcases (settled_heard ha hd hs _ _).1 hr with ⟨h0, -⟩ | ⟨-, a, hpa, rfl⟩
  · exact absurd hg (heardOf_nil.1 h0 p hp)
  · exact ⟨a, (gains_iff (ha.plain d hd) _ _).1 hpa, hv⟩

/-- one that no source has got has its default, if it has one and a source knows it; -/
theorem C121_not_given (env : Env) (all : List OptionDesc) (ha : OwnOptions env all) (srcs : List Parsed) (hs : ∀ p ∈ srcs, SourceOf all p) (m : VarMap)
    (hm : Stores {} (srcs.map fun p => (p, false)) m) (d : OptionDesc) (hd : d ∈ all) (hg : ∀ p ∈ srcs, ¬ Mentions p.options d.own) :
    ((∃ p ∈ srcs, d ∈ p.desc) → m.map.get? d.own = d.semantic.applyDefault.map fun a => { v := a, defaulted := true, semantic := some d.semantic }) ∧
    ((∀ p ∈ srcs, d ∉ p.desc) → m.map.get? d.own = none) := by
  obtain ⟨r, hr, hv⟩ := C104_value _ m hm d.own
  rcases (settled_heard ha hd hs _ _).1 hr with ⟨-, rfl⟩ | ⟨h0, -⟩
  · rw [hv]
    constructor
    · intro h
      rw [(default_of ha hd hs).1 h]
      cases d.semantic.applyDefault <;> rfl
    · intro h
      rw [(default_of ha hd hs).2 h]
      rfl
  · exact absurd (heardOf_nil.2 hg) h0

/-- and there is nothing else in the map. -/
theorem C121_nothing_else (env : Env) (all : List OptionDesc) (_ha : OwnOptions env all) (srcs : List Parsed) (hs : ∀ p ∈ srcs, SourceOf all p) (m : VarMap)
    (hm : Stores {} (srcs.map fun p => (p, false)) m) (n : Str) (hn : ∀ d ∈ all, d.own ≠ n) : m.map.get? n = none := by
  obtain ⟨r, hr, hv⟩ := C104_value _ m hm n
  have hno : ∀ p ∈ srcs, ¬ Mentions p.options n := by
    intro p hp hmn
    obtain ⟨d, hd, h⟩ := (hs p hp).mentions n hmn
    exact hn d ((hs p hp).declares d hd) h
  cases hr.det (settled_other hno none)
  rw [hv]
  have : defaultFrom (srcs.map fun p => (p, false)) n = none := by
    unfold defaultFrom
    rw [List.findSome?_eq_none_iff]
    intro q hq
    obtain ⟨p, hp, rfl⟩ := List.mem_map.1 hq
    exact firstDefault_none fun d hd => hn d ((hs p hp).declares d hd)
  rw [this]
  rfl

namespace Joined
variable {env : Env} {all : List OptionDesc}

theorem lacking (ha : OwnOptions env all) {srcs : List Parsed} (hs : ∀ p ∈ srcs, SourceOf all p) {m : VarMap} (hm : Stores {} (srcs.map fun p => (p, false)) m)
    {d : OptionDesc} (hk : ∃ p ∈ srcs, d ∈ p.desc) : (m.get d.own).v = none ↔ (∀ p ∈ srcs, ¬ Mentions p.options d.own) ∧ d.semantic.applyDefault = none := by
  obtain ⟨p, hp, hdp⟩ := hk
  have hd := (hs p hp).declares d hdp
  unfold VarMap.get
  by_cases hg : ∃ q ∈ srcs, Mentions q.options d.own
  · obtain ⟨q, hq, hg⟩ := hg
    obtain ⟨r, hr, hv⟩ := C121_given env all ha srcs hs m hm d hd q hq hg
    rw [hv]
    exact ⟨fun h => absurd h (hr.some fun h0 => heardOf_nil.1 h0 q hq hg), fun h => absurd hg (h.1 q hq)⟩
  · have hg : ∀ q ∈ srcs, ¬ Mentions q.options d.own := fun q hq h => hg ⟨q, hq, h⟩
    rw [(C121_not_given env all ha srcs hs m hm d hd hg).1 ⟨p, hp, hdp⟩]
    cases hdf : d.semantic.applyDefault with
    | none => exact ⟨fun _ => ⟨hg, rfl⟩, fun _ => rfl⟩
    | some a => exact ⟨fun h => absurd h ((ha.plain d hd).default_some hdf), fun h => nomatch h.2⟩

theorem history {m m' : VarMap} {srcs : List (Parsed × Bool)} (h : Stores m srcs m') : History m srcs m' := by
  induction h with
  | nil => exact .nil _
  | cons h _ ih => exact .ok h ih

theorem required_iff {srcs : List Parsed} {k n : Str} : RequiredAs (srcs.map fun p => (p, false)) k n ↔
    ∃ p ∈ srcs, ∃ d ∈ p.desc, k ≠ [] ∧ d.own = k ∧ d.semantic.isRequired = true ∧ Shows d p.pre n := by
  unfold RequiredAs
  constructor
  · rintro ⟨q, hq, d, hd, hk, h1, h2, h3⟩
    obtain ⟨p, hp, rfl⟩ := List.mem_map.1 hq
    exact ⟨p, hp, d, hd, hk, h1, h2, h3⟩
  · rintro ⟨p, hp, d, hd, hk, h1, h2, h3⟩
    exact ⟨_, List.mem_map.2 ⟨p, hp, rfl⟩, d, hd, hk, h1, h2, h3⟩

theorem sameType (ha : OwnOptions env all) {srcs : List Parsed} (hs : ∀ p ∈ srcs, SourceOf all p) (name : Str) :
    ∃ T, ∀ q ∈ srcs.map fun p => (p, false), Mentions q.1.options name → ∀ d, candidates q.1.desc name = [d] → Narrow d.semantic T := by
  by_cases hd : ∃ d ∈ all, d.own = name
  · obtain ⟨d, hd, rfl⟩ := hd
    obtain ⟨T, hT⟩ := (ha.plain d hd).narrow
    refine ⟨T, fun q hq hm d' hd' => ?_⟩
    obtain ⟨p, hp, rfl⟩ := List.mem_map.1 hq
    cases (cand ha (hs p hp) (knows ha (hs p hp) hd hm)).symm.trans hd'
    exact hT
  · refine ⟨.scalar .str, fun q hq hm d' hd' => ?_⟩
    obtain ⟨p, hp, rfl⟩ := List.mem_map.1 hq
    obtain ⟨d, h1, h2⟩ := (hs p hp).mentions name hm
    exact absurd ⟨d, (hs p hp).declares d h1, h2⟩ hd

end Joined

/-- `notify` goes through exactly if no option is lacking; -/
theorem C121_notify (env : Env) (all : List OptionDesc) (ha : OwnOptions env all) (srcs : List Parsed) (hs : ∀ p ∈ srcs, SourceOf all p) (m : VarMap)
    (hm : Stores {} (srcs.map fun p => (p, false)) m) : m.notify.2 = none ↔ ∀ d ∈ all, ¬ LackingIn srcs d := by
  constructor
  · intro hn d hd hl
    obtain ⟨⟨p, hp, hdp⟩, h1, h2, h3⟩ := hl
    obtain ⟨k, display, -, -, -, -, hf⟩ := (C38_required _ m (history hm)).1 ⟨d.own, _, required_iff.2 ⟨p, hp, d, hdp, ha.named d hd, rfl, h1, (shows_iff d p.pre _).2 rfl⟩,
      (lacking ha hs hm ⟨p, hp, hdp⟩).2 ⟨h2, h3⟩⟩
    rw [hf] at hn
    cases hn
  · intro hall
    cases hf : m.notify.2 with
    | none => rfl
    | some f =>
      exfalso
      obtain ⟨e, he, s, hs', hnf⟩ := (C38_required _ m (history hm)).2 (by
        rintro k n hr hv
        obtain ⟨p, hp, d, hd, -, rfl, hr, -⟩ := required_iff.1 hr
        obtain ⟨h1, h2⟩ := (lacking ha hs hm ⟨p, hp, hd⟩).1 hv
        exact hall d ((hs p hp).declares d hd) ⟨⟨p, hp, hd⟩, hr, h1, h2⟩) f hf
      refine delivers_of ?_ hm ?_ (fun name => (sameType ha hs name).imp fun _ h q hq hm d hd => narrow_declared (h q hq hm d hd)) he hs' hnf
      · intro q hq
        obtain ⟨p, hp, rfl⟩ := List.mem_map.1 hq
        rfl
      · intro q hq d hd
        obtain ⟨p, hp, rfl⟩ := List.mem_map.1 hq
        exact (ha.plain d ((hs p hp).declares d hd)).narrow.imp fun _ => narrow_declared

/-- otherwise it throws `required_option` for a lacking option, the first of them by name, and has done nothing; -/
theorem C121_lacking (env : Env) (all : List OptionDesc) (ha : OwnOptions env all) (srcs : List Parsed) (hs : ∀ p ∈ srcs, SourceOf all p) (m : VarMap)
    (hm : Stores {} (srcs.map fun p => (p, false)) m) (d0 : OptionDesc) (hl : LackingIn srcs d0) :
    ∃ d ∈ all, ∃ p ∈ srcs, ∃ display, LackingIn srcs d ∧ (∀ d', LackingIn srcs d' → ¬ Earlier d'.own d.own) ∧ d ∈ p.desc ∧ Shows d p.pre display ∧
      m.notify = ([], some (missingRequired display)) := by
  have req : ∀ d, LackingIn srcs d → ∃ n, RequiredAs (srcs.map fun p => (p, false)) d.own n ∧ (m.get d.own).v = none := by
    rintro d ⟨⟨p, hp, hdp⟩, h1, h2, h3⟩
    exact ⟨_, required_iff.2 ⟨p, hp, d, hdp, ha.named d ((hs p hp).declares d hdp), rfl, h1, (shows_iff d p.pre _).2 rfl⟩, (lacking ha hs hm ⟨p, hp, hdp⟩).2 ⟨h2, h3⟩⟩
  obtain ⟨n0, hn0, hv0⟩ := req d0 hl
  obtain ⟨k, display, h1, h2, h3, -, h5⟩ := (C38_required _ m (history hm)).1 ⟨d0.own, n0, hn0, hv0⟩
  obtain ⟨p, hp, d, hd, -, rfl, hr, hsh⟩ := required_iff.1 h3
  obtain ⟨g1, g2⟩ := (lacking ha hs hm ⟨p, hp, hd⟩).1 h1
  refine ⟨d, (hs p hp).declares d hd, p, hp, display, ⟨⟨p, hp, hd⟩, hr, g1, g2⟩, fun d' hl' => ?_, hd, hsh, h5⟩
  obtain ⟨n, hn, hv⟩ := req d' hl'
  exact h2 d'.own n hn hv

/-- and if it goes through, a variable that belongs to one option has been assigned once: what the option gets from the tokens that count, or else its
default; or it has not been assigned, if there is neither. -/
theorem C121_variable (env : Env) (all : List OptionDesc) (ha : OwnOptions env all) (srcs : List Parsed) (hs : ∀ p ∈ srcs, SourceOf all p) (m : VarMap)
    (hm : Stores {} (srcs.map fun p => (p, false)) m) (es : List Event) (hn : m.notify = (es, none)) (addr : Nat) (d : OptionDesc) (hv : VariableOf env all addr d)
    (hk : ∃ p ∈ srcs, d ∈ p.desc) :
    ((∃ p ∈ srcs, Mentions p.options d.own) → ∃ v, Gains env d.semantic (heardOf srcs d) (some v) ∧ assigned addr es = [v]) ∧
    ((∀ p ∈ srcs, ¬ Mentions p.options d.own) → assigned addr es = (d.semantic.applyDefault.bind id).toList) := by
  have hd := hv.declared
  have hb : ∀ p ∈ srcs, Bound env p d.own addr d := by
    intro p hp
    refine ⟨hv.typed, fun d' hd' => hv.others d' ((hs p hp).declares d' hd'), fun hm => cand ha (hs p hp) (knows ha (hs p hp) hd hm), ?_, ?_⟩
    · intro k hk hcand
      obtain ⟨d', hd', rfl⟩ := (hs p hp).mentions k hk
      rw [cand ha (hs p hp) hd'] at hcand
      cases hcand
      rfl
    · exact fun d' hd' => ⟨fun h => ha.distinct d hd d' ((hs p hp).declares d' hd') h, fun h => by rw [h]⟩
  obtain ⟨p0, hp0, hk0⟩ := hk
  obtain ⟨r, hr, has⟩ := C104_variable env _ m hm es hn d.own addr d ⟨_, List.mem_map.2 ⟨p0, hp0, rfl⟩, hk0⟩
    (fun q hq => by obtain ⟨p, hp, rfl⟩ := List.mem_map.1 hq; exact hb p hp)
  rcases (settled_heard ha hd hs _ _).1 hr with ⟨h0, rfl⟩ | ⟨h0, a, hp, rfl⟩
  · refine ⟨fun ⟨p, hp, h⟩ => absurd h (heardOf_nil.1 h0 p hp), fun _ => ?_⟩
    rw [has, (default_of ha hd hs).1 ⟨p0, hp0, hk0⟩]
    cases d.semantic.applyDefault with
    | none => rfl
    | some a => rfl
  · refine ⟨fun _ => ?_, fun h => absurd (heardOf_nil.2 h) h0⟩
    have hgn := (gains_iff (ha.plain d hd) _ _).1 hp
    cases a with
    | none => exact absurd rfl (hgn.some h0)
    | some v => exact ⟨v, hgn, has⟩

/-- If a store is refused that is with an exception of the library. -/
theorem C121_otherwise (env : Env) (all : List OptionDesc) (ha : OwnOptions env all) (srcs : List Parsed) (hs : ∀ p ∈ srcs, SourceOf all p) (m : VarMap)
    (hm : Stores {} (srcs.map fun p => (p, false)) m) (p : Parsed) (hp : SourceOf all p) (m' : VarMap) (f : Fail) (h : store p m = (m', some f)) :
    LibraryException f := by
  refine store_library_of ?_ hm ?_ h
  · intro q hq
    obtain ⟨p, -, rfl⟩ := List.mem_map.1 hq
    rfl
  · exact sameType ha (srcs := p :: srcs) (by
      intro q hq
      rcases List.mem_cons.1 hq with rfl | hq
      · exact hp
      · exact hs q hq)

/-! ### Sources -/

/-- A command line is such a source; -/
theorem C121_command_line (env : Env) (all : List OptionDesc) (_ha : OwnOptions env all) (c : Cmdline) (hc : NamedParser c) (hsub : ∀ d ∈ c.desc, d ∈ all)
    (args : List Str) (p : Parsed) (h : c.parse args = .ok p) : SourceOf all p := by
  have hdesc := (OnceOnlyParser.run_of h).1
  refine ⟨by rw [hdesc]; exact hsub, by rw [hdesc]; exact hc.distinct, fun n hn => ?_⟩
  rw [hdesc]
  exact hc.declared h hn

theorem accepts_own {d : OptionDesc} {n : Str} (hown : d.own ≠ []) (hk : n ≠ [])
    (hacc : (d.firstLong = n ∧ n.getLast? ≠ some '*') ∨ ∃ stem, d.firstLong = stem ++ ['*'] ∧ stem <+: n ∧ stem ≠ n) : d.own = n := by
  unfold OptionDesc.own at hown ⊢
  unfold OptionDesc.firstLong at hacc
  cases hl : d.longNames with
  | nil =>
    rw [hl] at hacc
    rcases hacc with ⟨h, -⟩ | ⟨stem, h, -⟩
    · exact absurd h.symm hk
    · cases stem <;> cases h
  | cons n ns =>
    rw [hl] at hacc
    simp only [hl, List.head?_cons] at hown ⊢
    by_cases hs : '*' ∈ n
    · rw [if_pos hs] at hown; exact absurd rfl hown
    · rw [if_neg hs]
      rcases hacc with ⟨h, -⟩ | ⟨stem, h, -⟩
      · exact h
      · have h : n = stem ++ ['*'] := h
        rw [h] at hs
        simp at hs

/-- so is a configuration file; -/
theorem C121_config_file (env : Env) (all : List OptionDesc) (ha : OwnOptions env all) (desc : List OptionDesc) (hc : NoClash desc) (hsub : ∀ d ∈ desc, d ∈ all)
    (text : Str) (p : Parsed) (h : parseConfigFile text desc = .ok p) : SourceOf all p := by
  have hdesc := Hierarchy.file_desc h
  refine ⟨by rw [hdesc]; exact hsub, by rw [hdesc]; exact hc, fun n hn => ?_⟩
  rw [hdesc]
  obtain ⟨o, ho, rfl, hk, hreg⟩ := hn
  obtain ⟨d, hd, hacc⟩ := (C28_all_accepted text desc p h o ho).1
  exact ⟨d, hd, accepts_own (ha.named d (hsub d hd)) hk hacc⟩

theorem environment_mentions {mapper : Str → Str} {environ : List Str} {os : List Opt} (h : parseEnvironmentLoop mapper environ = .ok os) :
    ∀ o ∈ os, ∃ n, o.stringKey = mapper n := by
  induction environ generalizing os with
  | nil => cases h; simp
  | cons e es ih =>
    rw [parseEnvironmentLoop] at h
    cases h1 : splitEnv e with
    | error f => rw [h1] at h; cases h
    | ok q =>
      rw [h1] at h
      cases h2 : parseEnvironmentLoop mapper es with
      | error f => rw [h2] at h; cases h
      | ok os' =>
        rw [h2] at h
        dsimp only at h
        split at h
        · cases h; exact ih h2
        · cases h
          intro o ho
          rcases List.mem_cons.1 ho with rfl | ho
          · exact ⟨_, rfl⟩
          · exact ih h2 o ho

/-- so is the environment, if the mapper gives own names of options or nothing. -/
theorem C121_environment (env : Env) (all : List OptionDesc) (_ha : OwnOptions env all) (desc : List OptionDesc) (hc : NoClash desc) (hsub : ∀ d ∈ desc, d ∈ all)
    (environ : List Str) (mapper : Str → Str) (hmap : ∀ n, mapper n = [] ∨ ∃ d ∈ desc, d.own = mapper n) (p : Parsed)
    (h : parseEnvironment environ desc mapper = .ok p) : SourceOf all p := by
  have hdesc := Hierarchy.env_desc h
  refine ⟨by rw [hdesc]; exact hsub, by rw [hdesc]; exact hc, fun n hn => ?_⟩
  rw [hdesc]
  unfold parseEnvironment at h
  cases hl : parseEnvironmentLoop mapper environ with
  | error f => rw [hl] at h; cases h
  | ok os =>
    rw [hl] at h
    cases h
    obtain ⟨o, ho, rfl, hk, -⟩ := hn
    obtain ⟨v, hv⟩ := environment_mentions hl o ho
    rcases hmap v with h0 | h1
    · exact absurd (hv.trans h0) hk
    · rw [hv]; exact h1

/-! ### An example: command line, environment and configuration file -/

theorem Ex.three_named : NamedParser { desc := Ex.threeDesc } :=
  namedParser_of rfl (show active Style.defaultStyle Style.longCaseInsensitive = false from rfl)
    (show active Style.defaultStyle Style.shortCaseInsensitive = false from rfl) (by
      intro d hd
      simp only [Ex.threeDesc, List.mem_cons, List.not_mem_nil, or_false] at hd
      rcases hd with rfl | rfl | rfl <;> exact List.cons_ne_nil _ _)
    (by show [Test.L "name", Test.L "inc", Test.L "mode"].Nodup; decide) nofun

theorem Ex.three_own : OwnOptions Test.env Ex.threeDesc where
  plain := by
    intro d hd
    simp only [Ex.threeDesc, List.mem_cons, List.not_mem_nil, or_false] at hd
    rcases hd with rfl | rfl | rfl
    · exact .typed _ ⟨(by rintro q h; cases h), by rintro q h; cases h⟩ rfl
    · exact .typed _ ⟨(by rintro q h; cases h), by rintro q h; cases h⟩ rfl
    · exact .typed _ ⟨(by rintro q h; cases h; rfl), by rintro q h; cases h⟩ rfl
  named := Ex.three_named.named
  distinct := fun _ hd _ hd' h => Ex.three_named.unique hd hd' h

def Ex.threeSources : List Parsed := [Ex.three1, Ex.three2, Ex.three3]

theorem Ex.three_sources : ∀ p ∈ Ex.threeSources, SourceOf Ex.threeDesc p := by
  intro p hp
  simp only [Ex.threeSources, List.mem_cons, List.not_mem_nil, or_false] at hp
  rcases hp with rfl | rfl | rfl
  · exact C121_command_line Test.env _ Ex.three_own _ Ex.three_named (fun _ h => h) [Test.L "--inc", Test.L "a"] _ rfl
  · refine ⟨fun _ h => h, Ex.three_named.distinct, ?_⟩
    rintro n ⟨o, ho, rfl, -, -⟩
    cases List.mem_singleton.1 (show o ∈ [({ stringKey := Test.L "name", value := [Test.L "x"] } : Opt)] from ho)
    exact ⟨_, List.mem_cons_self .., rfl⟩
  · exact C121_config_file Test.env _ Ex.three_own _ Ex.three_named.distinct (fun _ h => h) (Test.L "name = y\ninc = b\n") _ rfl

/-- `name` is what the environment says, `inc` is the command line and then the file, `mode` nobody gives. -/
example : Ex.threeDesc.map (heardOf Ex.threeSources) = [[[Test.L "x"]], [[Test.L "a"], [Test.L "b"]], []] := rfl

example : ∃ m, Stores {} (Ex.threeSources.map fun p => (p, false)) m ∧ m.notify.2 = none := by
  have hm : Stores {} (Ex.threeSources.map fun p => (p, false)) Ex.threeMap :=
    .cons (m1 := (store Ex.three1 {}).1) rfl (.cons (m1 := (store Ex.three2 (store Ex.three1 {}).1).1) rfl (.cons (m1 := Ex.threeMap) rfl (.nil _)))
  refine ⟨_, hm, (C121_notify Test.env _ Ex.three_own _ Ex.three_sources _ hm).2 ?_⟩
  rintro d hd ⟨-, h, -⟩
  simp only [Ex.threeDesc, List.mem_cons, List.not_mem_nil, or_false] at hd
  rcases hd with rfl | rfl | rfl <;> cases h

end PO
